import Verif.Model.SinkFull
import Verif.Model.SystemConc
import Verif.Model.Whole
/-!
# Model of a whole program with many threads: the logging system, its loggers and its sinks

`System.Conc` (several threads on one logging system) and `SinkFull` (several threads, the worker and the destructor on one sink, whose queue
is executed one atomic access at a time) put together: when a log call reaches `sink_->push(…)` or `sink_->flush()`, the thread makes the
calls of the queue-owning sinks that this call consists of, one after another, each step interleaved with the steps of all other threads.

Sources: include/soralog/logger.hpp:40-56, include/soralog/sink.hpp:117-170, src/impl/multisink.cpp:16-34, src/logging_system.cpp:99-154.

Simplifications: those of `System.Conc` and `SinkFull`.  The sinks exist from the beginning (the number a logger holds names one of them);
the levels of sinks are constants, so a thread decides which sinks its call goes to when the call starts.  A warning of the logging
system is pushed after the call that caused it has left the mutex (in the code: before, so there are fewer interleavings).  The sink to nowhere
is not among the queue-owning sinks: it accepts nothing and writes nothing (C13).
-/
namespace Soralog
namespace Many
open System.Conc (Rec SinkCall Args)

/-- a queue-owning sink as constructed. [sink.hpp:62-82, file:73-98] -/
structure LeafCfg where
  conc : SinkConc.Cfg
  level : Level
  ti : ThreadInfo
  maxLen : Nat
  opened : Bool

/-- What is given: the object behind each sink pointer, the queue-owning sinks, and what formatting a log call gives
(format and arguments are a constant of the call, event.hpp:90-107). [sink.hpp:62-93] -/
structure Setup where
  snk : Nat → Sink.Snk
  leaf : Nat → LeafCfg
  format : Rec → Text
  fmt : Rec → FmtResult

/-- the message of a log call through a logger of this name. [logger.hpp:44-49] -/
def Setup.msg (S : Setup) (name : Text) (r : Rec) : Msg := ⟨name, r.level, S.format r, S.fmt r⟩

/-- a call of a queue-owning sink, after its level filter. [sink.hpp:117-170] -/
inductive Req where
  | push (m : Msg)
  | flush
  | asyncFlush
  | rotate
deriving DecidableEq

mutual
/-- the calls of queue-owning sinks in `push` of any sink, sink.hpp:121-153.  (A multisink with an empty list that admits the message is
undefined behaviour, C31.) -/
def pushPlan (S : Setup) (m : Msg) : Sink.Snk → List (Nat × Req)
  | .leaf i => if Sink.rejects (S.leaf i).level m.level then [] else [(i, .push m)]
  | .multi lv subs => if Sink.rejects lv m.level then [] else pushPlanAll S m subs
/-- sink.hpp:151-153 -/
def pushPlanAll (S : Setup) (m : Msg) : List Sink.Snk → List (Nat × Req)
  | [] => []
  | s :: ss => pushPlan S m s ++ pushPlanAll S m ss
end

/-- `async_flush` of any sink; `Multisink::async_flush` does nothing, multisink.hpp:36 -/
def asyncPlan : Sink.Snk → List (Nat × Req)
  | .leaf i => [(i, .asyncFlush)]
  | .multi _ _ => []

mutual
/-- `flush` of any sink, multisink.cpp:21-28 -/
def flushPlan : Sink.Snk → List (Nat × Req)
  | .leaf i => [(i, .flush)]
  | .multi _ subs => subs.flatMap asyncPlan ++ flushPlanAll subs
/-- multisink.cpp:25-27 -/
def flushPlanAll : List Sink.Snk → List (Nat × Req)
  | [] => []
  | s :: ss => flushPlan s ++ flushPlanAll ss
end

mutual
/-- `rotate` of any sink, multisink.cpp:30-34 -/
def rotatePlan : Sink.Snk → List (Nat × Req)
  | .leaf i => [(i, .rotate)]
  | .multi _ subs => rotatePlanAll subs
/-- multisink.cpp:31-33 -/
def rotatePlanAll : List Sink.Snk → List (Nat × Req)
  | [] => []
  | s :: ss => rotatePlan s ++ rotatePlanAll ss
end

/-- who pushes: a log call, the logging system itself (a warning of `getLogger`), the user directly. [logger.hpp:49, logging_system.cpp:124-138, sink.hpp:117] -/
inductive By where
  | log | warning | user
deriving DecidableEq

/-- history: thread `thread` has called `push` of sink `sink` with this message. [sink.hpp:117-120] -/
structure Said where
  thread : Tid
  origin : By
  sink : Nat
  msg : Msg
deriving DecidableEq

/-- The system, the queue-owning sinks, what each thread still has to call before its current call of a sink is over, the history of pushes.
[logging_system.hpp:276-281, sink.hpp:174-182] -/
structure St where
  sys : System.Conc.St
  leaf : Nat → SinkFull.St
  todo : Tid → List (Nat × Req)
  said : List Said

/-- all sinks newly constructed, nothing called yet. [logging_system.cpp:22-25, file:73-98] -/
def init (S : Setup) (debug : Bool) (ord : List Nat → List Nat) : St :=
  { sys := System.Conc.init debug ord, leaf := fun i => SinkFull.init (S.leaf i).conc (S.leaf i).opened, todo := fun _ => [], said := [] }

/-- not inside a call of this sink (a thread that has destroyed the sink is not either). [sink.hpp:117-170] -/
def quiet (p : SinkFull.PC) : Prop := p = .idle ∨ p = .dead

/-- thread `t` is inside no call of a sink. [sink.hpp:117-170] -/
def Free (s : St) (t : Tid) : Prop := s.todo t = [] ∧ ∀ i, quiet ((s.leaf i).pc t)

/-- One step of thread `t` in the logging system: `System.Conc.Exec` with the thread named. [logging_system.cpp:27-557, logger.hpp:44-56] -/
inductive Moves (t : Tid) : System.Conc.St → System.Conc.St → Prop
  | call (s : System.Conc.St) (op : System.Op) (fuel : Nat) (v : System.Val) (sys' : System.Sys) (hi : s.pc t = .idle)
      (hm : System.Conc.isMakeGroup op = false) (hc : System.step fuel s.sys op = .ret v sys') : Moves t s (s.finish t sys' op (.ret v))
  | failed (s : System.Conc.St) (op : System.Op) (fuel : Nat) (sys' : System.Sys) (hi : s.pc t = .idle)
      (hm : System.Conc.isMakeGroup op = false) (hc : System.step fuel s.sys op = .throw sys') : Moves t s (s.finish t sys' op .thrown)
  | configuring (s : System.Conc.St) (hi : s.pc t = .idle) :
      Moves t s { s with sys := { s.sys with configured := true }, done := s.done ++ [.configuring] }
  | makeGroup (s : System.Conc.St) (a : Args) (hi : s.pc t = .idle) : Moves t s (s.goto t a.start)
  | log (s : System.Conc.St) (i : Nat) (r : Rec) (hi : s.pc t = .idle) (ha : s.sys.alive i = true) : Moves t s (s.goto t (.log1 i r))
  | flush (s : System.Conc.St) (i : Nat) (hi : s.pc t = .idle) (ha : s.sys.alive i = true) : Moves t s (s.goto t (.log4 i))
  | step (s : System.Conc.St) (hi : s.pc t ≠ .idle) : Moves t s (System.Conc.step s t)

/-- the name of the logger the thread is logging through: the first argument of `sink_->push`, logger.hpp:49 -/
def nameFor (s : System.Conc.St) (t : Tid) : Text :=
  match s.pc t with
  | .log2 i _ => (s.sys.lgr i).name
  | _ => []

/-- what a call of a sink by a log call consists of, logger.hpp:49-51 -/
def planOf (S : Setup) (name : Text) : SinkCall → List (Nat × Req)
  | .push _ k r => pushPlan S (S.msg name r) (S.snk k)
  | .flush _ k => flushPlan (S.snk k)
  | .null _ => []

/-- no code of its own (history) -/
def saidOf (S : Setup) (name : Text) : SinkCall → List Said
  | .push t k r => [⟨t, .log, k, S.msg name r⟩]
  | _ => []

/-- the message of a warning, logging_system.cpp:115-118, 124-125, 131-138 -/
def warningMsg (w : System.Warning) : Msg := ⟨"Soralog".toList, .warn, Whole.warningFormat w, .ok (Whole.warningText w)⟩

/-- the temporary logger pushes and, its level being at least `WARN`, flushes. [logging_system.cpp:124-125, 131-138, logger.hpp:47-51] -/
def warnPlan (S : Setup) (w : System.Warning) : List (Nat × Req) :=
  pushPlan S (warningMsg w) (S.snk (Whole.warningSink w)) ++ flushPlan (S.snk (Whole.warningSink w))

/-- no code of its own (history) -/
def warnSaid (t : Tid) (w : System.Warning) : Said := ⟨t, .warning, Whole.warningSink w, warningMsg w⟩

/-- after a step of thread `t` in the logging system: the calls of sinks it has to make now. [logger.hpp:49-51, logging_system.cpp:124-138] -/
def St.after (S : Setup) (s : St) (t : Tid) (sys' : System.Conc.St) : St :=
  let out := sys'.out.drop s.sys.out.length
  let warned := sys'.sys.warned.drop s.sys.sys.warned.length
  { s with sys := sys', todo := upd s.todo t (out.flatMap (planOf S (nameFor s.sys t)) ++ warned.flatMap (warnPlan S)),
           said := s.said ++ (out.flatMap (saidOf S (nameFor s.sys t)) ++ warned.map (warnSaid t)) }

/-- the call of a queue-owning sink that serves a request: the event of a push is constructed from the message at some moment, with the
clock and the thread as they are then. [sink.hpp:127-132, event.hpp:46-112] -/
inductive Serves (c : LeafCfg) : Req → SinkConc.Call → Prop
  | push (m : Msg) (env : Env) : Serves c (.push m) (.push (mkEvent env c.ti c.maxLen m))
  | flush : Serves c .flush .flush
  | asyncFlush : Serves c .asyncFlush .asyncFlush
  | rotate : Serves c .rotate .rotate

/-- a call the user makes on a sink directly. [sink.hpp:117-170] -/
inductive Direct where
  | push (m : Msg)
  | flush
  | asyncFlush
  | rotate

/-- what it consists of. [sink.hpp:117-153, multisink.cpp:21-34, multisink.hpp:36] -/
def Direct.plan (S : Setup) (k : Nat) : Direct → List (Nat × Req)
  | .push m => pushPlan S m (S.snk k)
  | .flush => flushPlan (S.snk k)
  | .asyncFlush => asyncPlan (S.snk k)
  | .rotate => rotatePlan (S.snk k)

/-- no code of its own (history) -/
def Direct.said (t : Tid) (k : Nat) : Direct → List Said
  | .push m => [⟨t, .user, k, m⟩]
  | _ => []

/-- What may happen next.  Usage rules: a sink is destroyed when no thread is inside a call of it, and not used afterwards (the loggers,
groups and multisinks that hold it keep it alive, C85). [logger.hpp:44-56, sink.hpp:117-170, file:99-277] -/
inductive Exec (S : Setup) : St → St → Prop
  /-- a thread that is in no call of a sink goes on in the logging system -/
  | system (s : St) (t : Tid) (sys' : System.Conc.St) (ht : t ≠ SinkConc.workerTid) (hf : Free s t) (hm : Moves t s.sys sys') :
      Exec S s (s.after S t sys')
  /-- … or calls a sink directly -/
  | direct (s : St) (t : Tid) (k : Nat) (d : Direct) (ht : t ≠ SinkConc.workerTid) (hf : Free s t) (hi : s.sys.pc t = .idle) :
      Exec S s { s with todo := upd s.todo t (d.plan S k), said := s.said ++ d.said t k }
  /-- … or destroys a sink -/
  | destroy (s : St) (t : Tid) (i : Nat) (ht : t ≠ SinkConc.workerTid) (hf : Free s t) (hi : s.sys.pc t = .idle) (ho : (s.leaf i).owner = none)
      (hc : ∀ u, u ≠ SinkConc.workerTid → (s.leaf i).pc u = .idle) (hn : ∀ u, ∀ q ∈ s.todo u, q.1 ≠ i) :
      Exec S s { s with leaf := upd s.leaf i (SinkFull.setPc { s.leaf i with owner := some t } t .dStart) }
  /-- a thread enters the next sink of its list -/
  | enter (s : St) (t : Tid) (i : Nat) (q : Req) (rest : List (Nat × Req)) (call : SinkConc.Call) (ht : t ≠ SinkConc.workerTid)
      (hd : s.todo t = (i, q) :: rest) (hf : ∀ j, quiet ((s.leaf j).pc t)) (hi : (s.leaf i).pc t = .idle) (ho : (s.leaf i).owner = none)
      (hs : Serves (S.leaf i) q call) :
      Exec S s { s with todo := upd s.todo t rest, leaf := upd s.leaf i (SinkFull.setPc (s.leaf i) t (SinkFull.startPC call)) }
  /-- a thread inside a sink (a client, the worker of that sink, the destructor) makes a step -/
  | leaf (s : St) (i : Nat) (t : Tid) (ch : SinkConc.Ch) :
      Exec S s { s with leaf := upd s.leaf i (SinkFull.step (S.leaf i).conc (s.leaf i) t ch) }

/-- all executions. [logging_system.cpp, logger.hpp, sink.hpp, file:73-277] -/
inductive Reach (S : Setup) : St → Prop
  | init (debug : Bool) (ord : List Nat → List Nat) (ho : ∀ l, (ord l).Perm l) : Reach S (init S debug ord)
  | next {s s' : St} : Reach S s → Exec S s s' → Reach S s'

end Many
end Soralog
