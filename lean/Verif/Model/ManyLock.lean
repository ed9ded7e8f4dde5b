import Verif.Model.Many
/-!
# Model of a whole program with many threads and the mutex of its logging system

`Many` leaves the mutex of the logging system out: a call under it is one step.  Here the mutex is taken and released: a thread holds it from the
step of the call until its `std::lock_guard` is destroyed, so also while `getLogger` pushes its warnings to a sink, while a replaced sink is
destroyed by `makeSink`, and, because the mutex is recursive, from the beginning of `configure` to its end, around all calls of the configurator.

Sources: src/logging_system.cpp:32-40, 60-97, 104-154 and every `std::lock_guard guard(mutex_)` of that file,
include/soralog/logging_system.hpp:118-123, 278, src/logger.cpp:28-100, include/soralog/logger.hpp:44-56.

Simplifications: those of `Many`, except that a warning is now pushed before the mutex is released.  The methods of a logger object that take a
name (they take the mutex only to look the name up) are the methods that take a pointer, which do not take it.  A second `configure`, which
throws at once, has no step.
-/
namespace Soralog
namespace Many
namespace Lock
open System.Conc (PC Args Rec Outcome)

/-- the program; the thread that is inside `configure`; the thread that holds the mutex for the call it is in. [logging_system.hpp:278] -/
structure St where
  prog : Many.St
  conf : Option Tid
  busy : Option Tid

/-- nothing called yet. [logging_system.cpp:22-25] -/
def init (S : Setup) (debug : Bool) (ord : List Nat → List Nat) : St := ⟨Many.init S debug ord, none, none⟩

/-- does this call begin with `std::lock_guard guard(mutex_)`? [logging_system.cpp:43-548, logging_system.hpp:119; logger.cpp:28-100 does not] -/
def locks : System.Op → Bool
  | .onHandle .. => false
  | .drop _ => false
  | _ => true

/-- does the next step of `makeGroup` take the mutex? `getGroup` and `getSink` do, and the insertion. [logging_system.cpp:34, 158, 168, group.cpp:22, 29] -/
def locksAt : PC → Bool
  | .mkParent _ => true
  | .mkSink a _ => a.sink.isSome
  | .mkInsert _ _ => true
  | _ => false

/-- the mutex is free, or the thread itself holds it (inside `configure`). [logging_system.hpp:278 `std::recursive_mutex`] -/
def CanLock (s : St) (t : Tid) : Prop := s.busy = none ∧ (s.conf = none ∨ s.conf = some t)

/-- what a call gives: a value or an exception. [logging_system.cpp:27-557] -/
def Gives (fuel : Nat) (s : System.Sys) (op : System.Op) (s' : System.Sys) : Outcome → Prop
  | .ret v => System.step fuel s op = .ret v s'
  | .thrown => System.step fuel s op = .throw s'

/-- A thread that is inside a call goes on. [logging_system.cpp:27-557, logger.hpp:44-56, sink.hpp:117-170] -/
inductive Go (S : Setup) : St → St → Prop
  /-- the next step of `makeGroup` or of a log call; where it has to, it waits for the mutex -/
  | step (s : St) (t : Tid) (ht : t ≠ SinkConc.workerTid) (hf : Free s.prog t) (hb : s.busy ≠ some t) (hi : s.prog.sys.pc t ≠ .idle)
      (hl : locksAt (s.prog.sys.pc t) = true → CanLock s t) :
      Go S s { s with prog := s.prog.after S t (System.Conc.step s.prog.sys t), busy := if locksAt (s.prog.sys.pc t) then some t else s.busy }
  /-- a call that took the mutex ends, its sink calls being over: `~lock_guard` -/
  | unlock (s : St) (t : Tid) (hf : Free s.prog t) (hb : s.busy = some t) : Go S s { s with busy := none }
  /-- `configure` ends, logging_system.cpp:75-97 -/
  | configured (s : St) (t : Tid) (hf : Free s.prog t) (hi : s.prog.sys.pc t = .idle) (hc : s.conf = some t) (hb : s.busy ≠ some t) :
      Go S s { s with conf := none }
  /-- a thread enters the next sink of its list, as in `Many.Exec` -/
  | enter (s : St) (t : Tid) (i : Nat) (q : Req) (rest : List (Nat × Req)) (call : SinkConc.Call) (ht : t ≠ SinkConc.workerTid)
      (hd : s.prog.todo t = (i, q) :: rest) (hf : ∀ j, quiet ((s.prog.leaf j).pc t)) (hi : (s.prog.leaf i).pc t = .idle)
      (ho : (s.prog.leaf i).owner = none) (hs : Serves (S.leaf i) q call) :
      Go S s { s with prog := { s.prog with todo := upd s.prog.todo t rest, leaf := upd s.prog.leaf i (SinkFull.setPc (s.prog.leaf i) t (SinkFull.startPC call)) } }
  /-- a thread inside a sink makes a step, as in `Many.Exec` -/
  | leaf (s : St) (i : Nat) (t : Tid) (ch : SinkConc.Ch) :
      Go S s { s with prog := { s.prog with leaf := upd s.prog.leaf i (SinkFull.step (S.leaf i).conc (s.prog.leaf i) t ch) } }

/-- What may happen next: a thread goes on, or a thread that is in no call starts one.
[logging_system.cpp:27-557, logger.hpp:44-56, 190-192, sink.hpp:117-170] -/
inductive Exec (S : Setup) : St → St → Prop
  | go {s s' : St} (h : Go S s s') : Exec S s s'
  | call (s : St) (t : Tid) (op : System.Op) (fuel : Nat) (o : Outcome) (sys' : System.Sys) (ht : t ≠ SinkConc.workerTid) (hf : Free s.prog t)
      (hb : s.busy ≠ some t) (hi : s.prog.sys.pc t = .idle) (hm : System.Conc.isMakeGroup op = false) (hl : locks op = true → CanLock s t)
      (hc : Gives fuel s.prog.sys.sys op sys' o) :
      Exec S s { s with prog := s.prog.after S t (s.prog.sys.finish t sys' op o), busy := if locks op then some t else s.busy }
  /-- logging_system.cpp:61-66 -/
  | configure (s : St) (t : Tid) (ht : t ≠ SinkConc.workerTid) (hf : Free s.prog t) (hi : s.prog.sys.pc t = .idle) (hb : s.busy = none)
      (hc : s.conf = none) (hn : s.prog.sys.sys.configured = false) :
      Exec S s { s with prog := s.prog.after S t { s.prog.sys with sys := { s.prog.sys.sys with configured := true }, done := s.prog.sys.done ++ [.configuring] },
                        conf := some t }
  | makeGroup (s : St) (t : Tid) (a : Args) (ht : t ≠ SinkConc.workerTid) (hf : Free s.prog t) (hb : s.busy ≠ some t) (hi : s.prog.sys.pc t = .idle) :
      Exec S s { s with prog := s.prog.after S t (s.prog.sys.goto t a.start) }
  | log (s : St) (t : Tid) (i : Nat) (r : Rec) (ht : t ≠ SinkConc.workerTid) (hf : Free s.prog t) (hb : s.busy ≠ some t) (hi : s.prog.sys.pc t = .idle)
      (ha : s.prog.sys.sys.alive i = true) : Exec S s { s with prog := s.prog.after S t (s.prog.sys.goto t (.log1 i r)) }
  | flush (s : St) (t : Tid) (i : Nat) (ht : t ≠ SinkConc.workerTid) (hf : Free s.prog t) (hb : s.busy ≠ some t) (hi : s.prog.sys.pc t = .idle)
      (ha : s.prog.sys.sys.alive i = true) : Exec S s { s with prog := s.prog.after S t (s.prog.sys.goto t (.log4 i)) }
  | direct (s : St) (t : Tid) (k : Nat) (d : Direct) (ht : t ≠ SinkConc.workerTid) (hf : Free s.prog t) (hb : s.busy ≠ some t)
      (hi : s.prog.sys.pc t = .idle) :
      Exec S s { s with prog := { s.prog with todo := upd s.prog.todo t (d.plan S k), said := s.prog.said ++ d.said t k } }
  /-- a sink is destroyed, by its user or, with the mutex held, by the call that has dropped the last pointer to it
  (`sinks_[sink->name()] = sink`, logging_system.hpp:121) -/
  | destroy (s : St) (t : Tid) (i : Nat) (ht : t ≠ SinkConc.workerTid) (hf : Free s.prog t) (hi : s.prog.sys.pc t = .idle)
      (ho : (s.prog.leaf i).owner = none) (hc : ∀ u, u ≠ SinkConc.workerTid → (s.prog.leaf i).pc u = .idle)
      (hn : ∀ u, ∀ q ∈ s.prog.todo u, q.1 ≠ i) :
      Exec S s { s with prog := { s.prog with leaf := upd s.prog.leaf i (SinkFull.setPc { s.prog.leaf i with owner := some t } t .dStart) } }

/-- all executions. [logging_system.cpp, logger.hpp, sink.hpp, file:73-277] -/
inductive Reach (S : Setup) : St → Prop
  | init (debug : Bool) (ord : List Nat → List Nat) (ho : ∀ l, (ord l).Perm l) : Reach S (init S debug ord)
  | next {s s' : St} : Reach S s → Exec S s s' → Reach S s'

end Lock
end Many
end Soralog
