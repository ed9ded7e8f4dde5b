import Verif.Spec.OneThread
/-!
# Terms used in the statements about programs whose calls do not overlap
-/
namespace Soralog
namespace Many
open Sink (World Heap Snk)

/-- Only thread `t` makes steps: in the logging system and in the sinks it has to call; the worlds of the sinks answer (as `Alone`).  Every
sink it has to call satisfies `use`. -/
inductive AloneAll (S : Setup) (w : Nat → World) (use : Nat → Prop) (t : Tid) :
    St → (Nat → Nat) → (Nat → Nat) → St → (Nat → Nat) → (Nat → Nat) → Prop where
  | refl (s : St) (k j : Nat → Nat) : AloneAll S w use t s k j s k j
  | enter {s s' : St} {k j k' j' : Nat → Nat} (i : Nat) (q : Req) (rest : List (Nat × Req)) (hd : s.todo t = (i, q) :: rest)
      (hq : ∀ n, quiet ((s.leaf n).pc t)) (hi : (s.leaf i).pc t = .idle) (ho : (s.leaf i).owner = none)
      (h : AloneAll S w use t
        { s with todo := upd s.todo t rest, leaf := upd s.leaf i (SinkFull.setPc (s.leaf i) t (SinkFull.startPC (callNow (w i) (S.leaf i) (s.leaf i) q))) }
        k j s' k' j') : AloneAll S w use t s k j s' k' j'
  | leaf {s s' : St} {k j k' j' : Nat → Nat} (i : Nat) (ch : SinkConc.Ch) (ki ji : Nat)
      (ha : SinkFull.Answers (S.leaf i).conc (w i) ((s.leaf i).pc t) ch (k i) (j i) ki ji)
      (h : AloneAll S w use t { s with leaf := upd s.leaf i (SinkFull.step (S.leaf i).conc (s.leaf i) t ch) } (upd k i ki) (upd j i ji) s' k' j') :
      AloneAll S w use t s k j s' k' j'
  | system {s s' : St} {k j k' j' : Nat → Nat} (hf : Free s t) (hi : s.sys.pc t ≠ .idle)
      (hu : ∀ q ∈ (s.after S t (System.Conc.step s.sys t)).todo t, use q.1)
      (h : AloneAll S w use t (s.after S t (System.Conc.step s.sys t)) k j s' k' j') : AloneAll S w use t s k j s' k' j'

/-- Thread `t`, inside no call, begins this call of the program with one thread (`F` bounds the loops of the calls of the logging system; no
sink is created). -/
inductive Begins (S : Setup) (F : Nat) (t : Tid) (s : St) : Whole.Call → St → Prop
  /-- `log`, `trace` … `critical` of logger `i` -/
  | log (i : Nat) (r : System.Conc.Rec) (hn : i < s.sys.sys.nloggers) (ha : s.sys.sys.alive i = true) :
      Begins S F t s (.log i r.level (S.format r) (S.fmt r)) (s.after S t (s.sys.goto t (.log1 i r)))
  /-- `flush()` of logger `i`, whose sink is `n` -/
  | flushLogger (i n : Nat) (ha : s.sys.sys.alive i = true) (hs : (s.sys.sys.lgr i).sink = some n) (hn : n < s.sys.sys.nsinks) :
      Begins S F t s (.flush n) (s.after S t (s.sys.goto t (.log4 i)))
  /-- `flush()` of sink `n` -/
  | flush (n : Nat) (hn : n < s.sys.sys.nsinks) :
      Begins S F t s (.flush n) { s with todo := upd s.todo t (Direct.flush.plan S n), said := s.said ++ Direct.flush.said t n }
  /-- `rotate()` of sink `n` -/
  | rotate (n : Nat) (hn : n < s.sys.sys.nsinks) :
      Begins S F t s (.rotate n) { s with todo := upd s.todo t (Direct.rotate.plan S n), said := s.said ++ Direct.rotate.said t n }
  /-- a call of the logging system, a method of a logger, dropping a logger -/
  | system (op : System.Op) (v : System.Val) (sys' : System.Sys) (hm : System.Conc.isMakeGroup op = false)
      (hc : System.step F s.sys.sys op = .ret v sys') (hn : sys'.nsinks = s.sys.sys.nsinks) :
      Begins S F t s (.system op) (s.after S t (s.sys.finish t sys' op (.ret v)))
  /-- … that throws -/
  | failed (op : System.Op) (sys' : System.Sys) (hm : System.Conc.isMakeGroup op = false) (hc : System.step F s.sys.sys op = .throw sys') :
      Begins S F t s (.system op) (s.after S t (s.sys.finish t sys' op .thrown))
  /-- `makeGroup` -/
  | makeGroup (a : System.Conc.Args) : Begins S F t s (.system a.op) (s.after S t (s.sys.goto t a.start))

/-- What happens, one thing after the other: a thread makes a call, the worker of a sink makes a pass. -/
inductive Turn where
  | call (t : Tid) (c : Whole.Call)
  | pass (i : Nat)

/-- Calls made by any threads and passes of workers, one after the other: each is over before the next one begins. -/
inductive Turns (S : Setup) (w : Nat → World) (use : Nat → Prop) (F : Nat) :
    St → (Nat → Nat) → (Nat → Nat) → List Turn → St → (Nat → Nat) → (Nat → Nat) → Prop where
  | nil (s : St) (k j : Nat → Nat) : Turns S w use F s k j [] s k j
  | call {s s0 s1 s' : St} {k j k1 j1 k' j' : Nat → Nat} {rest : List Turn} (t : Tid) (c : Whole.Call) (ht : t ≠ SinkConc.workerTid)
      (hf : Free s t) (hi : s.sys.pc t = .idle) (hb : Begins S F t s c s0) (hu : ∀ q ∈ s0.todo t, use q.1)
      (h : AloneAll S w use t s0 k j s1 k1 j1) (hr : Free s1 t) (he : s1.sys.pc t = .idle)
      (hrest : Turns S w use F s1 k1 j1 rest s' k' j') : Turns S w use F s k j (.call t c :: rest) s' k' j'
  | pass {s s1 s' : St} {k j k1 j1 k' j' : Nat → Nat} {rest : List Turn} (i : Nat) (ch : SinkConc.Ch) (hu : use i)
      (hp : (s.leaf i).pc SinkConc.workerTid = .wWait) (ht : ch.timeout = true)
      (h : Alone S w SinkConc.workerTid { s with leaf := upd s.leaf i (SinkFull.step (S.leaf i).conc (s.leaf i) SinkConc.workerTid ch) } k j s1 k1 j1)
      (hr : ∀ n, (s1.leaf n).pc SinkConc.workerTid = .wWait ∨ (s1.leaf n).pc SinkConc.workerTid = .wExit)
      (hrest : Turns S w use F s1 k1 j1 rest s' k' j') : Turns S w use F s k j (.pass i :: rest) s' k' j'

/-- The same in the model of a whole program with one thread: a pass of a worker is a flush of its sink. -/
def oneTurn (E : Whole.Env) (F : Nat) : Turn → Whole.State → Option Whole.State
  | .call _ c, x =>
    match Whole.step E F x c with
    | .ok x' => some x'
    | .throw x' => some x'
    | _ => none
  | .pass i, x => some { x with heap := (Snk.leaf i).flush x.heap }

def allTurns (E : Whole.Env) (F : Nat) : List Turn → Whole.State → Option Whole.State
  | [], x => some x
  | c :: rest, x => (oneTurn E F c x).bind (allTurns E F rest)

end Many
end Soralog
