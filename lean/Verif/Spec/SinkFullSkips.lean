import Verif.Model.SinkFull
/-!
# Executions of a sink (on the queue as it is written) with the number of skipped flushes
-/
namespace Soralog
namespace SinkFull
open SinkConc (Cfg Ch Call)

/-- the next step of thread `t` ends a call (of `push`, `flush`, `async_flush` or `rotate`) whose flush is skipped because another
thread is inside `flush` -/
def GivesUp (s : St) (t : Tid) : Prop := s.pc t = .enter .done ∧ s.flag = true

/-- executions in which `n` calls returned from a flush that was skipped because another thread was inside -/
inductive ReachSkips (c : Cfg) (opened : Bool) : Nat → St → Prop where
  | init : ReachSkips c opened 0 (init c opened)
  | call {n : Nat} {s : St} (h : ReachSkips c opened n s) (t : Tid) (ht : t ≠ SinkConc.workerTid) (hi : s.pc t = .idle)
      (hd : s.owner = none) (call : Call) : ReachSkips c opened n (setPc s t (startPC call))
  | step {n : Nat} {s : St} (h : ReachSkips c opened n s) (t : Tid) (ch : Ch) (hns : ¬ GivesUp s t) :
      ReachSkips c opened n (step c s t ch)
  | skip {n : Nat} {s : St} (h : ReachSkips c opened n s) (t : Tid) (ch : Ch) (hs : GivesUp s t) :
      ReachSkips c opened (n + 1) (step c s t ch)
  | destroy {n : Nat} {s : St} (h : ReachSkips c opened n s) (t : Tid) (ht : t ≠ SinkConc.workerTid) (hd : s.owner = none)
      (hi : ∀ u, u ≠ SinkConc.workerTid → s.pc u = .idle) : ReachSkips c opened n (setPc { s with owner := some t } t .dStart)

end SinkFull
end Soralog
