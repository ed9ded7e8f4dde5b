import Verif.Model.SinkConc
import Verif.Model.SinkFull
import Verif.Model.SinkClock
/-!
# Terms used in the statements about sinks used by several threads
-/
namespace Soralog
namespace SinkConc

/-- between `test_and_set` and `clear` of `flush_in_progress_` -/
@[grind =] def PC.inBody : PC → Bool
  | .get _ | .uncount _ _ | .unref _ _ | .write _ _ | .casFlush _ | .sync _ | .casRotate _ | .reopen _
  | .leave _ | .sCall _ _ | .sUncount _ _ | .sUnref _ _ | .sClear _ => true
  | _ => false

/-- Continuations in which no new call is started. -/
inductive Steps (c : Cfg) : St → St → Prop where
  | refl (s : St) : Steps c s s
  | more {s s' : St} (t : Tid) (ch : Ch) : Steps c (step c s t ch) s' → Steps c s s'

end SinkConc

namespace SinkFull
open SinkConc (Cfg Ch)

/-- Continuations in which no new call is started. -/
inductive Steps (c : Cfg) : St → St → Prop where
  | refl (s : St) : Steps c s s
  | more {s s' : St} (t : Tid) (ch : Ch) : Steps c (step c s t ch) s' → Steps c s s'

/-- `s'` comes after `s` in some execution. -/
inductive Later (c : Cfg) (s : St) : St → Prop where
  | refl : Later c s s
  | next {s' s'' : St} : Later c s s' → Exec c s' s'' → Later c s s''

/-- Continuations of `s` in which thread `t` does nothing: everything the other threads may do, see `SinkFull.Exec`. -/
inductive Others (c : Cfg) (t : Tid) (s : St) : St → Prop where
  | refl : Others c t s s
  | call {s' : St} (u : Tid) (call : SinkConc.Call) : Others c t s s' → u ≠ SinkConc.workerTid → s'.pc u = .idle → s'.owner = none →
      Others c t s (setPc s' u (startPC call))
  | step {s' : St} (u : Tid) (ch : Ch) : Others c t s s' → u ≠ t → Others c t s (step c s' u ch)
  | destroy {s' : St} (u : Tid) : Others c t s s' → u ≠ SinkConc.workerTid → s'.owner = none → (∀ v, v ≠ SinkConc.workerTid → s'.pc v = .idle) →
      Others c t s (setPc { s' with owner := some u } u .dStart)

/-- Continuations made of steps of the threads in `P` only. -/
inductive StepsBy (c : Cfg) (P : Tid → Prop) : St → St → Prop where
  | refl (s : St) : StepsBy c P s s
  | more {s s' : St} (t : Tid) (ch : Ch) : P t → StepsBy c P (step c s t ch) s' → StepsBy c P s s'

/-- thread `t` is formatting a message: it is inside the constructor of the event -/
def Formatting (s : St) (t : Tid) : Prop := ∃ e k, s.ring.pc t = .putInit e k ∨ s.ring.pc t = .putBuild e k

/-- thread `t` is formatting the message that is the next to be written -/
def FormattingNext (s : St) (t : Tid) : Prop :=
  ∃ e, s.ring.pc t = .putInit e s.ring.buf.popIdx ∨ s.ring.pc t = .putBuild e s.ring.buf.popIdx

end SinkFull

namespace SinkClock
open SinkConc (Cfg)

/-- `s'` comes after `s` in some execution. -/
inductive Later (c : Cfg) (s : St) : St → Prop where
  | refl : Later c s s
  | next {s' s'' : St} : Later c s s' → Exec c s' s'' → Later c s s''

end SinkClock

end Soralog
