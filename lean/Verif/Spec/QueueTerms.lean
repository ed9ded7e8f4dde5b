import Verif.Model.Ring
/-!
# Terms used in the statements about the queue
-/
namespace Soralog
namespace Ring
variable {T : Type}

/-- Only steps and releases, no new calls. -/
def NoCalls (as : List (Act T)) : Prop := ∀ a ∈ as, match a with | .call _ _ => False | _ => True

/-- Thread `t` is constructing an element (for a sink: formatting a message) in place `k` of the queue. -/
def Constructing (s : St T) (t : Tid) (k : Nat) : Prop := ∃ v, s.pc t = .putInit v k ∨ s.pc t = .putBuild v k

/-- inside a call of `get` -/
def InsideGet : PC T → Prop
  | .getSpin | .getCheck | .getEmpty | .getCapture | .getRetry | .getAdvance _ | .getCount _ | .getUnlock _ _ => True
  | _ => False

/-- Thread `t` does nothing during `as`. -/
def Asleep (t : Tid) (as : List (Act T)) : Prop := ∀ a ∈ as, match a with | .step u => u ≠ t | _ => True

end Ring

end Soralog
