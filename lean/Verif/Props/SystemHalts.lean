import Verif.Props.SystemTree
import Verif.Proofs.SystemHalts
/-!
# C39, exactly: which calls come to an end
-/
namespace Soralog
namespace System

open Hierarchy

/-- **C39**, exactly: in every state of every history a call comes to an end if and only if the ways up that it follows (`WillEnd`) come to an
end.  Missing from the full claim: they need not (`C39_refuted`). -/
theorem C39_ends_iff_partial {s : Sys} (h : AnyReach s) (op : Op) : (∃ fuel, step fuel s op ≠ .diverge) ↔ WillEnd s op :=
  have e := step_exactly h.wf.gU op
  ⟨e.1, fun hw => let ⟨n, hn⟩ := e.2 hw; ⟨n, hn n (Nat.le_refl n)⟩⟩

/-- **C39**: the bound on the recursion does not matter: a call that ends within one bound has the same outcome within every larger one. -/
theorem C39_ends_always_partial {s : Sys} (h : AnyReach s) {op : Op} {fuel fuel' : Nat} (hf : step fuel s op ≠ .diverge)
    (hle : fuel ≤ fuel') : step fuel' s op = step fuel s op :=
  step_mono h.wf hf hle

/-- In the demo system a call for `r` ends: every way up ends. -/
example : Reach demoL ∧ WillEnd demoL (.setLevelOfGroup ['r'] .trace) :=
  ⟨demoL_reach, (C39_ends_iff_partial demoL_reach _).1 ⟨20, by
    intro h
    have : (step 20 demoL (.setLevelOfGroup ['r'] .trace)).val = some (.bool true) := by decide +kernel
    rw [h] at this; cases this⟩⟩

theorem selfish_parent : selfish.parent 0 = some 0 := by decide +kernel
theorem selfish_free : selfish.levelFixed 0 = false := by decide +kernel

/-- After `setParentOfGroup("r", "r")` a call for `q` does not end, because the way up from `r` does not; a call for `r` itself does. -/
example : Reach selfish ∧ ¬ WillEnd selfish (.setLevelOfGroup ['q'] .trace) ∧ WillEnd selfish (.setLevelOfGroup ['r'] .trace) := by
  refine ⟨after_reach demo_reach, fun h => ?_, ?_⟩
  · have hh := h 4 (by decide +kernel) 0 ⟨['r'], by decide +kernel⟩
    generalize hx : (0 : Nat) = x at hh
    induction hh with
    | here => cases hx
    | stopped hs => subst hx; rw [selfish_free] at hs; cases hs
    | root hp => subst hx; rw [selfish_parent] at hp; cases hp
    | up hp _ ih => subst hx; rw [selfish_parent] at hp; cases hp; exact ih rfl
  · have hr : Reach selfish := after_reach demo_reach
    refine (C39_ends_iff_partial hr _).1 ⟨20, ?_⟩
    intro h
    have : (step 20 selfish (.setLevelOfGroup ['r'] .trace)).val = some (.bool true) := by decide +kernel
    rw [h] at this; cases this

end System
end Soralog
