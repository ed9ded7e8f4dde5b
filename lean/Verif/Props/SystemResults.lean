import Verif.Props.SystemMore
/-!
# C43, C44, continued: when a call is refused; the methods of a logger object
-/
namespace Soralog
namespace System
open Hierarchy

/-! ## C43: refused exactly when a name is unknown or a cycle would arise -/

/-- The request makes sense: the names exist (the logger is alive), and the new parent is not already below the group —
unless it is its child, then the two change places. -/
def Sensible (s : Sys) : Op → Prop
  | .setFallbackGroup g | .unsetParentOfGroup g | .resetSinkOfGroup g | .setLevelOfGroup g _ | .resetLevelOfGroup g =>
    ∃ x, s.groups.find g = some x
  | .setParentOfGroup g p => ∃ x y, s.groups.find g = some x ∧ s.groups.find p = some y ∧
      ((s.grp y).parent = some x ∨ ¬ Ancestor s.parent x y)
  | .setSinkOfGroup g k => (∃ x, s.groups.find g = some x) ∧ ∃ y, s.sinks.find k = some y
  | .setGroupOfLogger l g => (∃ i, s.alive i = true ∧ (s.lgr i).name = l) ∧ ∃ x, s.groups.find g = some x
  | .setSinkOfLogger l k => (∃ i, s.alive i = true ∧ (s.lgr i).name = l) ∧ ∃ y, s.sinks.find k = some y
  | .resetSinkOfLogger l | .setLevelOfLogger l _ | .resetLevelOfLogger l => ∃ i, s.alive i = true ∧ (s.lgr i).name = l
  | _ => True

theorem walk_exact {s : Sys} {g : Nat} {fuel : Nat} {y : Nat} {b : Bool} (h : walk s.grp g fuel (s.grp y).parent = some b) :
    b = true ↔ Ancestor s.parent g y := by
  induction fuel generalizing y with
  | zero =>
    cases hp : (s.grp y).parent with
    | none =>
      rw [hp] at h; simp only [walk, Option.some.injEq] at h; subst h
      refine ⟨fun h => (by cases h), fun h => ?_⟩
      cases h with
      | parent h1 => rw [show s.parent y = (s.grp y).parent from rfl, hp] at h1; cases h1
      | above h1 _ => rw [show s.parent y = (s.grp y).parent from rfl, hp] at h1; cases h1
    | some c => rw [hp] at h; simp [walk] at h
  | succ n ih =>
    cases hp : (s.grp y).parent with
    | none =>
      rw [hp] at h; simp only [walk, Option.some.injEq] at h; subst h
      refine ⟨fun h => (by cases h), fun h => ?_⟩
      cases h with
      | parent h1 => rw [show s.parent y = (s.grp y).parent from rfl, hp] at h1; cases h1
      | above h1 _ => rw [show s.parent y = (s.grp y).parent from rfl, hp] at h1; cases h1
    | some c =>
      rw [hp] at h
      unfold walk at h
      have hpy : s.parent y = some c := hp
      by_cases hc : c = g
      · rw [if_pos hc] at h
        cases h
        exact ⟨fun _ => .parent (by rw [hpy, hc]), fun _ => rfl⟩
      · rw [if_neg hc] at h
        rw [ih h]
        refine ⟨fun ha => .above hpy ha, fun ha => ?_⟩
        cases ha with
        | parent h1 => rw [hpy] at h1; cases h1; exact absurd rfl hc
        | above h1 h2 => rw [hpy] at h1; cases h1; exact h2

theorem live_iff {s : Sys} (h : AnyReach s) (n : Text) :
    (∃ i, s.alive i = true ∧ (s.lgr i).name = n) ↔ ∃ i, s.loggers.find n = some i ∧ s.alive i = true := by
  constructor
  · rintro ⟨i, hi, rfl⟩; exact ⟨i, (h.wf.live i hi).2, hi⟩
  · rintro ⟨i, h1, h2⟩; exact ⟨i, h2, (h.wf.lLt _ _ h1).2⟩

theorem onLogger_exact {s s' : Sys} {n : Text} {er : Bool} {up : Logger → Logger} {b : Bool} (h : AnyReach s)
    (hc : onLogger n er up s = .ret b s') : b = true ↔ ∃ i, s.alive i = true ∧ (s.lgr i).name = n := by
  rw [live_iff h]
  unfold onLogger at hc
  split at hc
  · rename_i hf; cases hc; simp [hf]
  · rename_i i hf
    split at hc
    · rename_i ha; cases hc; simp [hf, ha]
    · rename_i ha; cases hc
      simp only [hf, Option.some.injEq, exists_eq_left', Bool.false_eq_true, false_iff]; exact ha

theorem ofOption_exact {r : Option Sys} {s' : Sys} {b : Bool} (hc : ofOption r = .ret b s') : b = true := by
  unfold ofOption at hc; split at hc <;> cases hc; rfl

theorem bool_map {r : Res Bool} {b : Bool} {s' : Sys} (h : r.map Val.bool = .ret (.bool b) s') : r = .ret b s' := by
  obtain ⟨a, h1, h2⟩ := map_ret h
  cases h2; exact h1

/-- **C43**: a call with a boolean result answers true exactly when the request makes sense; all others are refused
(and change nothing: `C43_refused_changes_nothing`). -/
theorem C43_refused_exactly {s s' : Sys} (h : AnyReach s) {op : Op} {fuel : Nat} {b : Bool}
    (hc : step fuel s op = .ret (.bool b) s') : b = true ↔ Sensible s op := by
  cases op with
  | makeSink n => cases hc
  | makeGroup n p k l => simp only [step] at hc; obtain ⟨_, _, h2⟩ := map_ret hc; cases h2
  | getLogger n g k l => simp only [step] at hc; obtain ⟨_, _, h2⟩ := map_ret hc; cases h2
  | onHandle i m => simp only [step] at hc; split at hc <;> cases hc
  | drop i => cases hc
  | setFallbackGroup n =>
    have hc := bool_map hc
    unfold setFallbackGroup at hc; simp only [Sensible]
    split at hc <;> (rename_i hf; cases hc; simp [hf])
  | unsetParentOfGroup n =>
    have hc := bool_map hc
    unfold unsetParentOfGroup at hc; simp only [Sensible]
    split at hc
    · rename_i hf; cases hc; simp [hf]
    · rename_i hf; simp [hf, ofOption_exact hc]
  | resetSinkOfGroup n =>
    have hc := bool_map hc
    unfold resetSinkOfGroup at hc; simp only [Sensible]
    split at hc
    · rename_i hf; cases hc; simp [hf]
    · rename_i hf; simp [hf, ofOption_exact hc]
  | setLevelOfGroup n l =>
    have hc := bool_map hc
    unfold setLevelOfGroup at hc; simp only [Sensible]
    split at hc
    · rename_i hf; cases hc; simp [hf]
    · rename_i hf; simp [hf, ofOption_exact hc]
  | resetLevelOfGroup n =>
    have hc := bool_map hc
    unfold resetLevelOfGroup at hc; simp only [Sensible]
    split at hc
    · rename_i hf; cases hc; simp [hf]
    · rename_i hf; simp [hf, ofOption_exact hc]
  | setSinkOfGroup n k =>
    have hc := bool_map hc
    unfold setSinkOfGroup getSink at hc; simp only [Sensible]
    split at hc
    · rename_i hf; cases hc; simp [hf]
    · rename_i hf
      split at hc
      · rename_i hg; cases hc; simp [hg]
      · rename_i hg; simp [hf, hg, ofOption_exact hc]
  | setParentOfGroup g p =>
    have hc := bool_map hc
    unfold setParentOfGroup at hc; simp only [Sensible]
    split at hc
    · rename_i hf; cases hc; simp [hf]
    · rename_i x hf
      split at hc
      · rename_i hg; cases hc; simp [hg]
      · rename_i y hg
        simp only [hf, hg, Option.some.injEq, exists_eq_left']
        by_cases hpar : (s.grp y).parent = some x
        · simp only [hpar, ne_eq, not_true, if_false] at hc
          simp [hpar, ofOption_exact hc]
        · simp only [ne_eq, hpar, not_false_eq_true, if_true] at hc
          cases hw : walk s.grp x fuel (s.grp y).parent with
          | none => rw [hw] at hc; cases hc
          | some w =>
            rw [hw] at hc
            have hex := walk_exact hw
            cases w with
            | true => cases hc; simp [hpar, hex.1 rfl]
            | false =>
              have hna : ¬ Ancestor s.parent x y := fun ha => by have := hex.2 ha; cases this
              simp [hna, ofOption_exact hc]
  | setGroupOfLogger l g =>
    have hc := bool_map hc
    unfold setGroupOfLogger getGroup at hc; simp only [Sensible]
    split at hc
    · rename_i hf; cases hc; simp [hf]
    · rename_i hf; rw [onLogger_exact h hc]; simp [hf]
  | setSinkOfLogger l k =>
    have hc := bool_map hc
    unfold setSinkOfLogger getSink at hc; simp only [Sensible]
    split at hc
    · rename_i hf; cases hc; simp [hf]
    · rename_i hf; rw [onLogger_exact h hc]; simp [hf]
  | resetSinkOfLogger l => exact onLogger_exact h (bool_map hc)
  | setLevelOfLogger l v => exact onLogger_exact h (bool_map hc)
  | resetLevelOfLogger l => exact onLogger_exact h (bool_map hc)

example : (step 20 demoL (.unsetParentOfGroup ['?'])).val = some (.bool false) ∧
    (step 20 demoL (.unsetParentOfGroup ['b'])).val = some (.bool true) ∧
    (step 20 demoL (.setParentOfGroup ['r'] ['b'])).val = some (.bool false) := by decide +kernel

/-! ## C44: the methods of a logger object -/

/-- **C44**, methods of the logger object the user holds: setting marks as overridden; resetting takes the group's
value and removes the mark; taking a value from another group marks as overridden, from the own group removes the mark;
nothing else changes. -/
theorem C44_methods {s : Sys} (h : AnyReach s) {i : Nat} (hi : s.alive i = true) (fuel : Nat) :
    let l := s.lgr i
    let after := fun l' : Logger => Res.ret Val.unit { s with lgr := upd s.lgr i l' }
    (∀ v, step fuel s (.onHandle i (.setLevel v)) = after { l with level := v, levelOv := true }) ∧
    step fuel s (.onHandle i .resetLevel) = after { l with level := (s.grp l.group).level, levelOv := false } ∧
    (∀ g, g < s.ngroups → step fuel s (.onHandle i (.setLevelFromGroup g)) =
      after { l with level := (s.grp g).level, levelOv := decide (g ≠ l.group) }) ∧
    (∀ k, k < s.nsinks → step fuel s (.onHandle i (.setSink k)) = after { l with sink := some k, sinkOv := true }) ∧
    step fuel s (.onHandle i .resetSink) = after { l with sink := (s.grp l.group).sink, sinkOv := false } ∧
    (∀ g k, g < s.ngroups → (s.grp g).sink = some k → step fuel s (.onHandle i (.setSinkFromGroup g)) =
      after { l with sink := some k, sinkOv := decide (g ≠ l.group) }) ∧
    (∀ g k, g < s.ngroups → (s.grp g).sink = some k → step fuel s (.onHandle i (.setGroup g)) =
      after { l with group := g, level := if l.levelOv then l.level else (s.grp g).level,
                     sink := if l.sinkOv then l.sink else some k }) := by
  have hlt := (h.wf.live i hi).1
  refine ⟨fun v => ?_, ?_, fun g hg => ?_, fun k hk => ?_, ?_, fun g k hg hk => ?_, fun g k hg hk => ?_⟩
  all_goals simp only [step, hlt, hi, Method.valid, Logger.call, true_and]
  · rfl
  · simp [Logger.resetLevel, Logger.setLevelFromGroup]
  · simp [hg, Logger.setLevelFromGroup]
  · simp [hk, Logger.setSink]
  · simp [Logger.resetSink]
  · simp [hg, Logger.setSinkFromGroup, hk]
  · simp only [hg, if_true]
    congr 3
    cases hs : (s.lgr i).sinkOv <;> cases hl : (s.lgr i).levelOv <;>
      simp [Logger.setGroup, Logger.setSinkFromGroup, Logger.setLevelFromGroup, hk, hs, hl]

end System
end Soralog
