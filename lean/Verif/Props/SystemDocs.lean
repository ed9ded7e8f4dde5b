import Verif.Props.SystemMore
/-!
# C63-C66: what the comments of the headers say about marks and direct calls
-/
namespace Soralog
namespace System

open Hierarchy

/-! ## C63 -/

/-- **C63** for histories in which every group is created under a name that is not taken: after `setLevelOfGroup(n, l)` every live
logger whose group has the name `n` and whose level is not overridden has the level `l`; the same for sinks.  Missing: histories in
which a group is created again under its name; see `C63_refuted`. -/
theorem C63_reaches_partial {s s' : Sys} (h : ReachBy newNames s) {n : Text} {fuel : Nat} :
    (∀ l, step fuel s (.setLevelOfGroup n l) = .ret (.bool true) s' → ∀ i, s.alive i = true → (s.lgr i).levelOv = false →
      (s.grp (s.lgr i).group).name = n → (s'.lgr i).level = l) ∧
    (∀ kn k, s.sinks.find kn = some k → step fuel s (.setSinkOfGroup n kn) = .ret (.bool true) s' → ∀ i, s.alive i = true →
      (s.lgr i).sinkOv = false → (s.grp (s.lgr i).group).name = n → (s'.lgr i).sink = some k) := by
  have hw := h.reach.wf
  constructor
  · intro l hc i hi hov hn
    have hr := (C37_all_registered h _ (hw.lgLt i (hw.live i hi).1)).1
    rw [hn] at hr
    have := (C35_setLevelOfGroup h.reach hr hc).2.loggers i hi ⟨n, hr⟩ hov .self
    rw [this]
  · intro kn k hk hc i hi hov hn
    have hr := (C37_all_registered h _ (hw.lgLt i (hw.live i hi).1)).1
    rw [hn] at hr
    have := (C35_setSinkOfGroup h.reach hr hk hc).2.loggers i hi ⟨n, hr⟩ hov .self
    rw [this]
    rfl

/-- logger `x` (number 0) is in group `b` and not overridden -/
example : (demoL.grp (demoL.lgr 0).group).name = ['b'] ∧ demoL.alive 0 = true ∧ (demoL.lgr 0).levelOv = false ∧
    (step 20 demoL (.setLevelOfGroup ['b'] .trace)).val = some (.bool true) := by decide +kernel

/-- group `b` is created again -/
def twice : Sys := after [.makeGroup ['b'] (some ['a']) none none] demoL

/-- **C63 is false** in general: after `b` has been created again, `setLevelOfGroup("b", trace)` returns true and leaves logger `x`,
whose group has the name `b` and whose level is not overridden, as it was. -/
theorem C63_refuted : ∃ s, Reach s ∧ (step 20 s (.setLevelOfGroup ['b'] .trace)).val = some (.bool true) ∧ s.alive 0 = true ∧
    (s.lgr 0).levelOv = false ∧ (s.grp (s.lgr 0).group).name = ['b'] ∧
    ((after [.setLevelOfGroup ['b'] .trace] s).lgr 0).level = .info :=
  ⟨twice, after_reach demoL_reach, by decide +kernel, by decide +kernel, by decide +kernel, by decide +kernel, by decide +kernel⟩

/-! ## C64 -/

/-- **C64**, part: `unsetParentOfGroup` leaves the level and the sink of the group as they are (for histories in which every group is
created under a new name).  Missing: the marks; see `C64_refuted`. -/
theorem C64_values_partial {s s' : Sys} (h : ReachBy newNames s) {n : Text} {g : Nat} (hg : s.groups.find n = some g) {fuel : Nat}
    {v : Val} (hc : step fuel s (.unsetParentOfGroup n) = .ret v s') :
    v = .bool true ∧ (s'.grp g).parent = none ∧ (s'.grp g).level = (s.grp g).level ∧ (s'.grp g).sink = (s.grp g).sink := by
  obtain ⟨h1, h2, _⟩ := C37_unsetParentOfGroup h.reach hg (C37_closed h) hc
  rw [h2]
  exact ⟨h1, rfl, rfl, rfl⟩

example : demoL.groups.find ['a'] = some 1 ∧ (step 20 demoL (.unsetParentOfGroup ['a'])).val = some (.bool true) := by decide +kernel

/-- **C64 is false**: after `unsetParentOfGroup("a")` the level and the sink of `a` are not marked as overridden, and they do not
stay: `setParentOfGroup("a", "q")` replaces both. -/
theorem C64_refuted : ∃ s, Reach s ∧ (step 20 s (.unsetParentOfGroup ['a'])).val = some (.bool true) ∧
    let s' := after [.unsetParentOfGroup ['a']] s
    s'.groups.find ['a'] = some 1 ∧ (s'.grp 1).levelOv = false ∧ (s'.grp 1).sinkOv = false ∧
    (s'.grp 1).level = .info ∧ (s'.grp 1).sink = some 1 ∧
    let s'' := after [.setParentOfGroup ['a'] ['q']] s'
    (s''.grp 1).level = .trace ∧ (s''.grp 1).sink = some 2 :=
  ⟨demoL, demoL_reach, by decide +kernel, by decide +kernel, by decide +kernel, by decide +kernel, by decide +kernel, by decide +kernel,
    by decide +kernel, by decide +kernel⟩

/-! ## C65 -/

/-- **C65**, part: `setLevelOfGroup` and `setSinkOfGroup` mark the property as overridden if the group has a parent, and then a
change of the parent does not change it.  Missing: groups without parent; see `C65_refuted`. -/
theorem C65_marks_partial {s s' : Sys} (h : AnyReach s) {n : Text} {g : Nat} (hg : s.groups.find n = some g) (hp : (s.grp g).parent ≠ none)
    {fuel : Nat} :
    (∀ l v, step fuel s (.setLevelOfGroup n l) = .ret v s' → (s'.grp g).levelOv = true ∧ (s'.grp g).level = l) ∧
    (∀ kn k v, s.sinks.find kn = some k → step fuel s (.setSinkOfGroup n kn) = .ret v s' →
      (s'.grp g).sinkOv = true ∧ (s'.grp g).sink = some k) := by
  have hs : (s.grp g).parent.isSome = true := by
    cases hq : (s.grp g).parent with
    | none => exact absurd hq hp
    | some _ => rfl
  constructor
  · intro l v hc
    have := (C35_setLevelOfGroup h hg hc).2.group
    rw [this]
    exact ⟨by simp only [hs, Bool.true_or], rfl⟩
  · intro kn k v hk hc
    have := (C35_setSinkOfGroup h hg hk hc).2.group
    rw [this]
    exact ⟨by simp only [hs, Bool.true_or], rfl⟩

/-- **C65**, part: a property that is marked survives every change of the parent. -/
theorem C65_kept_partial {s s' : Sys} (h : Reach s) {gn pn : Text} {g p : Nat} (hg : s.groups.find gn = some g)
    (hp : s.groups.find pn = some p) {fuel : Nat} (hc : step fuel s (.setParentOfGroup gn pn) = .ret (.bool true) s') :
    ((s.grp g).levelOv = true → (s'.grp g).level = (s.grp g).level ∧ (s'.grp g).levelOv = true) ∧
    ((s.grp g).sinkOv = true → (s'.grp g).sink = (s.grp g).sink ∧ (s'.grp g).sinkOv = true) := by
  have hm := (C37_setParentOfGroup h hg hp hc).2.2.1
  exact ⟨fun ho => ⟨hm.level g ho, by rw [hm.levelMark, ho]⟩, fun ho => ⟨hm.sink g ho, by rw [hm.sinkMark, ho]⟩⟩

/-- group `a` has a parent; after its level and sink are set its parent is changed and both stay -/
example : demoL.groups.find ['a'] = some 1 ∧ (demoL.grp 1).parent ≠ none ∧
    let s := after [.setLevelOfGroup ['a'] .error, .setSinkOfGroup ['a'] ['s'], .setParentOfGroup ['a'] ['q']] demoL
    (s.grp 1).parent = some 4 ∧ (s.grp 1).level = .error ∧ (s.grp 1).sink = some 1 :=
  ⟨by decide +kernel, by decide +kernel, by decide +kernel, by decide +kernel, by decide +kernel⟩

/-- **C65 is false** of groups without parent: `setLevelOfGroup("r", error)` does not mark the level of `r`, and
`setParentOfGroup("r", "q")` replaces it.  The same for the sink. -/
theorem C65_refuted : ∃ s, Reach s ∧ (step 20 s (.setLevelOfGroup ['r'] .error)).val = some (.bool true) ∧
    let s' := after [.setLevelOfGroup ['r'] .error, .setSinkOfGroup ['r'] ['s']] s
    s'.groups.find ['r'] = some 0 ∧ (s'.grp 0).levelOv = false ∧ (s'.grp 0).sinkOv = false ∧ (s'.grp 0).level = .error ∧
    (s'.grp 0).sink = some 1 ∧
    let s'' := after [.setParentOfGroup ['r'] ['q']] s'
    (s''.grp 0).level = .trace ∧ (s''.grp 0).sink = some 2 :=
  ⟨demoL, demoL_reach, by decide +kernel, by decide +kernel, by decide +kernel, by decide +kernel, by decide +kernel, by decide +kernel,
    by decide +kernel, by decide +kernel⟩

/-! ## C66 -/

/-- **C66** for a group on which nothing depends (no group inherits from it, no live logger that is not overridden is in it): setting
the level with the method of the `Group` object has the same effect on groups and loggers as `setLevelOfGroup`. -/
theorem C66_direct_partial {s s' : Sys} (h : AnyReach s) {n : Text} {g : Nat} (hg : s.groups.find n = some g)
    (hgr : ∀ x, x ≠ g → ¬ InheritsFrom s.parent s.levelFixed g x)
    (hlg : ∀ i, s.alive i = true → (s.lgr i).group = g → (s.lgr i).levelOv = true) {l : Level} {fuel : Nat} {v : Val}
    (hc : step fuel s (.setLevelOfGroup n l) = .ret v s') :
    s'.grp = setLevel s.grp g l ∧ ∀ i, s.alive i = true → s'.lgr i = s.lgr i := by
  have hcl := (C35_setLevelOfGroup h hg hc).2
  constructor
  · funext x
    by_cases hx : x = g
    · subst hx
      rw [hcl.group]
      unfold setLevel
      rw [upd_same]
      cases (s.grp x).parent.isSome <;> simp
    · rw [hcl.others x hx (hgr x hx)]
      exact (upd_other _ _ hx).symm
  · intro i hi
    apply hcl.otherLoggers
    by_cases hgi : (s.lgr i).group = g
    · exact .inl (hlg i hi hgi)
    · exact .inr (.inl (hgr _ hgi))

/-- nothing depends on group `c` (3) -/
theorem c_noChild : ∀ y, demoL.parent y ≠ some 3
  | 0 => by decide +kernel
  | 1 => by decide +kernel
  | 2 => by decide +kernel
  | 3 => by decide +kernel
  | 4 => by decide +kernel
  | n + 5 => by
    have : demoL.parent (n + 5) = none := by rfl
    rw [this]; intro h; cases h

example : demoL.groups.find ['c'] = some 3 ∧ (∀ x, x ≠ 3 → ¬ InheritsFrom demoL.parent demoL.levelFixed 3 x) ∧
    (∀ i, i < 3 → demoL.alive i = true ∧ (demoL.lgr i).group ≠ 3) ∧
    (step 20 demoL (.setLevelOfGroup ['c'] .trace)).val = some (.bool true) := by
  refine ⟨by decide +kernel, ?_, by decide +kernel, by decide +kernel⟩
  intro x hx hi
  have : ∀ z, InheritsFrom demoL.parent demoL.levelFixed 3 z → z = 3 := by
    intro z hz
    induction hz with
    | self => rfl
    | child hp _ _ ih => subst ih; exact absurd hp (c_noChild _)
  exact hx (this x hi)

/-- **C66 is false** in general: after the method `setLevel(trace)` of the group object `a` its child `b` and the logger `x` in `b`
still have the old level, although nothing there is overridden. -/
theorem C66_refuted : ∃ s, Reach s ∧ s.groups.find ['a'] = some 1 ∧
    let s' := { s with grp := setLevel s.grp 1 .trace }
    (s'.grp 1).level = .trace ∧ s'.registered 2 ∧ (s'.grp 2).parent = some 1 ∧ (s'.grp 2).levelOv = false ∧ (s'.grp 2).level = .info ∧
    (s'.lgr 0).group = 2 ∧ (s'.lgr 0).levelOv = false ∧ (s'.lgr 0).level = .info :=
  ⟨demoL, demoL_reach, by decide +kernel, by decide +kernel, ⟨['b'], by decide +kernel⟩, by decide +kernel, by decide +kernel,
    by decide +kernel, by decide +kernel, by decide +kernel, by decide +kernel⟩

end System
end Soralog
