import Verif.Props.SystemDirect
/-!
# Exactly when the claims that fail in general hold: C38, C46, C63, C64, C65, C87
-/
namespace Soralog
namespace System

open Hierarchy

/-! ## C38 -/

/-- **C38**, exactly: as long as no cycle was made, a successful `setParentOfGroup(gn, pn)` leaves a cycle if and only if both names denote
the same group.  Missing from the full claim: that call is accepted; see `C38_refuted`. -/
theorem C38_cycle_iff_partial {s s' : Sys} (h : AnyReachBy noCycleMade s) {gn pn : Text} {g p : Nat} (hg : s.groups.find gn = some g)
    (hp : s.groups.find pn = some p) {fuel : Nat} (hc : step fuel s (.setParentOfGroup gn pn) = .ret (.bool true) s') :
    (∃ x, x < s'.ngroups ∧ Ancestor s'.parent x x) ↔ g = p := by
  constructor
  · rintro ⟨x, hx, ha⟩
    apply Classical.byContradiction
    intro hne
    have hok : noCycleMade s (.call (.setParentOfGroup gn pn)) := by
      right
      rw [hg, hp]
      intro he; cases he; exact hne rfl
    have ht := (AnyReachBy.act (a := .call (.setParentOfGroup gn pn)) h hok hc).tree
    obtain ⟨n, hE⟩ := ht.1 x hx
    exact ht.2 x (ends_cycle hE ha)
  · rintro rfl
    have hps := setParentOfGroupPtr_spec h.wf.gU h.wf.ord (setParent_ret hg hp hc)
    refine ⟨g, ?_, .parent ?_⟩
    · rw [hps.rest]; exact h.wf.gLt gn g hg
    · show (s'.grp g).parent = some g
      rw [(hps.shape g).2.2.2.1]; unfold relink; simp

/-- both calls succeed in the demo system -/
example : (step 20 demoL (.setParentOfGroup ['q'] ['q'])).val = some (.bool true) ∧
    (step 20 demoL (.setParentOfGroup ['q'] ['a'])).val = some (.bool true) ∧ demoL.groups.find ['q'] = some 4 ∧
    demoL.groups.find ['a'] = some 1 := by decide +kernel

/-! ## C46 -/

/-- **C46**, exactly: a new logger has no sink if and only if its group has none and no known sink was asked for.  Missing from the full
claim: groups without sink exist; see `C46_refuted`. -/
theorem C46_new_iff_partial {s s' : Sys} (h : AnyReach s) (hc : s.configured = true) {n group : Text} {g : Nat}
    (hn : ∀ i, s.alive i = true → (s.lgr i).name ≠ n) (hg : s.groups.find group = some g) (hstar : group ≠ star)
    {sink : Option Text} {level : Option Level} {fuel i : Nat} (hr : step fuel s (.getLogger n group sink level) = .ret (.logger i) s') :
    s'.alive i = true ∧ ((s'.lgr i).sink = none ↔ (s.grp g).sink = none ∧ ∀ kn, sink = some kn → s.sinks.find kn = none) := by
  rw [C40_new_logger h hc hn hg hstar sink level fuel] at hr
  cases hr
  refine ⟨by simp [withLogger, upd], ?_⟩
  have : ((withLogger s (requested s n g sink level) []).lgr s.nloggers).sink = ((sink.bind fun kn => s.sinks.find kn).or (s.grp g).sink) := by
    simp [withLogger, upd, requested]
  rw [this]
  cases sink with
  | none => simp
  | some kn => cases hk : s.sinks.find kn <;> simp [hk]

/-- the group `g` of this system has no sink -/
example : Reach sinkless ∧ sinkless.configured = true ∧ (∀ i, sinkless.alive i = true → (sinkless.lgr i).name ≠ ['x']) ∧
    sinkless.groups.find ['g'] = some 0 ∧ (sinkless.grp 0).sink = none :=
  ⟨sinkless_reach, by decide +kernel, fun i hi => (by
    have := (sinkless_reach.wf.live i hi).1
    have h0 : sinkless.nloggers = 0 := by decide +kernel
    omega), by decide +kernel, by decide +kernel⟩

/-! ## C63 -/

/-- **C63**, exactly, for every history: after `setLevelOfGroup(n, l)` a live logger whose level is not overridden has level `l` if and only
if it had it before, or its group is the one registered under `n` or inherits from that one (and is itself registered: not an object that was
replaced by another one of the same name); the same for sinks. -/
theorem C63_iff_partial {s s' : Sys} (h : AnyReach s) {n : Text} {g : Nat} (hg : s.groups.find n = some g) {fuel : Nat} {v : Val}
    {i : Nat} (hi : s.alive i = true) :
    (∀ l, step fuel s (.setLevelOfGroup n l) = .ret v s' → (s.lgr i).levelOv = false →
      ((s'.lgr i).level = l ↔
        (s.lgr i).level = l ∨ s.registered (s.lgr i).group ∧ InheritsFrom s.parent s.levelFixed g (s.lgr i).group)) ∧
    (∀ kn k, s.sinks.find kn = some k → step fuel s (.setSinkOfGroup n kn) = .ret v s' → (s.lgr i).sinkOv = false →
      ((s'.lgr i).sink = some k ↔
        (s.lgr i).sink = some k ∨ s.registered (s.lgr i).group ∧ InheritsFrom s.parent s.sinkFixed g (s.lgr i).group)) := by
  constructor
  · intro l hc hov
    have hl := (C35_setLevelOfGroup h hg hc).2
    by_cases hin : s.registered (s.lgr i).group ∧ InheritsFrom s.parent s.levelFixed g (s.lgr i).group
    · have := hl.loggers i hi hin.1 hov hin.2
      rw [this]
      exact ⟨fun _ => .inr hin, fun _ => rfl⟩
    · have : s'.lgr i = s.lgr i := hl.otherLoggers i (by
        rcases Classical.not_and_iff_not_or_not.1 hin with h | h
        · exact .inr (.inr h)
        · exact .inr (.inl h))
      rw [this]
      exact ⟨.inl, fun h => h.resolve_right hin⟩
  · intro kn k hk hc hov
    have hl := (C35_setSinkOfGroup h hg hk hc).2
    by_cases hin : s.registered (s.lgr i).group ∧ InheritsFrom s.parent s.sinkFixed g (s.lgr i).group
    · have := hl.loggers i hi hin.1 hov hin.2
      rw [this]
      exact ⟨fun _ => .inr hin, fun _ => rfl⟩
    · have : s'.lgr i = s.lgr i := hl.otherLoggers i (by
        rcases Classical.not_and_iff_not_or_not.1 hin with h | h
        · exact .inr (.inr h)
        · exact .inr (.inl h))
      rw [this]
      exact ⟨.inl, fun h => h.resolve_right hin⟩

/-- logger `x` (0) is in group `b`, below `r`; `z` (2) is in `q`, which does not inherit from `r` -/
example : demoL.groups.find ['r'] = some 0 ∧ demoL.alive 0 = true ∧ demoL.alive 2 = true ∧ (demoL.lgr 0).levelOv = false ∧
    (let s' := after [.setLevelOfGroup ['r'] .trace, .setLevelOfGroup ['r'] .verbose] demoL
     (s'.lgr 0).level = .verbose ∧ (s'.lgr 2).level ≠ .verbose) := by decide +kernel

/-! ## C64 -/

/-- **C64**, exactly what `unsetParentOfGroup` does to the group, after any history: it takes the parent away; the values stay, and so do the
marks.  Missing from the full claim: the marks should be set; see `C64_refuted`. -/
theorem C64_group_partial {s s' : Sys} (h : AnyReach s) {n : Text} {g : Nat} (hg : s.groups.find n = some g) {fuel : Nat} {v : Val}
    (hc : step fuel s (.unsetParentOfGroup n) = .ret v s') : v = .bool true ∧ s'.grp g = { s.grp g with parent := none } := by
  simp only [step, unsetParentOfGroup, hg] at hc
  obtain ⟨hv, hc⟩ := parent_call hc
  exact ⟨hv, (setParentOfGroupPtr_spec h.wf.gU h.wf.ord hc).self⟩

/-- **C64**, exactly when the values survive the next `setParentOfGroup`: if and only if they were marked as overridden already, or the
new parent has the same. -/
theorem C64_survives_iff_partial {s s1 s2 : Sys} (h : AnyReach s) {n pn : Text} {g p : Nat} (hg : s.groups.find n = some g) {fuel fuel' : Nat}
    {v : Val} (hc : step fuel s (.unsetParentOfGroup n) = .ret v s1) (hp : s1.groups.find pn = some p)
    (hc' : step fuel' s1 (.setParentOfGroup n pn) = .ret (.bool true) s2) :
    ((s2.grp g).level = (s.grp g).level ↔ (s.grp g).levelOv = true ∨ (s1.grp p).level = (s.grp g).level) ∧
    ((s2.grp g).sink = (s.grp g).sink ↔ (s.grp g).sinkOv = true ∨ (s1.grp p).sink = (s.grp g).sink) := by
  have h1 : AnyReach s1 := .act (a := .call (.unsetParentOfGroup n)) h trivial hc
  have e1 := (C64_group_partial h hg hc).2
  have hg1 : s1.groups.find n = some g := by
    simp only [step, unsetParentOfGroup, hg] at hc
    rw [(setParentOfGroupPtr_spec h.wf.gU h.wf.ord (parent_call hc).2).rest]; exact hg
  have e2 := (setParentOfGroupPtr_spec h1.wf.gU h1.wf.ord (setParent_ret hg1 hp hc')).self
  rw [e2]
  unfold reparented inherit
  rw [e1]
  dsimp only
  constructor
  · cases (s.grp g).levelOv <;> simp
  · cases (s.grp g).sinkOv <;> simp

example : demoL.groups.find ['a'] = some 1 ∧
    (let s1 := after [.unsetParentOfGroup ['a']] demoL
     (step 20 demoL (.unsetParentOfGroup ['a'])).val = some (.bool true) ∧ s1.groups.find ['q'] = some 4 ∧
     (step 20 s1 (.setParentOfGroup ['a'] ['q'])).val = some (.bool true) ∧ (s1.grp 4).level ≠ (demoL.grp 1).level) := by decide +kernel

/-! ## C65 -/

/-- **C65**, exactly: `setLevelOfGroup` and `setSinkOfGroup` leave the property marked as overridden if and only if the group has a parent or
it was marked before.  Missing from the full claim: the other groups; see `C65_refuted`. -/
theorem C65_mark_iff_partial {s s' : Sys} (h : AnyReach s) {n : Text} {g : Nat} (hg : s.groups.find n = some g) {fuel : Nat} {v : Val} :
    (∀ l, step fuel s (.setLevelOfGroup n l) = .ret v s' → ((s'.grp g).levelOv = true ↔ s.parent g ≠ none ∨ (s.grp g).levelOv = true)) ∧
    (∀ kn k, s.sinks.find kn = some k → step fuel s (.setSinkOfGroup n kn) = .ret v s' →
      ((s'.grp g).sinkOv = true ↔ s.parent g ≠ none ∨ (s.grp g).sinkOv = true)) := by
  unfold Sys.parent
  constructor
  · intro l hc
    rw [(C35_setLevelOfGroup h hg hc).2.group]
    cases (s.grp g).parent <;> simp
  · intro kn k hk hc
    rw [(C35_setSinkOfGroup h hg hk hc).2.group]
    cases (s.grp g).parent <;> simp

example : demoL.groups.find ['r'] = some 0 ∧ demoL.parent 0 = none ∧ demoL.groups.find ['a'] = some 1 ∧ demoL.parent 1 = some 0 ∧
    (let s' := after [.setLevelOfGroup ['r'] .trace, .setLevelOfGroup ['a'] .trace] demoL
     (s'.grp 0).levelOv = false ∧ (s'.grp 1).levelOv = true) := by decide +kernel

/-! ## C87 -/

/-- **C87**, exactly what the setters do to a group *without* parent: `setLevel`, `setSink` set the value and keep the mark; `resetLevel`,
`resetSink` do nothing; `setLevelFromGroup`, `setSinkFromGroup` copy the value and mark it.  Missing from the full claim: `setLevel` and
`setSink` should mark; see `C87_refuted`. -/
theorem C87_root_partial (s : Sys) {g : Nat} (hg : g < s.ngroups) (hp : s.parent g = none) (fuel : Nat) :
    (∀ l, ∃ s', act fuel s (.group g (.setLevel l)) = .ret .unit s' ∧ s'.grp g = { s.grp g with level := l }) ∧
    (∀ k, k < s.nsinks → ∃ s', act fuel s (.group g (.setSink k)) = .ret .unit s' ∧ s'.grp g = { s.grp g with sink := some k }) ∧
    (∃ s', act fuel s (.group g .resetLevel) = .ret .unit s' ∧ s'.grp g = s.grp g) ∧
    (∃ s', act fuel s (.group g .resetSink) = .ret .unit s' ∧ s'.grp g = s.grp g) ∧
    (∀ q, q < s.ngroups → ∃ s', act fuel s (.group g (.setLevelFromGroup q)) = .ret .unit s' ∧
      s'.grp g = { s.grp g with level := (s.grp q).level, levelOv := true }) ∧
    (∀ q, q < s.ngroups → ∃ s', act fuel s (.group g (.setSinkFromGroup q)) = .ret .unit s' ∧
      s'.grp g = { s.grp g with sink := (s.grp q).sink, sinkOv := true }) := by
  unfold Sys.parent at hp
  refine ⟨fun l => ⟨_, by simp only [act, hg, GroupMethod.valid, and_self, if_pos]; rfl, ?_⟩,
    fun k hk => ⟨_, by simp only [act, hg, hk, GroupMethod.valid, and_self, if_pos]; rfl, ?_⟩,
    ⟨_, by simp only [act, hg, GroupMethod.valid, and_self, if_pos]; rfl, ?_⟩,
    ⟨_, by simp only [act, hg, GroupMethod.valid, and_self, if_pos]; rfl, ?_⟩,
    fun q hq => ⟨_, by simp only [act, hg, hq, GroupMethod.valid, and_self, if_pos]; rfl, ?_⟩,
    fun q hq => ⟨_, by simp only [act, hg, hq, GroupMethod.valid, and_self, if_pos]; rfl, ?_⟩⟩
  · simp [onGroup, setLevel, upd_same, hp]
  · simp [onGroup, setSink, upd_same, hp]
  · simp [onGroup, resetLevel, upd_same, hp]
  · simp [onGroup, resetSink, upd_same, hp]
  · simp [onGroup, setLevelFromGroup, upd_same, hp]
  · simp [onGroup, setSinkFromGroup, upd_same, hp]

example : 0 < demoL.ngroups ∧ demoL.parent 0 = none ∧
    (let s' := afterActs [.group 0 (.setLevelFromGroup 4), .group 0 (.setSink 2)] demoL
     (s'.grp 0).level = .trace ∧ (s'.grp 0).levelOv = true ∧ (s'.grp 0).sink = some 2 ∧ (s'.grp 0).sinkOv = false) := by decide +kernel

end System
end Soralog
