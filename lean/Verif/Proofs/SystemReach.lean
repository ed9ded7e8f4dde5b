import Verif.Proofs.SystemFresh
/-!
# Reachable states; inherited values are up to date; the hierarchy
-/
namespace Soralog
namespace System

open Hierarchy

theorem ReachBy.reach {ok : Sys → Op → Prop} {s : Sys} (h : ReachBy ok s) : Reach s := by
  induction h with
  | init debug ord ho => exact .init debug ord ho
  | call _ _ hc ih => exact .call ih trivial hc
  | failed _ _ hc ih => exact .failed ih trivial hc
  | configuring _ ih => exact .configuring ih

/-- every call is a transition -/
theorem step_all {fuel : Nat} {s s' : Sys} {op : Op} {v : Val} (hw : WF s)
    (h : step fuel s op = .ret v s' ∨ step fuel s op = .throw s') : Trans .all s s' :=
  step_trans hw (fun _ _ _ _ _ _ _ => trivial) (fun _ _ _ _ _ _ _ _ _ => trivial) (fun _ _ => trivial) h

theorem ReachBy.wf {ok : Sys → Op → Prop} {s : Sys} (h : ReachBy ok s) : WF s := by
  induction h with
  | init debug ord ho => exact new_wf debug ord ho
  | call _ _ hc ih => exact trans_wf ih (step_all ih (.inl hc))
  | failed _ _ hc ih => exact trans_wf ih (step_all (v := .unit) ih (.inr hc))
  | configuring _ ih => exact { ih with }

/-! ### histories with methods of group objects -/

/-- what a method of a group object can change -/
theorem onGroup_shape (s : Sys) (hw : WF s) (g : Nat) (hg : g < s.ngroups) (m : GroupMethod) (hm : m.valid s) :
    (∀ x, x ≠ g → onGroup s g m x = s.grp x) ∧ (onGroup s g m g).name = (s.grp g).name ∧
    (∀ p, (onGroup s g m g).parent = some p → p < s.ngroups) ∧ (∀ k, (onGroup s g m g).sink = some k → k < s.nsinks) := by
  have hp := hw.pLt g
  have hk := hw.gsLt
  have kept : ∀ (h : Nat → Group) (gr : Group), h = upd s.grp g gr → gr.name = (s.grp g).name →
      (∀ p, gr.parent = some p → p < s.ngroups) → (∀ k, gr.sink = some k → k < s.nsinks) →
      (∀ x, x ≠ g → h x = s.grp x) ∧ (h g).name = (s.grp g).name ∧ (∀ p, (h g).parent = some p → p < s.ngroups) ∧
        (∀ k, (h g).sink = some k → k < s.nsinks) := by
    rintro h gr rfl h1 h2 h3
    exact ⟨fun x hx => upd_other _ _ hx, by rw [upd_same]; exact h1, by rw [upd_same]; exact h2, by rw [upd_same]; exact h3⟩
  have same : (∀ x, x ≠ g → s.grp x = s.grp x) ∧ (s.grp g).name = (s.grp g).name ∧ (∀ p, (s.grp g).parent = some p → p < s.ngroups) ∧
        (∀ k, (s.grp g).sink = some k → k < s.nsinks) := ⟨fun _ _ => rfl, rfl, fun p h => hp p hg h, fun k h => hk g k hg h⟩
  have lvlFrom : ∀ p, (∀ x, x ≠ g → setLevelFromGroup s.grp g p x = s.grp x) ∧ (setLevelFromGroup s.grp g p g).name = (s.grp g).name ∧
      (∀ q, (setLevelFromGroup s.grp g p g).parent = some q → q < s.ngroups) ∧
      (∀ k, (setLevelFromGroup s.grp g p g).sink = some k → k < s.nsinks) :=
    fun p => kept _ _ rfl rfl same.2.2.1 same.2.2.2
  have snkFrom : ∀ p, p < s.ngroups → (∀ x, x ≠ g → setSinkFromGroup s.grp g p x = s.grp x) ∧
      (setSinkFromGroup s.grp g p g).name = (s.grp g).name ∧
      (∀ q, (setSinkFromGroup s.grp g p g).parent = some q → q < s.ngroups) ∧
      (∀ k, (setSinkFromGroup s.grp g p g).sink = some k → k < s.nsinks) :=
    fun p h => kept _ _ rfl rfl same.2.2.1 (fun k hk' => hk p k h hk')
  have snk : ∀ k, k < s.nsinks → (∀ x, x ≠ g → setSink s.grp g k x = s.grp x) ∧ (setSink s.grp g k g).name = (s.grp g).name ∧
      (∀ q, (setSink s.grp g k g).parent = some q → q < s.ngroups) ∧ (∀ k', (setSink s.grp g k g).sink = some k' → k' < s.nsinks) :=
    fun k h => kept _ _ rfl rfl same.2.2.1 (fun k' hk' => by cases hk'; exact h)
  have par : ∀ p, (∀ p', p = some p' → p' < s.ngroups) → (∀ x, x ≠ g → setParentGroup s.grp g p x = s.grp x) ∧
      (setParentGroup s.grp g p g).name = (s.grp g).name ∧
      (∀ q, (setParentGroup s.grp g p g).parent = some q → q < s.ngroups) ∧
      (∀ k', (setParentGroup s.grp g p g).sink = some k' → k' < s.nsinks) := by
    intro p h
    cases p with
    | none => exact kept _ _ rfl rfl (fun q hq => by cases hq) same.2.2.2
    | some p =>
      have hlt := h p rfl
      have hps : ∀ k, (upd s.grp g { s.grp g with parent := some p } p).sink = some k → k < s.nsinks := by
        intro k hk'
        by_cases e : p = g
        · subst e; rw [upd_same] at hk'; exact hk p k hlt hk'
        · rw [upd_other _ _ e] at hk'; exact hk p k hlt hk'
      have hps2 := hps
      refine ⟨fun x hx => ?_, ?_, ?_, ?_⟩
      · unfold setParentGroup setSinkFromGroup setLevelFromGroup
        dsimp only
        split <;> split <;> simp [upd_other _ _ hx]
      all_goals
        unfold setParentGroup setSinkFromGroup setLevelFromGroup
        dsimp only
      · split <;> split <;> simp [upd_same]
      · intro q
        split <;> split <;> simp only [upd_same] <;> (intro hq; cases hq; exact hlt)
      · intro k
        split <;> split <;> simp only [upd_same] <;> intro hk' <;> first | exact hk g k hg hk' | exact hps k hk'
  cases m with
  | setLevel l => exact kept _ _ rfl rfl same.2.2.1 same.2.2.2
  | resetLevel =>
    cases e : (s.grp g).parent with
    | none => simp only [onGroup, resetLevel, e]; rw [e] at same; simpa [e] using same
    | some p => exact kept _ { s.grp g with level := (s.grp p).level, levelOv := false } (by simp only [onGroup, resetLevel, e]) rfl same.2.2.1 same.2.2.2
  | setLevelFromGroup p => exact lvlFrom p
  | setLevelFromGroupNamed n =>
    cases e : s.groups.find n with
    | none =>
      rw [show onGroup s g _ = s.grp by simp only [onGroup, getGroup, e]]; exact same
    | some p => simp only [onGroup, getGroup, e]; exact lvlFrom p
  | setSink k => exact snk k hm
  | setSinkNamed n =>
    cases e : s.sinks.find n with
    | none =>
      rw [show onGroup s g _ = s.grp by simp only [onGroup, getSink, e]]; exact same
    | some k => simp only [onGroup, getSink, e]; exact snk k (hw.kLt n k e).1
  | resetSink =>
    cases e : (s.grp g).parent with
    | none => simp only [onGroup, resetSink, e]; rw [e] at same; simpa [e] using same
    | some p => exact kept _ { s.grp g with sink := (s.grp p).sink, sinkOv := false } (by simp only [onGroup, resetSink, e]) rfl same.2.2.1 (fun k hk' => hk p k (hp p hg e) hk')
  | setSinkFromGroup p => exact snkFrom p hm
  | setSinkFromGroupNamed n =>
    cases e : s.groups.find n with
    | none =>
      rw [show onGroup s g _ = s.grp by simp only [onGroup, getGroup, e]]; exact same
    | some p => simp only [onGroup, getGroup, e]; exact snkFrom p (hw.gLt n p e)
  | unsetParentGroup => exact kept _ { s.grp g with parent := none } rfl rfl (fun q hq => by cases hq) same.2.2.2
  | setParentGroup p => exact par p (fun p' e => by subst e; exact hm)
  | setParentGroupNamed n =>
    cases e : s.groups.find n with
    | none =>
      rw [show onGroup s g _ = s.grp by simp only [onGroup, getGroup, e]]; exact same
    | some p => simp only [onGroup, getGroup, e]; exact par (some p) (fun p' e' => by cases e'; exact hw.gLt n p e)

theorem onGroup_wf {s : Sys} (hw : WF s) {g : Nat} (hg : g < s.ngroups) {m : GroupMethod} (hm : m.valid s) :
    WF { s with grp := onGroup s g m } := by
  obtain ⟨h1, h2, h3, h4⟩ := onGroup_shape s hw g hg m hm
  exact {
    hw with
    gName := fun k x hk => by
      rcases hw.gName k x hk with h | h
      · exact .inl h
      · right
        by_cases e : x = g
        · subst e; exact h2.trans h
        · show (onGroup s g m x).name = k
          rw [h1 x e]; exact h
    pLt := fun x p hx hp => by
      by_cases e : x = g
      · subst e; exact h3 p hp
      · have hp : (onGroup s g m x).parent = some p := hp
        rw [h1 x e] at hp; exact hw.pLt x p hx hp
    gsLt := fun x k hx hk => by
      by_cases e : x = g
      · subst e; exact h4 k hk
      · have hk : (onGroup s g m x).sink = some k := hk
        rw [h1 x e] at hk; exact hw.gsLt x k hx hk }

theorem act_wf {fuel : Nat} {s s' : Sys} {a : Act} {v : Val} (hw : WF s) (h : act fuel s a = .ret v s' ∨ act fuel s a = .throw s') :
    WF s' := by
  cases a with
  | call op => exact trans_wf hw (step_all hw h)
  | group g m =>
    by_cases hc : g < s.ngroups ∧ m.valid s
    · simp only [act, if_pos hc] at h
      rcases h with h | h <;> cases h
      exact onGroup_wf hw hc.1 hc.2
    · simp only [act, if_neg hc] at h
      rcases h with h | h <;> cases h
      exact hw
  | logger i m =>
    simp only [act] at h
    cases e : m.resolve s with
    | none => rw [e] at h; rcases h with h | h <;> cases h; exact hw
    | some m' => rw [e] at h; exact trans_wf hw (step_all hw h)

theorem AnyReachBy.wf {ok : Sys → Act → Prop} {s : Sys} (h : AnyReachBy ok s) : WF s := by
  induction h with
  | init debug ord ho => exact new_wf debug ord ho
  | act _ _ hc ih => exact act_wf ih (.inl hc)
  | failed _ _ hc ih => exact act_wf (v := .unit) ih (.inr hc)
  | configuring _ ih => exact { ih with }

theorem AnyReachBy.any {ok : Sys → Act → Prop} {s : Sys} (h : AnyReachBy ok s) : AnyReach s := by
  induction h with
  | init debug ord ho => exact .init debug ord ho
  | act _ _ hc ih => exact .act ih trivial hc
  | failed _ _ hc ih => exact .failed ih trivial hc
  | configuring _ ih => exact .configuring ih

/-- histories of calls of the system are among them -/
theorem ReachBy.any {ok : Sys → Op → Prop} {s : Sys} (h : ReachBy ok s) : AnyReach s := by
  induction h with
  | init debug ord ho => exact .init debug ord ho
  | @call s s' fuel op v _ _ hc ih => exact .act (a := .call op) ih trivial hc
  | @failed s s' fuel op _ _ hc ih => exact .failed (a := .call op) ih trivial hc
  | configuring _ ih => exact .configuring ih

instance {ok : Sys → Op → Prop} {s : Sys} : CoeOut (ReachBy ok s) (AnyReach s) := ⟨ReachBy.any⟩

theorem runActs_reach {fuel : Nat} {as : List Act} {s s' : Sys} (h : AnyReach s) (hr : runActs fuel as s = some s') : AnyReach s' := by
  induction as generalizing s with
  | nil => cases hr; exact h
  | cons a as ih =>
    unfold runActs at hr
    cases hc : act fuel s a with
    | ret v s1 => rw [hc] at hr; exact ih (.act h trivial hc) hr
    | throw s1 => rw [hc] at hr; exact ih (.failed h trivial hc) hr
    | ub => rw [hc] at hr; cases hr
    | diverge => rw [hc] at hr; cases hr

/-- An invariant of well-formed states that every transition keeps holds in every reachable state. -/
theorem ReachBy.invariant {ok : Sys → Op → Prop} {P : Sys → Prop} (h0 : ∀ debug ord, P (new debug ord))
    (hs : ∀ s s', WF s → P s → Trans .all s s' → P s') {s : Sys} (h : ReachBy ok s) : P s := by
  induction h with
  | init debug ord ho => exact h0 debug ord
  | call hr _ hc ih => exact hs _ _ hr.wf ih (step_all hr.wf (.inl hc))
  | failed hr _ hc ih => exact hs _ _ hr.wf ih (step_all (v := .unit) hr.wf (.inr hc))
  | @configuring s hr ih => exact hs _ _ hr.wf ih (.configured s trivial)

theorem runOps_reach {fuel : Nat} {ops : List Op} {s s' : Sys} (h : Reach s) (hr : runOps fuel ops s = some s') : Reach s' := by
  induction ops generalizing s with
  | nil => cases hr; exact h
  | cons op ops ih =>
    unfold runOps at hr
    cases hc : step fuel s op with
    | ret v s1 => rw [hc] at hr; exact ih (.call h trivial hc) hr
    | throw s1 => rw [hc] at hr; exact ih (.failed h trivial hc) hr
    | ub => rw [hc] at hr; cases hr
    | diverge => rw [hc] at hr; cases hr

theorem configure_reach {fuel : Nat} {sc : Script} {res : ConfResult} {s s' : Sys} (h : Reach s)
    (hc : (∃ r, configure fuel sc res s = .ret r s') ∨ configure fuel sc res s = .throw s') : Reach s' := by
  unfold configure at hc
  split at hc
  · rcases hc with ⟨r, hc⟩ | hc
    · cases hc
    · cases hc; exact h
  · cases hr : runOps fuel sc.ops { s with configured := true } with
    | none => rw [hr] at hc; rcases hc with ⟨r, hc⟩ | hc <;> cases hc
    | some s1 =>
      have h1 := runOps_reach (.configuring h) hr
      rw [hr] at hc
      simp only at hc
      have : s' = s1 := by
        split at hc
        · rcases hc with ⟨r, hc⟩ | hc <;> cases hc; rfl
        · split at hc
          · rcases hc with ⟨r, hc⟩ | hc <;> cases hc; rfl
          · split at hc
            · rcases hc with ⟨r, hc⟩ | hc <;> cases hc
            · rcases hc with ⟨r, hc⟩ | hc <;> cases hc; rfl
      rw [this]; exact h1

/-! ### inherited values -/

structure Fresh (s : Sys) : Prop where
  lvl : ∀ x p, s.registered x → (s.grp x).parent = some p → (s.grp x).levelOv = false → (s.grp x).level = (s.grp p).level
  snk : ∀ x p, s.registered x → (s.grp x).parent = some p → (s.grp x).sinkOv = false → (s.grp x).sink = (s.grp p).sink
  llvl : ∀ i, s.alive i = true → s.registered (s.lgr i).group → (s.lgr i).levelOv = false →
    (s.lgr i).level = (s.grp (s.lgr i).group).level
  lsnk : ∀ i k, s.alive i = true → s.registered (s.lgr i).group → (s.lgr i).sinkOv = false →
    (s.grp (s.lgr i).group).sink = some k → (s.lgr i).sink = some k

/-- the walk found that `g` is not above -/
theorem walk_no {h : Nat → Group} {g : Nat} {parent : Option Nat} {fixed : Nat → Bool} {y : Nat}
    (hi : InheritsFrom (relink h g parent) fixed g y) (hy : y ≠ g) (fuel : Nat) : walk h g fuel (h y).parent ≠ some false := by
  induction hi generalizing fuel with
  | self => exact absurd rfl hy
  | @child x p hr _ _ ih =>
    have hpar : (h x).parent = some p := by
      unfold relink at hr
      rw [if_neg hy] at hr
      split at hr
      · cases hr
      · exact hr
    rw [hpar]
    cases fuel with
    | zero => simp [walk]
    | succ fuel =>
      unfold walk
      split
      · simp
      · rename_i hp; exact ih hp fuel

/-- the new parent is not below `g` -/
theorem parent_not_below {s : Sys} {g p : Nat}
    (hw : (s.grp p).parent = some g ∨ ∃ fuel, walk s.grp g fuel (s.grp p).parent = some false) (hpg : p ≠ g)
    {fixed : Nat → Bool} : ¬ InheritsFrom (relink s.grp g (some p)) fixed g p := by
  intro hi
  rcases hw with hw | ⟨fuel, hw⟩
  · cases hi with
    | self => exact hpg rfl
    | child hr _ _ =>
      unfold relink at hr
      rw [if_neg hpg, if_pos ⟨rfl, hw⟩] at hr
      cases hr
  · exact walk_no hi hpg fuel hw

theorem call_fresh {l : Logger} {h : Nat → Group} (m : Method)
    (hl : l.levelOv = false → l.level = (h l.group).level)
    (hk : ∀ k, l.sinkOv = false → (h l.group).sink = some k → l.sink = some k) :
    ((l.call h m).levelOv = false → (l.call h m).level = (h (l.call h m).group).level) ∧
    (∀ k, (l.call h m).sinkOv = false → (h (l.call h m).group).sink = some k → (l.call h m).sink = some k) := by
  cases m with
  | setLevel v => exact ⟨fun h => (by cases h), hk⟩
  | resetLevel => exact ⟨fun _ => rfl, hk⟩
  | setLevelFromGroup g =>
    refine ⟨fun h => ?_, hk⟩
    simp only [Logger.call, Logger.setLevelFromGroup, decide_eq_false_iff_not, Decidable.not_not] at h ⊢
    rw [h]
  | setSink k => exact ⟨hl, fun k h => (by cases h)⟩
  | resetSink => exact ⟨hl, fun k _ h => h⟩
  | setSinkFromGroup g =>
    cases hs : (h g).sink with
    | none =>
      have : l.call h (.setSinkFromGroup g) = l := by simp only [Logger.call, Logger.setSinkFromGroup, hs]
      rw [this]
      exact ⟨hl, hk⟩
    | some k0 =>
      have : l.call h (.setSinkFromGroup g) = { l with sinkOv := decide (g ≠ l.group), sink := some k0 } := by
        simp only [Logger.call, Logger.setSinkFromGroup, hs]
      rw [this]
      refine ⟨hl, fun k h1 h2 => ?_⟩
      simp only [decide_eq_false_iff_not, Decidable.not_not] at h1 h2 ⊢
      rw [← h1, hs] at h2
      exact h2
  | setGroup g =>
    unfold Logger.call Logger.setGroup Logger.setSinkFromGroup Logger.setLevelFromGroup
    rcases l with ⟨a, b, c, d, e, f⟩
    cases hs : (h g).sink <;> cases d <;> cases f <;> simp [hs]

/-- what happens to a logger by a call when its group is irrelevant -/
theorem call_fresh_setGroup (l : Logger) (h : Nat → Group) (g : Nat) :
    ((l.call h (.setGroup g)).levelOv = false → (l.call h (.setGroup g)).level = (h g).level) ∧
    (∀ k, (l.call h (.setGroup g)).sinkOv = false → (h g).sink = some k → (l.call h (.setGroup g)).sink = some k) ∧
    (l.call h (.setGroup g)).group = g := by
  unfold Logger.call Logger.setGroup Logger.setSinkFromGroup Logger.setLevelFromGroup
  rcases l with ⟨a, b, c, d, e, f⟩
  cases hs : (h g).sink <;> cases d <;> cases f <;> simp [hs]

theorem mkLogger_fresh (s : Sys) (name : Text) (g : Nat) (sink : Option Text) (level : Option Level) :
    ((mkLogger s name g sink level).levelOv = false → (mkLogger s name g sink level).level = (s.grp g).level) ∧
    (∀ k, (mkLogger s name g sink level).sinkOv = false → (s.grp g).sink = some k →
      (mkLogger s name g sink level).sink = some k) := by
  unfold mkLogger Logger.new Logger.setSinkFromGroup Logger.setLevelFromGroup Logger.setSink Logger.setLevel getSink
  cases hs : (s.grp g).sink <;> cases level <;> cases sink with
  | none => simp
  | some kn => cases hk : s.sinks.find kn <;> simp [hk]

/-- the registered groups after `makeGroup` -/
theorem registered_group {s : Sys} {grp : Nat → Group} {name : Text} {x : Nat}
    (h : Sys.registered { s with
          ngroups := s.ngroups + 1, grp := grp,
          groups := (if (s.groups.find star).isNone then s.groups.put star s.ngroups else s.groups).put name s.ngroups } x) :
    x = s.ngroups ∨ s.registered x := by
  obtain ⟨k, h⟩ := h
  rcases put_find h with ⟨_, rfl⟩ | h
  · exact .inl rfl
  · split at h
    · rcases put_find h with ⟨_, rfl⟩ | h
      · exact .inl rfl
      · exact .inr ⟨k, h⟩
    · exact .inr ⟨k, h⟩

theorem registered_same {s s' : Sys} (h : s'.groups = s.groups) (x : Nat) : s'.registered x ↔ s.registered x := by
  unfold Sys.registered; rw [h]

theorem relink_parent {h : Nat → Group} {g : Nat} {parent : Option Nat} {x p : Nat} (hx : x ≠ g)
    (hr : relink h g parent x = some p) : (h x).parent = some p := by
  unfold relink at hr
  rw [if_neg hx] at hr
  split at hr
  · cases hr
  · exact hr

theorem trans_fresh {A : Allow} {s s' : Sys} (hw : WF s) (hf : Fresh s) (ht : Trans A s s') : Fresh s' := by
  cases ht with
  | refl => exact hf
  | configured => exact ⟨hf.lvl, hf.snk, hf.llvl, hf.lsnk⟩
  | erase k i hk hd => exact ⟨hf.lvl, hf.snk, hf.llvl, hf.lsnk⟩
  | sink name => exact ⟨hf.lvl, hf.snk, hf.llvl, hf.lsnk⟩
  | group name parent sink level p k hp hk hl hA =>
    have hold : ∀ x, x < s.ngroups → upd s.grp s.ngroups (newGroup s name p k level) x = s.grp x :=
      fun x hx => upd_other _ _ (Nat.ne_of_lt hx)
    have hplt : ∀ q, p = some q → q < s.ngroups := by
      intro q hq
      obtain ⟨kn, _, h⟩ := resolve_registered hp hq
      exact hw.gLt _ _ h
    refine ⟨?_, ?_, ?_, ?_⟩
    · intro x q hr hq hov
      rcases registered_group hr with rfl | hr
      · simp only [upd_same] at hq hov ⊢
        have hq : p = some q := hq
        rw [hold q (hplt q hq)]
        subst hq
        cases level with
        | none => rfl
        | some l => simp [newGroup] at hov
      · have hx := hw.regLt hr
        simp only [hold x hx] at hq hov ⊢
        rw [hold q (hw.pLt x q hx hq)]
        exact hf.lvl x q hr hq hov
    · intro x q hr hq hov
      rcases registered_group hr with rfl | hr
      · simp only [upd_same] at hq hov ⊢
        have hq : p = some q := hq
        rw [hold q (hplt q hq)]
        subst hq
        cases k with
        | none => rfl
        | some l => simp [newGroup] at hov
      · have hx := hw.regLt hr
        simp only [hold x hx] at hq hov ⊢
        rw [hold q (hw.pLt x q hx hq)]
        exact hf.snk x q hr hq hov
    · intro i ha hr hov
      have hlt := hw.lgLt i (hw.live i ha).1
      simp only [hold _ hlt]
      rcases registered_group hr with h | hr
      · exact absurd h (Nat.ne_of_lt hlt)
      · exact hf.llvl i ha hr hov
    · intro i k' ha hr hov hk'
      have hlt := hw.lgLt i (hw.live i ha).1
      simp only [hold _ hlt] at hk'
      rcases registered_group hr with h | hr
      · exact absurd h (Nat.ne_of_lt hlt)
      · exact hf.lsnk i k' ha hr hov hk'
  | fallback name g hg _ =>
    have hreg : ∀ x, Sys.registered { s with groups := s.groups.put star g } x → s.registered x := by
      rintro x ⟨k, h⟩
      rcases put_find h with ⟨_, rfl⟩ | h
      · exact ⟨_, hg⟩
      · exact ⟨_, h⟩
    exact ⟨fun x p h => hf.lvl x p (hreg x h), fun x p h => hf.snk x p (hreg x h),
      fun i ha h => hf.llvl i ha (hreg _ h), fun i k ha h => hf.lsnk i k ha (hreg _ h)⟩
  | create name g sink level ws hd hg =>
    obtain ⟨m1, m2, _⟩ := mkLogger_name s name g sink level
    obtain ⟨f1, f2⟩ := mkLogger_fresh s name g sink level
    refine ⟨hf.lvl, hf.snk, ?_, ?_⟩
    · intro i ha hr hov
      simp only [created] at ha hr hov ⊢
      by_cases hi : i = s.nloggers
      · subst hi
        rw [upd_same] at hov ⊢
        rw [f1 hov, m2]
      · rw [upd_other _ _ hi] at ha hr hov ⊢
        exact hf.llvl i ha hr hov
    · intro i k ha hr hov hk
      simp only [created] at ha hr hov hk ⊢
      by_cases hi : i = s.nloggers
      · subst hi
        rw [upd_same] at hov hk ⊢
        rw [m2] at hk
        exact f2 k hov hk
      · rw [upd_other _ _ hi] at ha hr hov hk ⊢
        exact hf.lsnk i k ha hr hov hk
  | logger i m hi ha hv =>
    have key : s.registered ((s.lgr i).call s.grp m).group →
        (((s.lgr i).call s.grp m).levelOv = false → ((s.lgr i).call s.grp m).level = (s.grp ((s.lgr i).call s.grp m).group).level) ∧
        (∀ k, ((s.lgr i).call s.grp m).sinkOv = false → (s.grp ((s.lgr i).call s.grp m).group).sink = some k →
          ((s.lgr i).call s.grp m).sink = some k) := by
      intro hr
      by_cases hm : ∃ g, m = .setGroup g
      · obtain ⟨g, rfl⟩ := hm
        obtain ⟨a, b, c⟩ := call_fresh_setGroup (s.lgr i) s.grp g
        rw [c]; exact ⟨a, b⟩
      · have hg : ((s.lgr i).call s.grp m).group = (s.lgr i).group := by
          rcases (call_shape (s.lgr i) s.grp m).2.1 with h | ⟨g, h, _⟩
          · exact h
          · exact absurd ⟨g, h⟩ hm
        rw [hg] at hr
        exact call_fresh m (hf.llvl i ha hr) (fun k => hf.lsnk i k ha hr)
    refine ⟨hf.lvl, hf.snk, ?_, ?_⟩
    · intro j haj hr hov
      simp only at haj hr hov ⊢
      by_cases hj : j = i
      · subst hj
        rw [upd_same] at hr hov ⊢
        exact (key hr).1 hov
      · rw [upd_other _ _ hj] at hr hov ⊢
        exact hf.llvl j haj hr hov
    · intro j k haj hr hov hk
      simp only at haj hr hov hk ⊢
      by_cases hj : j = i
      · subst hj
        rw [upd_same] at hr hov hk ⊢
        exact (key hr).2 k hov hk
      · rw [upd_other _ _ hj] at hr hov hk ⊢
        exact hf.lsnk j k haj hr hov hk
  | drop i =>
    have hal : ∀ j, upd s.alive i false j = true → s.alive j = true := by
      intro j h
      by_cases hj : j = i
      · subst hj; rw [upd_same] at h; cases h
      · rw [upd_other _ _ hj] at h; exact h
    exact ⟨hf.lvl, hf.snk, fun j h => hf.llvl j (hal j h), fun j k h => hf.lsnk j k (hal j h)⟩
  | level _ g l hg h =>
    have hreg : ∀ x, s'.registered x ↔ s.registered x := registered_same (by rw [h.rest])
    have hal : ∀ i, s'.alive i = s.alive i := by intro i; rw [h.rest]
    have hlev : ∀ x, s.registered x → InheritsFrom s.parent s.levelFixed g x → (s'.grp x).level = newLevel s.grp g l := by
      intro x hr hi
      by_cases hx : x = g
      · subst hx; rw [h.self]
      · rw [h.registered x hx hr hi]
    have hkeep : ∀ x, ¬ InheritsFrom s.parent s.levelFixed g x → s'.grp x = s.grp x := by
      intro x hi
      rcases h.other x (fun hx => hi (hx ▸ .self)) with h1 | ⟨h1, _⟩
      · exact h1
      · exact absurd h1 hi
    refine ⟨?_, ?_, ?_, ?_⟩
    · intro x p hr hp hov
      rw [hreg] at hr
      rw [(h.shape x).2.1] at hp
      by_cases hx : x = g
      · subst hx
        rw [h.self] at hov
        simp only [newMark, hp, Option.isSome_some, if_true] at hov
        cases l with
        | some l => cases hov
        | none =>
          have hn : newLevel s.grp x none = (s.grp p).level := by unfold newLevel; rw [hp]
          rw [h.self]
          simp only [hn]
          by_cases hpx : p = x
          · subst hpx; rw [h.self]; exact hn.symm
          · rcases h.other p hpx with h1 | ⟨_, h1⟩
            · rw [h1]
            · rw [h1]; exact hn.symm
      · rw [(h.shape x).2.2.2.2 hx] at hov
        by_cases hi : InheritsFrom s.parent s.levelFixed g x
        · rw [hlev x hr hi, h.above x p hx hr hi hp]
        · rw [hkeep x hi]
          by_cases hc : s'.grp p = s.grp p
          · rw [hc]; exact hf.lvl x p hr hp hov
          · exact absurd (h.follows x p hr hx hp hov hc) hi
    · intro x p hr hp hov
      rw [(h.shape x).2.1] at hp
      rw [(h.shape x).2.2.2.1] at hov
      rw [(h.shape x).2.2.1, (h.shape p).2.2.1]
      exact hf.snk x p ((hreg x).1 hr) hp hov
    · intro i ha hr hov
      obtain ⟨_, l2, _, _, l5, _⟩ := h.lshape i
      rw [hal] at ha
      rw [hreg, l2] at hr
      rw [l5] at hov
      rw [l2]
      by_cases hi : InheritsFrom s.parent s.levelFixed g (s.lgr i).group
      · rw [h.logger i ha (hw.live_mem ha) hr hov hi, hlev _ hr hi]
      · rw [hkeep _ hi, h.logger_kept i (fun hc => hi hc.2.2.2.2)]
        exact hf.llvl i ha hr hov
    · intro i k ha hr hov hk
      obtain ⟨_, l2, l3, l4, _, _⟩ := h.lshape i
      rw [hal] at ha
      rw [hreg, l2] at hr
      rw [l4] at hov
      rw [l2, (h.shape _).2.2.1] at hk
      rw [l3]
      exact hf.lsnk i k ha hr hov hk
  | sinkOf _ g l hg hk h =>
    have hreg : ∀ x, s'.registered x ↔ s.registered x := registered_same (by rw [h.rest])
    have hal : ∀ i, s'.alive i = s.alive i := by intro i; rw [h.rest]
    have hlev : ∀ x, s.registered x → InheritsFrom s.parent s.sinkFixed g x → (s'.grp x).sink = newSink s.grp g l := by
      intro x hr hi
      by_cases hx : x = g
      · subst hx; rw [h.self]
      · rw [h.registered x hx hr hi]
    have hkeep : ∀ x, ¬ InheritsFrom s.parent s.sinkFixed g x → s'.grp x = s.grp x := by
      intro x hi
      rcases h.other x (fun hx => hi (hx ▸ .self)) with h1 | ⟨h1, _⟩
      · exact h1
      · exact absurd h1 hi
    refine ⟨?_, ?_, ?_, ?_⟩
    · intro x p hr hp hov
      rw [(h.shape x).2.1] at hp
      rw [(h.shape x).2.2.2.1] at hov
      rw [(h.shape x).2.2.1, (h.shape p).2.2.1]
      exact hf.lvl x p ((hreg x).1 hr) hp hov
    · intro x p hr hp hov
      rw [hreg] at hr
      rw [(h.shape x).2.1] at hp
      by_cases hx : x = g
      · subst hx
        rw [h.self] at hov
        simp only [newMark, hp, Option.isSome_some, if_true] at hov
        cases l with
        | some l => cases hov
        | none =>
          have hn : newSink s.grp x none = (s.grp p).sink := by unfold newSink; rw [hp]
          rw [h.self]
          simp only [hn]
          by_cases hpx : p = x
          · subst hpx; rw [h.self]; exact hn.symm
          · rcases h.other p hpx with h1 | ⟨_, h1⟩
            · rw [h1]
            · rw [h1]; exact hn.symm
      · rw [(h.shape x).2.2.2.2 hx] at hov
        by_cases hi : InheritsFrom s.parent s.sinkFixed g x
        · rw [hlev x hr hi, h.above x p hx hr hi hp]
        · rw [hkeep x hi]
          by_cases hc : s'.grp p = s.grp p
          · rw [hc]; exact hf.snk x p hr hp hov
          · exact absurd (h.follows x p hr hx hp hov hc) hi
    · intro i ha hr hov
      obtain ⟨_, l2, l3, l4, _, _⟩ := h.lshape i
      rw [hal] at ha
      rw [hreg, l2] at hr
      rw [l4] at hov
      rw [l2, l3, (h.shape _).2.2.1]
      exact hf.llvl i ha hr hov
    · intro i k ha hr hov hk
      obtain ⟨_, l2, _, _, l5, _⟩ := h.lshape i
      rw [hal] at ha
      rw [hreg, l2] at hr
      rw [l5] at hov
      rw [l2] at hk
      by_cases hi : InheritsFrom s.parent s.sinkFixed g (s.lgr i).group
      · rw [hlev _ hr hi] at hk
        rw [h.logger i ha (hw.live_mem ha) hr hov hi, hk]
        simp [followSink]
      · rw [hkeep _ hi] at hk
        rw [h.logger_kept i (fun hc => hi hc.2.2.2.2)]
        exact hf.lsnk i k ha hr hov hk
  | parentOf _ g pp hg hp hA hwalk h =>
    have hreg : ∀ x, s'.registered x ↔ s.registered x := registered_same (by rw [h.rest])
    have hal : ∀ i, s'.alive i = s.alive i := by intro i; rw [h.rest]
    have hkeep : ∀ x, ¬ InheritsFrom (relink s.grp g pp) s.bothFixed g x →
        s'.grp x = { s.grp x with parent := relink s.grp g pp x } := by
      intro x hi
      rcases h.other x (fun hx => hi (hx ▸ .self)) with h1 | ⟨h1, _⟩
      · exact h1
      · exact absurd h1 hi
    have hself : ∀ p, pp = some p → (s'.grp p).level = (if p = g then (s'.grp g).level else (s.grp p).level) ∧
        (s'.grp p).sink = (if p = g then (s'.grp g).sink else (s.grp p).sink) := by
      intro p hpp
      subst hpp
      by_cases hpg : p = g
      · subst hpg; simp
      · rw [if_neg hpg, if_neg hpg, hkeep p (parent_not_below (hwalk p rfl) hpg)]
        exact ⟨rfl, rfl⟩
    refine ⟨?_, ?_, ?_, ?_⟩
    · intro x p hr hpar hov
      rw [hreg] at hr
      obtain ⟨_, s2, s3, s4, _, _⟩ := h.shape x
      rw [s4] at hpar
      rw [s2] at hov
      by_cases hx : x = g
      · subst hx
        have hpp : pp = some p := by unfold relink at hpar; rw [if_pos rfl] at hpar; exact hpar
        obtain ⟨h1, _⟩ := hself p hpp
        by_cases hpx : p = x
        · rw [hpx]
        · rw [if_neg hpx] at h1
          rw [h1, h.self, hpp]
          simp [reparented, inherit, hov]
      · by_cases hi : InheritsFrom (relink s.grp g pp) s.bothFixed g x
        · obtain ⟨q, h1, h2⟩ := h.registered x hx hr hi
          rw [hpar] at h1; cases h1
          rw [h2]
          simp [inherit, hov]
        · rw [hkeep x hi]
          have hb : s.bothFixed x = false := by unfold Sys.bothFixed; rw [hov]; rfl
          by_cases hc : s'.grp p = { s.grp p with parent := relink s.grp g pp p }
          · rw [hc]; exact hf.lvl x p hr (relink_parent hx hpar) hov
          · exact absurd (h.follows x p hx hpar hb hc) hi
    · intro x p hr hpar hov
      rw [hreg] at hr
      obtain ⟨_, s2, s3, s4, _, _⟩ := h.shape x
      rw [s4] at hpar
      rw [s3] at hov
      by_cases hx : x = g
      · subst hx
        have hpp : pp = some p := by unfold relink at hpar; rw [if_pos rfl] at hpar; exact hpar
        obtain ⟨_, h1⟩ := hself p hpp
        by_cases hpx : p = x
        · rw [hpx]
        · rw [if_neg hpx] at h1
          rw [h1, h.self, hpp]
          simp [reparented, inherit, hov]
      · by_cases hi : InheritsFrom (relink s.grp g pp) s.bothFixed g x
        · obtain ⟨q, h1, h2⟩ := h.registered x hx hr hi
          rw [hpar] at h1; cases h1
          rw [h2]
          simp [inherit, hov]
        · rw [hkeep x hi]
          have hb : s.bothFixed x = false := by unfold Sys.bothFixed; rw [hov]; exact Bool.and_false _
          by_cases hc : s'.grp p = { s.grp p with parent := relink s.grp g pp p }
          · rw [hc]; exact hf.snk x p hr (relink_parent hx hpar) hov
          · exact absurd (h.follows x p hx hpar hb hc) hi
    · intro i ha hr hov
      obtain ⟨_, l2, l3, _, _, _⟩ := h.lshape i
      rw [hal] at ha
      rw [hreg, l2] at hr
      rw [l3] at hov
      rw [l2]
      by_cases hi : InheritsFrom (relink s.grp g pp) s.bothFixed g (s.lgr i).group
      · rw [h.logger i ha (hw.live_mem ha) hr hi, setGroup_own]
        simp [hov]
      · rw [hkeep _ hi, h.logger_kept i (fun hc => hi hc.2.2.2)]
        exact hf.llvl i ha hr hov
    · intro i k ha hr hov hk
      obtain ⟨_, l2, _, l4, _, _⟩ := h.lshape i
      rw [hal] at ha
      rw [hreg, l2] at hr
      rw [l4] at hov
      rw [l2] at hk
      by_cases hi : InheritsFrom (relink s.grp g pp) s.bothFixed g (s.lgr i).group
      · rw [h.logger i ha (hw.live_mem ha) hr hi, setGroup_own]
        simp [hov, followSink, hk]
      · rw [hkeep _ hi] at hk
        rw [h.logger_kept i (fun hc => hi hc.2.2.2)]
        exact hf.lsnk i k ha hr hov hk

theorem ReachBy.fresh {ok : Sys → Op → Prop} {s : Sys} (h : ReachBy ok s) : Fresh s :=
  h.invariant (P := Fresh)
    (fun debug ord => ⟨fun x p h => (by obtain ⟨k, h⟩ := h; simp [new, Table.find] at h),
      fun x p h => (by obtain ⟨k, h⟩ := h; simp [new, Table.find] at h),
      fun i h => (by simp [new] at h), fun i k h => (by simp [new] at h)⟩)
    (fun _ _ hw hf ht => trans_fresh hw hf ht)

end System
end Soralog
