import Verif.Props.System
/-!
# C36, C38, C39: container order, cycles, termination
-/
namespace Soralog
namespace System

open Hierarchy

/-! ## C36 -/

/-- The same system with its hash maps enumerated in another order and its objects at other addresses (`ord` is the
order in which a set of pointers is traversed). -/
structure Reordered (s t : Sys) : Prop where
  same : t = { s with groups := t.groups, loggers := t.loggers, sinks := t.sinks, ord := t.ord }
  groups : t.groups.Perm s.groups
  loggers : t.loggers.Perm s.loggers
  sinks : t.sinks.Perm s.sinks
  ord : ∀ l, (t.ord l).Perm l

theorem find_perm {a b : Table} (hu : b.Unique) (h : a.Perm b) : a.Unique ∧ a.find = b.find := by
  have hua : a.Unique := by
    unfold Table.Unique at hu ⊢
    exact ((h.map (·.1)).nodup_iff).2 hu
  refine ⟨hua, funext fun k => ?_⟩
  cases hb : b.find k with
  | some v => exact Table.find_of_mem hua (h.symm.subset (Table.find_some_mem hb))
  | none =>
    cases ha : a.find k with
    | none => rfl
    | some v => exact absurd (h.subset (Table.find_some_mem ha)) (Table.find_none hb v)

theorem perm_find {a b : Table} (ha : a.Unique) (hb : b.Unique) (h : a.find = b.find) : a.Perm b := by
  have nd : ∀ {t : Table}, t.Unique → t.Nodup := by
    intro t hu
    exact List.Pairwise.of_map (·.1) (fun a b hab he => hab (congrArg _ he)) hu
  rw [List.perm_ext_iff_of_nodup (nd ha) (nd hb)]
  intro e
  obtain ⟨k, v⟩ := e
  constructor
  · intro hm
    have := Table.find_of_mem ha hm
    rw [h] at this
    exact Table.find_some_mem this
  · intro hm
    have := Table.find_of_mem hb hm
    rw [← h] at this
    exact Table.find_some_mem this

theorem Reordered.sim {s t : Sys} (hw : WF s) (h : Reordered s t) : WF t ∧ Sim s t := by
  have hg := find_perm hw.gU h.groups
  have hl := find_perm hw.lU h.loggers
  have hk := find_perm hw.kU h.sinks
  refine ⟨?_, h.same, hg.2, hl.2, hk.2⟩
  obtain ⟨heq, h1, h2, h3, ho⟩ := h
  generalize t.groups = tg at heq h1 hg
  generalize t.loggers = tl at heq h2 hl
  generalize t.sinks = tk at heq h3 hk
  generalize t.ord = to at heq ho
  subst heq
  exact { ord := ho, gU := hg.1, lU := hl.1, kU := hk.1,
          gLt := fun k g hh => hw.gLt k g (by rw [← hg.2]; exact hh),
          gName := fun k g hh => hw.gName k g (by rw [← hg.2]; exact hh),
          kLt := fun k g hh => hw.kLt k g (by rw [← hk.2]; exact hh),
          lLt := fun k g hh => hw.lLt k g (by rw [← hl.2]; exact hh),
          live := fun i ha => ⟨(hw.live i ha).1, by have := (hw.live i ha).2; rw [← hl.2] at this; exact this⟩,
          pLt := hw.pLt, gsLt := hw.gsLt, lgLt := hw.lgLt, lsLt := hw.lsLt }

theorem Sim.reordered {s t : Sys} (hw : WF s) (hwt : WF t) (h : Sim s t) : Reordered s t :=
  ⟨h.eq, perm_find hwt.gU hw.gU h.groups, perm_find hwt.lU hw.lU h.loggers, perm_find hwt.kU hw.kU h.sinks, hwt.ord⟩

/-- the same outcome, up to the order of the tables -/
inductive SameOutcome {α : Type} : Res α → Res α → Prop
  | ret (v : α) {s t : Sys} (h : Reordered s t) : SameOutcome (.ret v s) (.ret v t)
  | throw {s t : Sys} (h : Reordered s t) : SameOutcome (.throw s) (.throw t)
  | ub : SameOutcome .ub .ub

/-- **C36.**  Every call on a reordered system has the same outcome: it returns the same, or throws, and leaves the
same system (reordered).  (`N`: reordering may need a larger recursion bound of the model; a call that ends, ends.) -/
theorem C36_order_irrelevant {s t : Sys} (h : AnyReach s) (ht : Reordered s t) (op : Op) {fuel : Nat}
    (hd : step fuel s op ≠ .diverge) : ∃ N, ∀ fuel', N ≤ fuel' → SameOutcome (step fuel s op) (step fuel' t op) := by
  obtain ⟨hwt, hsim⟩ := ht.sim h.wf
  obtain ⟨N, hN⟩ := step_sim h.wf hwt hsim op hd
  refine ⟨N, fun fuel' hf => ?_⟩
  have := hN fuel' hf
  generalize hr : step fuel s op = r at this
  generalize hr' : step fuel' t op = r' at this
  cases this with
  | ret v hs =>
    exact .ret v (hs.reordered (trans_wf h.wf (step_all h.wf (.inl hr))) (trans_wf hwt (step_all hwt (.inl hr'))))
  | throw hs =>
    exact .throw (hs.reordered (trans_wf h.wf (step_all (v := .unit) h.wf (.inr hr)))
      (trans_wf hwt (step_all (v := .unit) hwt (.inr hr'))))
  | ub => exact .ub

theorem Reordered.trans {s t u : Sys} (h1 : Reordered s t) (h2 : Reordered t u) : Reordered s u where
  same := by
    have a := h1.same
    have b := h2.same
    rw [b, a]
  groups := h2.groups.trans h1.groups
  loggers := h2.loggers.trans h1.loggers
  sinks := h2.sinks.trans h1.sinks
  ord := h2.ord

/-- a run of calls during which the tables may be rearranged (rehashed) before every call -/
inductive ShuffledRun : List Op → Sys → Sys → Prop
  | done {s t : Sys} (h : Reordered s t) : ShuffledRun [] s t
  | ret {op : Op} {ops : List Op} {s t t' u : Sys} {fuel : Nat} {v : Val} (h : Reordered s t)
      (hc : step fuel t op = .ret v t') (hr : ShuffledRun ops t' u) : ShuffledRun (op :: ops) s u
  | throw {op : Op} {ops : List Op} {s t t' u : Sys} {fuel : Nat} (h : Reordered s t)
      (hc : step fuel t op = .throw t') (hr : ShuffledRun ops t' u) : ShuffledRun (op :: ops) s u

theorem step_mono {s : Sys} (_hw : WF s) {op : Op} {fuel fuel' : Nat} (hd : step fuel s op ≠ .diverge) (hf : fuel ≤ fuel') :
    step fuel' s op = step fuel s op := by
  have hof : ∀ (r : Nat → Option Sys), (∀ s', r fuel = some s' → r fuel' = some s') →
      (ofOption (r fuel)).map Val.bool ≠ .diverge → (ofOption (r fuel')).map Val.bool = (ofOption (r fuel)).map Val.bool := by
    intro r h1 h2
    cases hr : r fuel with
    | none => rw [hr] at h2; exact absurd rfl h2
    | some s' => rw [h1 s' hr]
  cases op with
  | makeSink n => rfl
  | makeGroup n p k l => rfl
  | setFallbackGroup n => rfl
  | getLogger n g k l => rfl
  | setParentOfGroup g p =>
    simp only [step, setParentOfGroup] at hd ⊢
    cases hg : s.groups.find g with
    | none => rfl
    | some g' =>
      cases hp : s.groups.find p with
      | none => rfl
      | some p' =>
        rw [hg, hp] at hd
        simp only at hd ⊢
        by_cases hc : (s.grp p').parent ≠ some g'
        · simp only [if_pos hc] at hd ⊢
          cases hwk : walk s.grp g' fuel (s.grp p').parent with
          | none => rw [hwk] at hd; exact absurd rfl hd
          | some b =>
            rw [walk_mono hwk hf]
            rw [hwk] at hd
            cases b with
            | true => rfl
            | false => exact hof (fun fuel => setParentOfGroupPtr fuel g' (some p') s) (fun s' hr => by
            rw [setParentOfGroupPtr_eq] at hr ⊢; exact propagate_mono hr hf) hd
        · simp only [if_neg hc] at hd ⊢
          exact hof (fun fuel => setParentOfGroupPtr fuel g' (some p') s) (fun s' hr => by
            rw [setParentOfGroupPtr_eq] at hr ⊢; exact propagate_mono hr hf) hd
  | unsetParentOfGroup g =>
    simp only [step, unsetParentOfGroup] at hd ⊢
    cases hg : s.groups.find g with
    | none => rfl
    | some g' =>
      rw [hg] at hd
      exact hof (fun fuel => setParentOfGroupPtr fuel g' none s) (fun s' hr => by
            rw [setParentOfGroupPtr_eq] at hr ⊢; exact propagate_mono hr hf) hd
  | setSinkOfGroup g k =>
    simp only [step, setSinkOfGroup, getSink] at hd ⊢
    cases hk : s.sinks.find k with
    | none => rfl
    | some k' =>
      cases hg : s.groups.find g with
      | none => rfl
      | some g' =>
        rw [hk, hg] at hd
        exact hof (fun fuel => setSinkOfGroupPtr fuel g' (some k') s) (fun s' hr => by
            rw [setSinkOfGroupPtr_eq] at hr ⊢; exact propagate_mono hr hf) hd
  | resetSinkOfGroup g =>
    simp only [step, resetSinkOfGroup] at hd ⊢
    cases hg : s.groups.find g with
    | none => rfl
    | some g' =>
      rw [hg] at hd
      exact hof (fun fuel => setSinkOfGroupPtr fuel g' none s) (fun s' hr => by
            rw [setSinkOfGroupPtr_eq] at hr ⊢; exact propagate_mono hr hf) hd
  | setLevelOfGroup g l =>
    simp only [step, setLevelOfGroup] at hd ⊢
    cases hg : s.groups.find g with
    | none => rfl
    | some g' =>
      rw [hg] at hd
      exact hof (fun fuel => setLevelOfGroupPtr fuel g' (some l) s) (fun s' hr => by
            rw [setLevelOfGroupPtr_eq] at hr ⊢; exact propagate_mono hr hf) hd
  | resetLevelOfGroup g =>
    simp only [step, resetLevelOfGroup] at hd ⊢
    cases hg : s.groups.find g with
    | none => rfl
    | some g' =>
      rw [hg] at hd
      exact hof (fun fuel => setLevelOfGroupPtr fuel g' none s) (fun s' hr => by
            rw [setLevelOfGroupPtr_eq] at hr ⊢; exact propagate_mono hr hf) hd
  | setGroupOfLogger l g => rfl
  | setSinkOfLogger l k => rfl
  | resetSinkOfLogger l => rfl
  | setLevelOfLogger l v => rfl
  | resetLevelOfLogger l => rfl
  | onHandle i m => rfl
  | drop i => rfl

/-- **C36**, histories: however the tables are rearranged on the way, a history that ends leaves the same system. -/
theorem C36_histories {ops : List Op} {s s' : Sys} (h : Reach s) {fuel : Nat} (hr : runOps fuel ops s = some s')
    {t u : Sys} (ht : Reordered s t) (hu : ShuffledRun ops t u) : Reordered s' u := by
  induction ops generalizing s t with
  | nil =>
    cases hr
    cases hu with
    | done hd => exact ht.trans hd
  | cons op ops ih =>
    unfold runOps at hr
    have key : ∀ (t1 : Sys) (fuel1 : Nat) (r1 : Res Val), Reordered s t1 → step fuel1 t1 op = r1 → r1 ≠ .diverge →
        step fuel s op ≠ .diverge → SameOutcome (step fuel s op) r1 := by
      intro t1 fuel1 r1 hre hc hne hd
      obtain ⟨N, hN⟩ := C36_order_irrelevant h hre op hd
      have hm := step_mono (hre.sim h.wf).1 (op := op) (fuel := fuel1) (fuel' := max N fuel1) (by rw [hc]; exact hne) (by omega)
      have := hN (max N fuel1) (by omega)
      rw [hm, hc] at this
      exact this
    cases hu with
    | @ret _ _ _ t1 t1' _ fuel1 v h1 hc hrest =>
      have hre := ht.trans h1
      cases hst : step fuel s op with
      | diverge => rw [hst] at hr; cases hr
      | ub => rw [hst] at hr; cases hr
      | ret v' s1 =>
        have hk := key t1 fuel1 _ hre hc (by simp) (by rw [hst]; simp)
        rw [hst] at hr hk
        cases hk with
        | ret _ hh => exact ih (.call h trivial hst) hr hh hrest
      | throw s1 =>
        have hk := key t1 fuel1 _ hre hc (by simp) (by rw [hst]; simp)
        rw [hst] at hk
        cases hk
    | @throw _ _ _ t1 t1' _ fuel1 h1 hc hrest =>
      have hre := ht.trans h1
      cases hst : step fuel s op with
      | diverge => rw [hst] at hr; cases hr
      | ub => rw [hst] at hr; cases hr
      | throw s1 =>
        have hk := key t1 fuel1 _ hre hc (by simp) (by rw [hst]; simp)
        rw [hst] at hr hk
        cases hk with
        | throw hh => exact ih (.failed h trivial hst) hr hh hrest
      | ret v' s1 =>
        have hk := key t1 fuel1 _ hre hc (by simp) (by rw [hst]; simp)
        rw [hst] at hk
        cases hk

/-- the demo system enumerated backwards -/
def demoBack : Sys :=
  { demoL with groups := demoL.groups.reverse, loggers := demoL.loggers.reverse, sinks := demoL.sinks.reverse,
               ord := List.reverse }

example : Reordered demoL demoBack :=
  ⟨rfl, List.reverse_perm _, List.reverse_perm _, List.reverse_perm _, List.reverse_perm⟩

example : let s' := after [.setParentOfGroup ['a'] ['q']] demoL
    let t' := after [.setParentOfGroup ['a'] ['q']] demoBack
    demoBack.groups ≠ demoL.groups ∧ (s'.grp 2).level = .trace ∧ t'.grp 2 = s'.grp 2 ∧ t'.lgr 0 = s'.lgr 0 := by
  decide +kernel

/-! ## C38 -/

/-- **C38**, part: in every history the only cycles are groups that are their own parent.  Missing: that there are none
of these either — refuted below. -/
theorem C38_only_self_cycles_partial {s : Sys} (h : Reach s) {x : Nat} (hx : x < s.ngroups) (hc : Ancestor s.parent x x) :
    s.parent x = some x := by
  obtain ⟨n, hn⟩ := h.allEnd x hx
  exact ends_cycle hn hc

/-- **C38**, part: as long as `setParentOfGroup` is not called with the same group twice, no group is its own ancestor. -/
theorem C38_acyclic_partial {s : Sys} (h : ReachBy noSelfParent s) {x : Nat} (hx : x < s.ngroups) :
    ¬ Ancestor s.parent x x :=
  fun hc => h.noSelf x (C38_only_self_cycles_partial h.reach hx hc)

theorem walk_ancestor {h : Nat → Group} {g x : Nat} (ha : Ancestor (fun y => (h y).parent) g x) (fuel : Nat) :
    walk h g fuel (h x).parent ≠ some false := by
  induction ha generalizing fuel with
  | parent hp =>
    rw [hp]
    cases fuel with
    | zero => simp [walk]
    | succ n => simp [walk]
  | @above x p hp _ ih =>
    rw [hp]
    cases fuel with
    | zero => simp [walk]
    | succ n =>
      unfold walk
      split
      · simp
      · exact ih n

/-- **C38**, refusal: making a group the child of one of its indirect descendants returns false and changes nothing. -/
theorem C38_refused {s s' : Sys} {gn pn : Text} {g p : Nat} (hg : s.groups.find gn = some g)
    (hp : s.groups.find pn = some p) (ha : Ancestor s.parent g p) (hnd : s.parent p ≠ some g) {fuel : Nat} {v : Val}
    (hc : step fuel s (.setParentOfGroup gn pn) = .ret v s') : v = .bool false ∧ s' = s := by
  have hnd' : (s.grp p).parent ≠ some g := hnd
  simp only [step, setParentOfGroup, hg, hp, if_pos hnd'] at hc
  cases hw : walk s.grp g fuel (s.grp p).parent with
  | none => rw [hw] at hc; cases hc
  | some b =>
    rw [hw] at hc
    cases b with
    | true => cases hc; exact ⟨rfl, rfl⟩
    | false => exact absurd hw (walk_ancestor ha fuel)

/-- `r` cannot become a child of `b`, its grandchild -/
example : Ancestor demoL.parent 0 2 :=
  .above (p := 1) (by decide +kernel) (.parent (by decide +kernel))
example : demoL.groups.find ['r'] = some 0 ∧ demoL.groups.find ['b'] = some 2 ∧ demoL.parent 2 = some 1 ∧
    (step 20 demoL (.setParentOfGroup ['r'] ['b'])).val = some (.bool false) := by decide +kernel

/-- the demo history makes no group its own parent -/
example : ReachBy noSelfParent demoL := by
  have h0 : ReachBy noSelfParent { new true id with configured := true } := .configuring (.init true id fun _ => .refl _)
  refine after_reachBy (after_reachBy h0 ?_) ?_
  · intro s op hm; simp only [demoOps, List.mem_cons, List.not_mem_nil, or_false] at hm
    rcases hm with rfl | rfl | rfl | rfl | rfl | rfl | rfl <;> trivial
  · intro s op hm; simp only [demoLoggerOps, List.mem_cons, List.not_mem_nil, or_false] at hm
    rcases hm with rfl | rfl | rfl <;> trivial

/-- the demo system after `setParentOfGroup("r", "r")` -/
def selfish : Sys := after [.setParentOfGroup ['r'] ['r']] demo

/-- **C38 is false**: `setParentOfGroup("r", "r")` returns true and makes `r` its own parent. -/
theorem C38_refuted : ∃ s, Reach s ∧ (step 20 s (.setParentOfGroup ['r'] ['r'])).val = some (.bool true) ∧
    let s' := after [.setParentOfGroup ['r'] ['r']] s
    ∃ x, s'.registered x ∧ Ancestor s'.parent x x :=
  ⟨demo, demo_reach, by decide +kernel, 0, ⟨['r'], by decide +kernel⟩, .parent (by decide +kernel)⟩

/-! ## C39 -/

/-- **C39**, part: in every reachable state in which no group is its own parent, every call ends: a recursion bound
larger than the number of groups is never exhausted.  Missing: the states with a group that is its own parent (refuted
below). -/
theorem C39_terminates_partial {s : Sys} (h : Reach s) (hs : ∀ x, s.parent x ≠ some x) (op : Op) {fuel : Nat}
    (hf : s.ngroups < fuel) : step fuel s op ≠ .diverge :=
  step_ends h.wf hs h.allEnd op hf

/-- **C39**, part: such states are all those of histories that do not make a group its own parent. -/
theorem C39_histories_partial {s : Sys} (h : ReachBy noSelfParent s) (op : Op) {fuel : Nat} (hf : s.ngroups < fuel) :
    step fuel s op ≠ .diverge :=
  C39_terminates_partial h.reach h.noSelf op hf

example : demoL.ngroups = 5 ∧ (step 6 demoL (.setLevelOfGroup ['r'] .trace)).val = some (.bool true) := by decide +kernel

theorem visit_selfish (h : Nat → Group) (stop : Group → Bool) (g : Nat) (st : Stages) {x : Nat} (hx : x ≠ g)
    (hp : (h x).parent = some x) (hs : stop (h x) = false) (fuel : Nat) : visit h stop g (fun _ => none) fuel x st = none := by
  induction fuel with
  | zero => rfl
  | succ fuel ih =>
    unfold visit
    simp only [if_neg hx, hs, hp, ih]
    rfl

/-- **C39 is false**: after `setParentOfGroup("r", "r")` a call on another group recurses for ever (in the program: until
the stack is exhausted), whatever the bound. -/
theorem C39_refuted : ∃ s, Reach s ∧ ∀ fuel, step fuel s (.setLevelOfGroup ['q'] .trace) = .diverge := by
  refine ⟨selfish, after_reach demo_reach, fun fuel => ?_⟩
  have hq : selfish.groups.find ['q'] = some 4 := by decide +kernel
  have hgs : selfish.groups.map (·.2) = 0 :: (selfish.groups.map (·.2)).tail := by decide +kernel
  have hb0 : baseLevel selfish.grp 4 (some .trace) 0 = selfish.grp 0 := baseLevel_other (by decide)
  have h1 : (selfish.grp 0).parent = some 0 := by decide +kernel
  have h2 : (selfish.grp 0).levelOv = false := by decide +kernel
  simp only [step, setLevelOfGroup, hq, setLevelOfGroupPtr_eq, propagate]
  rw [hgs]
  simp only [visitAll]
  rw [visit_selfish _ _ _ _ (by decide) (by rw [hb0]; exact h1) (by rw [hb0]; exact h2)]
  rfl

end System
end Soralog
