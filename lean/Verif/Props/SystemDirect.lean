import Verif.Props.SystemHalts
import Verif.Props.SystemDocs
/-!
# C86, C87, C88, C66: methods of `Group` objects, called past the system

`AnyReach s`: `s` is the state after some history of calls of the system and of methods of `Group` and `Logger` objects.
-/
namespace Soralog
namespace System

open Hierarchy

/-- the state after some actions -/
def afterActs (as : List Act) (s : Sys) : Sys := (runActs 20 as s).getD s

theorem afterActs_reach {as : List Act} {s : Sys} (h : AnyReach s) : AnyReach (afterActs as s) := by
  unfold afterActs
  cases hr : runActs 20 as s with
  | none => exact h
  | some s' => exact runActs_reach h hr

/-! ## C86 -/

/-- **C86**: a method of a group object changes this object only, and not its name: no other group, no logger, nothing else of the system. -/
theorem C86_only_this_group {s s' : Sys} (h : AnyReach s) {g : Nat} {m : GroupMethod} {fuel : Nat} {v : Val}
    (hc : act fuel s (.group g m) = .ret v s') :
    (∀ x, x ≠ g → s'.grp x = s.grp x) ∧ (s'.grp g).name = (s.grp g).name ∧ s' = { s with grp := s'.grp } := by
  by_cases hv : g < s.ngroups ∧ m.valid s
  · simp only [act, if_pos hv] at hc
    cases hc
    obtain ⟨h1, h2, _⟩ := onGroup_shape s h.wf g hv.1 m hv.2
    exact ⟨h1, h2, rfl⟩
  · simp only [act, if_neg hv] at hc
    cases hc
    exact ⟨fun _ _ => rfl, rfl, rfl⟩

/-- after `a.setLevel(trace)` the level of `a` is trace, that of its child `b` is not -/
example : let s' := afterActs [.group 1 (.setLevel .trace)] demoL
    AnyReach demoL ∧ (s'.grp 1).level = .trace ∧ (s'.grp 2).parent = some 1 ∧ (s'.grp 2).level = .info :=
  ⟨demoL_reach.any, by decide +kernel, by decide +kernel, by decide +kernel⟩

/-- **C86**: an overload with a name does what the overload with the pointer does to the object of that name, and nothing if there is
none: for groups, … -/
theorem C86_group_by_name (s : Sys) (g : Nat) (n : Text) (fuel : Nat) :
    (∀ p, s.groups.find n = some p → p < s.ngroups →
      act fuel s (.group g (.setLevelFromGroupNamed n)) = act fuel s (.group g (.setLevelFromGroup p)) ∧
      act fuel s (.group g (.setSinkFromGroupNamed n)) = act fuel s (.group g (.setSinkFromGroup p)) ∧
      act fuel s (.group g (.setParentGroupNamed n)) = act fuel s (.group g (.setParentGroup (some p)))) ∧
    (s.groups.find n = none →
      act fuel s (.group g (.setLevelFromGroupNamed n)) = .ret .unit s ∧
      act fuel s (.group g (.setSinkFromGroupNamed n)) = .ret .unit s ∧
      act fuel s (.group g (.setParentGroupNamed n)) = .ret .unit s) ∧
    (∀ k, s.sinks.find n = some k → k < s.nsinks →
      act fuel s (.group g (.setSinkNamed n)) = act fuel s (.group g (.setSink k))) ∧
    (s.sinks.find n = none → act fuel s (.group g (.setSinkNamed n)) = .ret .unit s) := by
  refine ⟨fun p hp hlt => ?_, fun hp => ?_, fun k hk hlt => ?_, fun hk => ?_⟩
  · simp [act, onGroup, getGroup, hp, GroupMethod.valid, hlt]
  · simp [act, onGroup, getGroup, hp, GroupMethod.valid]
  · simp [act, onGroup, getSink, hk, GroupMethod.valid, hlt]
  · simp [act, onGroup, getSink, hk, GroupMethod.valid]

/-- … and for loggers. -/
theorem C86_logger_by_name (s : Sys) (i : Nat) (n : Text) (fuel : Nat) :
    (∀ g, s.groups.find n = some g →
      act fuel s (.logger i (.setLevelFromGroup n)) = act fuel s (.call (.onHandle i (.setLevelFromGroup g))) ∧
      act fuel s (.logger i (.setSinkFromGroup n)) = act fuel s (.call (.onHandle i (.setSinkFromGroup g))) ∧
      act fuel s (.logger i (.setGroup n)) = act fuel s (.call (.onHandle i (.setGroup g)))) ∧
    (s.groups.find n = none →
      act fuel s (.logger i (.setLevelFromGroup n)) = .ret .unit s ∧
      act fuel s (.logger i (.setSinkFromGroup n)) = .ret .unit s ∧
      act fuel s (.logger i (.setGroup n)) = .ret .unit s) ∧
    (∀ k, s.sinks.find n = some k → act fuel s (.logger i (.setSink n)) = act fuel s (.call (.onHandle i (.setSink k)))) ∧
    (s.sinks.find n = none → act fuel s (.logger i (.setSink n)) = .ret .unit s) := by
  refine ⟨fun p hp => ?_, fun hp => ?_, fun k hk => ?_, fun hk => ?_⟩
  · simp [act, NamedMethod.resolve, getGroup, hp]
  · simp [act, NamedMethod.resolve, getGroup, hp]
  · simp [act, NamedMethod.resolve, getSink, hk]
  · simp [act, NamedMethod.resolve, getSink, hk]

example : demoL.groups.find ['q'] = some 4 ∧ demoL.groups.find ['?'] = none ∧ demoL.sinks.find ['t'] = some 2 ∧
    (let s' := afterActs [.logger 0 (.setGroup ['q']), .logger 0 (.setGroup ['?']), .group 1 (.setSinkNamed ['t'])] demoL
     (s'.lgr 0).group = 4 ∧ (s'.lgr 0).level = .trace ∧ (s'.grp 1).sink = some 2) := by decide +kernel

/-- **C86**: whatever methods are called on whatever objects, the system stays sound: `getGroup(n)` and `getSink(n)` give existing objects
of that name, `'*'` an existing group; every parent, group and sink an object refers to exists; and two live loggers never have one name. -/
theorem C86_sound {s : Sys} (h : AnyReach s) :
    (∀ n g, getGroup n s = some g → g < s.ngroups ∧ (n ≠ star → (s.grp g).name = n)) ∧
    (∀ n k, getSink n s = some k → k < s.nsinks ∧ s.sinkName k = n) ∧
    (∀ x, x < s.ngroups → (∀ p, (s.grp x).parent = some p → p < s.ngroups) ∧ (∀ k, (s.grp x).sink = some k → k < s.nsinks)) ∧
    (∀ i, i < s.nloggers → (s.lgr i).group < s.ngroups ∧ ∀ k, (s.lgr i).sink = some k → k < s.nsinks) ∧
    (∀ i j, s.alive i = true → s.alive j = true → (s.lgr i).name = (s.lgr j).name → i = j) := by
  have hw := h.wf
  refine ⟨fun n g hg => ⟨hw.gLt n g hg, fun hn => ?_⟩, fun n k hk => hw.kLt n k hk, fun x hx => ⟨fun p => hw.pLt x p hx, fun k => hw.gsLt x k hx⟩,
    fun i hi => ⟨hw.lgLt i hi, fun k => hw.lsLt i k hi⟩, fun i j hi hj e => C40_unique h hi hj e⟩
  rcases hw.gName n g hg with e | e
  · exact absurd e hn
  · exact e

example : AnyReach (afterActs [.group 0 (.setParentGroup (some 2)), .group 1 .unsetParentGroup, .group 2 (.setSinkFromGroup 4)] demoL) :=
  afterActs_reach demoL_reach.any

/-! ## C87 -/

/-- what the methods that set the level do to the group object `g`, as documented, if it has the parent `p` -/
structure DocumentedLevel (s : Sys) (g p : Nat) (fuel : Nat) : Prop where
  /-- "Set level to `level`. Level will be marked as overridden" -/
  set : ∀ l, ∃ s', act fuel s (.group g (.setLevel l)) = .ret .unit s' ∧ s'.grp g = { s.grp g with level := l, levelOv := true }
  /-- "Set level to level from group. Level will be marked as inherited" -/
  reset : ∃ s', act fuel s (.group g .resetLevel) = .ret .unit s' ∧ s'.grp g = { s.grp g with level := (s.grp p).level, levelOv := false }
  /-- "Set level to level from group `group`" -/
  from_ : ∀ q, q < s.ngroups → ∃ s', act fuel s (.group g (.setLevelFromGroup q)) = .ret .unit s' ∧
    s'.grp g = { s.grp g with level := (s.grp q).level, levelOv := decide (q ≠ p) }

/-- the same for the sink -/
structure DocumentedSink (s : Sys) (g p : Nat) (fuel : Nat) : Prop where
  set : ∀ k, k < s.nsinks → ∃ s', act fuel s (.group g (.setSink k)) = .ret .unit s' ∧ s'.grp g = { s.grp g with sink := some k, sinkOv := true }
  reset : ∃ s', act fuel s (.group g .resetSink) = .ret .unit s' ∧ s'.grp g = { s.grp g with sink := (s.grp p).sink, sinkOv := false }
  from_ : ∀ q, q < s.ngroups → ∃ s', act fuel s (.group g (.setSinkFromGroup q)) = .ret .unit s' ∧
    s'.grp g = { s.grp g with sink := (s.grp q).sink, sinkOv := decide (q ≠ p) }

/-- **C87**, part: of a group with a parent the setters do what the header says.  Missing: groups without parent, and
`unsetParentGroup`; see `C87_refuted`. -/
theorem C87_setters_partial (s : Sys) {g p : Nat} (hg : g < s.ngroups) (hp : (s.grp g).parent = some p) (fuel : Nat) :
    DocumentedLevel s g p fuel ∧ DocumentedSink s g p fuel := by
  refine ⟨⟨fun l => ⟨_, by simp only [act, hg, GroupMethod.valid, and_self, if_pos]; rfl, ?_⟩,
      ⟨_, by simp only [act, hg, GroupMethod.valid, and_self, if_pos]; rfl, ?_⟩,
      fun q hq => ⟨_, by simp only [act, hg, hq, GroupMethod.valid, and_self, if_pos]; rfl, ?_⟩⟩,
    ⟨fun k hk => ⟨_, by simp only [act, hg, hk, GroupMethod.valid, and_self, if_pos]; rfl, ?_⟩,
      ⟨_, by simp only [act, hg, GroupMethod.valid, and_self, if_pos]; rfl, ?_⟩,
      fun q hq => ⟨_, by simp only [act, hg, hq, GroupMethod.valid, and_self, if_pos]; rfl, ?_⟩⟩⟩
  · simp [onGroup, setLevel, upd_same, hp]
  · simp [onGroup, resetLevel, upd_same, hp]
  · simp [onGroup, setLevelFromGroup, upd_same, hp]
  · simp [onGroup, setSink, upd_same, hp]
  · simp [onGroup, resetSink, upd_same, hp]
  · simp [onGroup, setSinkFromGroup, upd_same, hp]

example : 1 < demoL.ngroups ∧ (demoL.grp 1).parent = some 0 := by decide +kernel

/-- **C87**, part: `setParentGroup(p)`: the parent is `p`, properties that are not overridden are inherited from it, the others stay. -/
theorem C87_setParentGroup_partial (s : Sys) {g p : Nat} (hg : g < s.ngroups) (hp : p < s.ngroups) (fuel : Nat) :
    ∃ s', act fuel s (.group g (.setParentGroup (some p))) = .ret .unit s' ∧
      s'.grp g = { s.grp g with
        parent := some p
        level := if (s.grp g).levelOv then (s.grp g).level else (s.grp p).level
        sink := if (s.grp g).sinkOv then (s.grp g).sink else (s.grp p).sink } := by
  refine ⟨_, by simp only [act, hg, hp, GroupMethod.valid, and_self, if_pos]; rfl, ?_⟩
  show onGroup s g (.setParentGroup (some p)) g = _
  unfold onGroup setParentGroup setSinkFromGroup setLevelFromGroup
  by_cases e : p = g
  · subst e
    cases h1 : (s.grp p).sinkOv <;> cases h2 : (s.grp p).levelOv <;> simp [upd_same, h1, h2]
  · cases h1 : (s.grp g).sinkOv <;> cases h2 : (s.grp g).levelOv <;> simp [upd_same, upd_other _ _ e, h1, h2]

example : 4 < demoL.ngroups ∧ 2 < demoL.ngroups ∧ (let s' := afterActs [.group 4 (.setParentGroup (some 2))] demoL
    (s'.grp 4).parent = some 2 ∧ (s'.grp 4).level = .info ∧ (s'.grp 4).sink = some 1) := by decide +kernel

/-- **C87**, part: `unsetParentGroup` takes the parent away and leaves all values. -/
theorem C87_unsetParentGroup_partial (s : Sys) {g : Nat} (hg : g < s.ngroups) (fuel : Nat) :
    ∃ s', act fuel s (.group g .unsetParentGroup) = .ret .unit s' ∧ s'.grp g = { s.grp g with parent := none } := by
  refine ⟨_, by simp only [act, hg, GroupMethod.valid, and_self, if_pos]; rfl, ?_⟩
  simp [onGroup, unsetParentGroup, upd_same]

/-- **C87 is false**: `setLevel` and `setSink` of the root `r` do not mark the properties as overridden, and after `unsetParentGroup` of
`a` ("All properties will be marked as overridden") none is. -/
theorem C87_refuted : ∃ s, Reach s ∧ (s.grp 0).parent = none ∧
    (let s' := afterActs [.group 0 (.setLevel .error), .group 0 (.setSink 2)] s
     (s'.grp 0).level = .error ∧ (s'.grp 0).sink = some 2 ∧ (s'.grp 0).levelOv = false ∧ (s'.grp 0).sinkOv = false) ∧
    (s.grp 1).parent = some 0 ∧
    (let s' := afterActs [.group 1 .unsetParentGroup] s
     (s'.grp 1).parent = none ∧ (s'.grp 1).levelOv = false ∧ (s'.grp 1).sinkOv = false) :=
  ⟨demoL, demoL_reach, by decide +kernel, by decide +kernel, by decide +kernel, by decide +kernel⟩

/-! ## C88 -/

/-- **C88**, part: after any history in which no action closes a cycle of parents, every call of the system ends and the hierarchy has
no cycle.  Missing: histories in which a method of a group object closes one; see `C88_refuted`.  (Which calls end then: `C39_ends_iff_partial`.) -/
theorem C88_calls_end_partial {s : Sys} (h : AnyReachBy noCycleMade s) (op : Op) {fuel : Nat} (hf : s.ngroups < fuel) :
    step fuel s op ≠ .diverge ∧ ∀ x, x < s.ngroups → ¬ Ancestor s.parent x x :=
  have ht := h.tree
  ⟨step_ends h.wf ht.2 ht.1 op hf, fun x hx ha => by
    obtain ⟨n, hE⟩ := ht.1 x hx
    exact ht.2 x (ends_cycle hE ha)⟩

/-- `q.setParentGroup(b)` and `b.setLevel(debug)` close no cycle -/
example : AnyReachBy noCycleMade (afterActs [.group 4 (.setParentGroup (some 2)), .group 2 (.setLevel .debug)] demoL) := by
  have hd : AnyReachBy noCycleMade demoL := by
    have key : ∀ (ops : List Op) (s : Sys), (∀ op ∈ ops, ∀ s, noSelfParent s op) → AnyReachBy noCycleMade s → AnyReachBy noCycleMade (after ops s) := by
      intro ops s ho hs
      unfold after
      cases hr : runOps 20 ops s with
      | none => exact hs
      | some s' =>
        show AnyReachBy noCycleMade s'
        induction ops generalizing s with
        | nil => cases hr; exact hs
        | cons op ops ih =>
          unfold runOps at hr
          have h1 : noCycleMade s (.call op) := ho op (by simp) s
          cases hc : step 20 s op with
          | ret v s1 => rw [hc] at hr; exact ih s1 (fun o hm => ho o (by simp [hm])) (.act (a := .call op) hs h1 hc) hr
          | throw s1 => rw [hc] at hr; exact ih s1 (fun o hm => ho o (by simp [hm])) (.failed (a := .call op) hs h1 hc) hr
          | ub => rw [hc] at hr; cases hr
          | diverge => rw [hc] at hr; cases hr
    refine key _ _ ?_ (key _ _ ?_ (.configuring (.init true id fun _ => .refl _)))
    · intro op hm s; simp only [demoLoggerOps, List.mem_cons, List.not_mem_nil, or_false] at hm
      rcases hm with rfl | rfl | rfl <;> trivial
    · intro op hm s; simp only [demoOps, List.mem_cons, List.not_mem_nil, or_false] at hm
      rcases hm with rfl | rfl | rfl | rfl | rfl | rfl | rfl <;> trivial
  have hp2 : demoL.parent 2 = some 1 := by decide +kernel
  have hp1 : demoL.parent 1 = some 0 := by decide +kernel
  have hp0 : demoL.parent 0 = none := by decide +kernel
  have hn : ¬ Ancestor demoL.parent 4 2 := by
    intro h
    cases h with
    | parent hp => rw [hp2] at hp; cases hp
    | above hp h =>
      rw [hp2] at hp; cases hp
      cases h with
      | parent hp => rw [hp1] at hp; cases hp
      | above hp h =>
        rw [hp1] at hp; cases hp
        cases h with
        | parent hp => rw [hp0] at hp; cases hp
        | above hp h => rw [hp0] at hp; cases hp
  exact .act (a := .group 2 (.setLevel .debug)) (fuel := 20) (v := .unit)
    (.act (a := .group 4 (.setParentGroup (some 2))) (fuel := 20) (v := .unit) hd ⟨by decide, hn⟩ rfl) trivial rfl

/-- the demo system after `r.setParentGroup(a)`: `a` is a child of `r` -/
def knotted : Sys := afterActs [.group 0 (.setParentGroup (some 1))] demoL

/-- **C88 is false**: after `r.setParentGroup(a)`, `a` being a child of `r`, the call `setLevelOfGroup("q", trace)` for another group
recurses for ever. -/
theorem C88_refuted : ∃ s, AnyReach s ∧ s.groups.find ['q'] = some 4 ∧ ∀ fuel, step fuel s (.setLevelOfGroup ['q'] .trace) = .diverge := by
  have hr : AnyReach knotted := afterActs_reach demoL_reach.any
  refine ⟨knotted, hr, by decide +kernel, ?_⟩
  have hp0 : knotted.parent 0 = some 1 := by decide +kernel
  have hp1 : knotted.parent 1 = some 0 := by decide +kernel
  have hf0 : knotted.levelFixed 0 = false := by decide +kernel
  have hf1 : knotted.levelFixed 1 = false := by decide +kernel
  have hn : ∀ x, Halts knotted.parent knotted.levelFixed 4 x → x ≠ 0 ∧ x ≠ 1 := by
    intro x hx
    induction hx with
    | here => decide
    | @stopped x hs =>
      constructor <;> rintro rfl
      · rw [hf0] at hs; cases hs
      · rw [hf1] at hs; cases hs
    | @root x hp =>
      constructor <;> rintro rfl
      · rw [hp0] at hp; cases hp
      · rw [hp1] at hp; cases hp
    | @up x p hp _ ih =>
      constructor <;> rintro rfl
      · rw [hp0] at hp; cases hp; exact ih.2 rfl
      · rw [hp1] at hp; cases hp; exact ih.1 rfl
  intro fuel
  cases hc : step fuel knotted (.setLevelOfGroup ['q'] .trace) with
  | diverge => rfl
  | _ =>
    have hw := (C39_ends_iff_partial hr (.setLevelOfGroup ['q'] .trace)).1 ⟨fuel, by rw [hc]; intro h; cases h⟩
    exact absurd rfl (hn 0 (hw 4 (by decide +kernel) 0 ⟨['r'], by decide +kernel⟩)).1

/-! ## C66, exactly -/

/-- the same effect on the groups the system knows and on the live loggers -/
def SameEffect (s a b : Sys) : Prop := (∀ x, s.registered x → a.grp x = b.grp x) ∧ ∀ i, s.alive i = true → a.lgr i = b.lgr i

/-- the groups and live loggers that inherit the level from `g` have the level `l` already -/
def LevelSettled (s : Sys) (g : Nat) (l : Level) : Prop :=
  (∀ x, x ≠ g → s.registered x → InheritsFrom s.parent s.levelFixed g x → (s.grp x).level = l) ∧
  (∀ i, s.alive i = true → s.registered (s.lgr i).group → (s.lgr i).levelOv = false →
    InheritsFrom s.parent s.levelFixed g (s.lgr i).group → (s.lgr i).level = l)

/-- the groups and live loggers that inherit the sink from `g` have the sink `k` already (loggers keep theirs if `k` is null) -/
def SinkSettled (s : Sys) (g : Nat) (k : Option Nat) : Prop :=
  (∀ x, x ≠ g → s.registered x → InheritsFrom s.parent s.sinkFixed g x → (s.grp x).sink = k) ∧
  (∀ i, s.alive i = true → s.registered (s.lgr i).group → (s.lgr i).sinkOv = false →
    InheritsFrom s.parent s.sinkFixed g (s.lgr i).group → k ≠ none → (s.lgr i).sink = k)

theorem level_same_iff {s s' d : Sys} {g : Nat} {l : Level} {mark : Bool} (hc : ChangesLevel g l mark s s')
    (hd : d.grp = upd s.grp g { s.grp g with level := l, levelOv := mark }) (hl : d.lgr = s.lgr) :
    SameEffect s s' d ↔ LevelSettled s g l := by
  constructor
  · rintro ⟨h1, h2⟩
    refine ⟨fun x hx hr hi => ?_, fun i ha hr hov hi => ?_⟩
    · have := h1 x hr
      rw [hc.inheritors x hx hr hi, hd, upd_other _ _ hx] at this
      exact (congrArg Group.level this).symm
    · have := h2 i ha
      rw [hc.loggers i ha hr hov hi, hl] at this
      exact (congrArg Logger.level this).symm
  · rintro ⟨h1, h2⟩
    refine ⟨fun x hr => ?_, fun i ha => ?_⟩
    · rw [hd]
      by_cases hx : x = g
      · subst hx; rw [upd_same]; exact hc.group
      · rw [upd_other _ _ hx]
        by_cases hi : InheritsFrom s.parent s.levelFixed g x
        · rw [hc.inheritors x hx hr hi]
          have := h1 x hx hr hi
          rw [← this]
        · exact hc.others x hx hi
    · rw [hl]
      by_cases hq : s.registered (s.lgr i).group ∧ (s.lgr i).levelOv = false ∧ InheritsFrom s.parent s.levelFixed g (s.lgr i).group
      · rw [hc.loggers i ha hq.1 hq.2.1 hq.2.2]
        have := h2 i ha hq.1 hq.2.1 hq.2.2
        rw [← this]
      · apply hc.otherLoggers
        by_cases a : (s.lgr i).levelOv = true
        · exact .inl a
        · by_cases b : InheritsFrom s.parent s.levelFixed g (s.lgr i).group
          · exact .inr (.inr fun c => hq ⟨c, by simpa using a, b⟩)
          · exact .inr (.inl b)

theorem sink_same_iff {s s' d : Sys} {g : Nat} {k : Option Nat} {mark : Bool} (hc : ChangesSink g k mark s s')
    (hd : d.grp = upd s.grp g { s.grp g with sink := k, sinkOv := mark }) (hl : d.lgr = s.lgr) :
    SameEffect s s' d ↔ SinkSettled s g k := by
  constructor
  · rintro ⟨h1, h2⟩
    refine ⟨fun x hx hr hi => ?_, fun i ha hr hov hi hk => ?_⟩
    · have := h1 x hr
      rw [hc.inheritors x hx hr hi, hd, upd_other _ _ hx] at this
      exact (congrArg Group.sink this).symm
    · have := h2 i ha
      rw [hc.loggers i ha hr hov hi, hl] at this
      have := congrArg Logger.sink this
      cases k with
      | none => exact absurd rfl hk
      | some k => exact this.symm
  · rintro ⟨h1, h2⟩
    refine ⟨fun x hr => ?_, fun i ha => ?_⟩
    · rw [hd]
      by_cases hx : x = g
      · subst hx; rw [upd_same]; exact hc.group
      · rw [upd_other _ _ hx]
        by_cases hi : InheritsFrom s.parent s.sinkFixed g x
        · rw [hc.inheritors x hx hr hi]
          have := h1 x hx hr hi
          rw [← this]
        · exact hc.others x hx hi
    · rw [hl]
      by_cases hq : s.registered (s.lgr i).group ∧ (s.lgr i).sinkOv = false ∧ InheritsFrom s.parent s.sinkFixed g (s.lgr i).group
      · rw [hc.loggers i ha hq.1 hq.2.1 hq.2.2]
        cases k with
        | none => rfl
        | some k =>
          have := h2 i ha hq.1 hq.2.1 hq.2.2 (by simp)
          simp only [Option.isSome_some, if_true]
          rw [← this]
      · apply hc.otherLoggers
        by_cases a : (s.lgr i).sinkOv = true
        · exact .inl a
        · by_cases b : InheritsFrom s.parent s.sinkFixed g (s.lgr i).group
          · exact .inr (.inr fun c => hq ⟨c, by simpa using a, b⟩)
          · exact .inr (.inl b)

theorem group_ret {s d : Sys} {g : Nat} {m : GroupMethod} {fuel : Nat} {w : Val} (hg : g < s.ngroups) (hm : m.valid s)
    (hd : act fuel s (.group g m) = .ret w d) : d.grp = onGroup s g m ∧ d.lgr = s.lgr := by
  simp only [act, hg, hm, and_self, if_pos] at hd
  cases hd
  exact ⟨rfl, rfl⟩

/-- **C66**, exactly, for levels: the method `setLevel` (`resetLevel`) of the group object has the same effect as `setLevelOfGroup`
(`resetLevelOfGroup`) if and only if everything that inherits from the group has the new level already.  Missing from the full claim: they
differ otherwise; see `C66_refuted`. -/
theorem C66_level_iff_partial {s s' d : Sys} (h : AnyReach s) {n : Text} {g : Nat} (hg : s.groups.find n = some g) {fuel fuel' : Nat}
    {v w : Val} :
    (∀ l, step fuel s (.setLevelOfGroup n l) = .ret v s' → act fuel' s (.group g (.setLevel l)) = .ret w d →
      (SameEffect s s' d ↔ LevelSettled s g l)) ∧
    (step fuel s (.resetLevelOfGroup n) = .ret v s' → act fuel' s (.group g .resetLevel) = .ret w d →
      (SameEffect s s' d ↔ LevelSettled s g (match s.parent g with | some p => (s.grp p).level | none => (s.grp g).level))) := by
  have hlt := h.wf.gLt n g hg
  refine ⟨fun l hc hd => ?_, fun hc hd => ?_⟩
  · obtain ⟨h1, h2⟩ := group_ret (m := .setLevel l) hlt trivial hd
    refine level_same_iff (C35_setLevelOfGroup h hg hc).2 (h1.trans ?_) h2
    simp only [onGroup, setLevel]
    cases (s.grp g).parent <;> simp
  · obtain ⟨h1, h2⟩ := group_ret (m := .resetLevel) hlt trivial hd
    unfold Sys.parent
    cases hp : (s.grp g).parent with
    | some p =>
      refine level_same_iff (C35_resetLevelOfGroup h hg hp hc).2 (h1.trans ?_) h2
      simp only [onGroup, resetLevel, hp]
    | none =>
      refine level_same_iff (C35_resetLevelOfGroup_root h hg hp hc).2 (h1.trans ?_) h2
      simp only [onGroup, resetLevel, hp]
      funext x
      by_cases hx : x = g
      · subst hx; rw [upd_same, ← hp]
      · rw [upd_other _ _ hx]

/-- **C66**, exactly, for sinks. -/
theorem C66_sink_iff_partial {s s' d : Sys} (h : AnyReach s) {n : Text} {g : Nat} (hg : s.groups.find n = some g) {fuel fuel' : Nat}
    {v w : Val} :
    (∀ kn k, s.sinks.find kn = some k → step fuel s (.setSinkOfGroup n kn) = .ret v s' → act fuel' s (.group g (.setSink k)) = .ret w d →
      (SameEffect s s' d ↔ SinkSettled s g (some k))) ∧
    (step fuel s (.resetSinkOfGroup n) = .ret v s' → act fuel' s (.group g .resetSink) = .ret w d →
      (SameEffect s s' d ↔ SinkSettled s g (match s.parent g with | some p => (s.grp p).sink | none => (s.grp g).sink))) := by
  have hlt := h.wf.gLt n g hg
  refine ⟨fun kn k hk hc hd => ?_, fun hc hd => ?_⟩
  · obtain ⟨h1, h2⟩ := group_ret (m := .setSink k) hlt (h.wf.kLt kn k hk).1 hd
    refine sink_same_iff (C35_setSinkOfGroup h hg hk hc).2 (h1.trans ?_) h2
    simp only [onGroup, setSink]
    cases (s.grp g).parent <;> simp
  · obtain ⟨h1, h2⟩ := group_ret (m := .resetSink) hlt trivial hd
    unfold Sys.parent
    cases hp : (s.grp g).parent with
    | some p =>
      refine sink_same_iff (C35_resetSinkOfGroup h hg hp hc).2 (h1.trans ?_) h2
      simp only [onGroup, resetSink, hp]
    | none =>
      refine sink_same_iff (C35_resetSinkOfGroup_root h hg hp hc).2 (h1.trans ?_) h2
      simp only [onGroup, resetSink, hp]
      funext x
      by_cases hx : x = g
      · subst hx; rw [upd_same, ← hp]
      · rw [upd_other _ _ hx]

/-- Nothing inherits from `q` but the logger `z`: its level is trace, so `setLevel(trace)` has the same effect and `setLevel(info)` has not. -/
example : demoL.groups.find ['q'] = some 4 ∧ demoL.alive 2 = true ∧ (demoL.lgr 2).group = 4 ∧ (demoL.lgr 2).levelOv = false ∧
    (demoL.lgr 2).level = .trace ∧ (let s' := after [.setLevelOfGroup ['q'] .info] demoL; (s'.lgr 2).level = .info) ∧
    (let d := afterActs [.group 4 (.setLevel .info)] demoL; (d.lgr 2).level = .trace) := by decide +kernel

end System
end Soralog
