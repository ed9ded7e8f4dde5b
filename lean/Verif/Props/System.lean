import Verif.Proofs.SystemOrder
/-!
# C32–C37: inheritance in the logging system

`Reach s`: `s` is the state after some history of calls (any calls, in any order, by anyone; the outcome of each may be
a return or an exception).  `AnyReach s`: methods of `Group` and `Logger` objects, called past the system, are among them.  `s.registered x`: the system knows the group object `x` by some name.
-/
namespace Soralog
namespace System

open Hierarchy

/-! ## a concrete system -/

/-- `r` (info, sink `s`) ← `a` ← `b`; `c` (child of `a`) has its own level; `q` is another root -/
def demoOps : List Op :=
  [.makeSink ['s'], .makeSink ['t'], .makeGroup ['r'] none (some ['s']) (some .info),
   .makeGroup ['a'] (some ['r']) none none, .makeGroup ['b'] (some ['a']) none none,
   .makeGroup ['c'] (some ['a']) none (some .debug), .makeGroup ['q'] none (some ['t']) (some .trace)]

def after (ops : List Op) (s : Sys) : Sys := (runOps 20 ops s).getD s

theorem after_reach {ops : List Op} {s : Sys} (h : Reach s) : Reach (after ops s) := by
  unfold after
  cases hr : runOps 20 ops s with
  | none => exact h
  | some s' => exact runOps_reach h hr

def demo : Sys := after demoOps { new true id with configured := true }

def demoLoggerOps : List Op :=
  [.getLogger ['x'] ['b'] none none, .getLogger ['y'] ['b'] (some ['t']) (some .error), .getLogger ['z'] ['q'] none none]

/-- and three loggers -/
def demoL : Sys := after demoLoggerOps demo

theorem demo_reach : Reach demo := after_reach (.configuring (.init true id fun _ => .refl _))

theorem demoL_reach : Reach demoL := after_reach demo_reach

/-- what a call returns -/
def Res.val {α : Type} : Res α → Option α
  | .ret v _ => some v
  | _ => none

/-! ## C32, C33, C34 -/

/-- **C32.**  In every reachable state a registered group with a parent has its parent's level, unless its level is
overridden. -/
theorem C32_group_levels_up_to_date {s : Sys} (h : Reach s) {x p : Nat} (hx : s.registered x)
    (hp : (s.grp x).parent = some p) (hov : (s.grp x).levelOv = false) : (s.grp x).level = (s.grp p).level :=
  h.fresh.lvl x p hx hp hov

/-- `b` (group 2) after `setLevelOfGroup("r", trace)` -/
example : let s' := after [.setLevelOfGroup ['r'] .trace] demo
    s'.groups.find ['b'] = some 2 ∧ (s'.grp 2).parent = some 1 ∧ (s'.grp 2).levelOv = false ∧
    (s'.grp 2).level = .trace := by decide +kernel

/-- **C33.**  The same for sinks. -/
theorem C33_group_sinks_up_to_date {s : Sys} (h : Reach s) {x p : Nat} (hx : s.registered x)
    (hp : (s.grp x).parent = some p) (hov : (s.grp x).sinkOv = false) : (s.grp x).sink = (s.grp p).sink :=
  h.fresh.snk x p hx hp hov

example : let s' := after [.setSinkOfGroup ['r'] ['t']] demo
    s'.groups.find ['b'] = some 2 ∧ (s'.grp 2).parent = some 1 ∧ (s'.grp 2).sinkOv = false ∧
    (s'.grp 2).sink = some 2 := by decide +kernel

/-- **C34.**  In every reachable state a live logger of a registered group has its group's level unless its level is
overridden, and its group's sink (if the group has one) unless its sink is overridden. -/
theorem C34_logger_properties_up_to_date {s : Sys} (h : Reach s) {i : Nat} (hi : s.alive i = true)
    (hg : s.registered (s.lgr i).group) :
    ((s.lgr i).levelOv = false → (s.lgr i).level = (s.grp (s.lgr i).group).level) ∧
    (∀ k, (s.lgr i).sinkOv = false → (s.grp (s.lgr i).group).sink = some k → (s.lgr i).sink = some k) :=
  ⟨h.fresh.llvl i hi hg, fun k => h.fresh.lsnk i k hi hg⟩

/-- logger `x` (number 0) of group `b` after the level of `r` and the parent of `a` were changed -/
example : let s' := after [.setLevelOfGroup ['r'] .trace, .setParentOfGroup ['a'] ['q']] demoL
    s'.alive 0 = true ∧ (s'.lgr 0).group = 2 ∧ s'.groups.find ['b'] = some 2 ∧ (s'.lgr 0).levelOv = false ∧
    (s'.lgr 0).sinkOv = false ∧ (s'.lgr 0).level = .trace ∧ (s'.lgr 0).sink = some 2 ∧ (s'.lgr 1).level = .error := by
  decide +kernel

/-! ## C35 -/

/-- Nothing but groups and loggers changed; the table of loggers only lost entries of dead ones. -/
def RestSame (s s' : Sys) : Prop :=
  s' = { s with grp := s'.grp, lgr := s'.lgr, loggers := s'.loggers } ∧
  ∀ n, s'.loggers.find n = (s.loggers.find n).filter fun i => s.alive i

theorem restSame_of {s s' : Sys} (hw : WF s)
    (h : s' = { s with grp := s'.grp, lgr := s'.lgr, loggers := s.loggers.filter fun e => s.alive e.2 }) : RestSame s s' := by
  have hl : s'.loggers = s.loggers.filter fun e => s.alive e.2 := by rw [h]
  refine ⟨by rw [hl]; exact h, fun n => ?_⟩
  rw [hl, Table.find_filter hw.lU]
  cases s.loggers.find n <;> rfl

/-- What a call that gives group `g` a new level does: `new` is the level, `mark` the override mark of `g`. -/
structure ChangesLevel (g : Nat) (new : Level) (mark : Bool) (s s' : Sys) : Prop where
  group : s'.grp g = { s.grp g with level := new, levelOv := mark }
  inheritors : ∀ x, x ≠ g → s.registered x → InheritsFrom s.parent s.levelFixed g x →
    s'.grp x = { s.grp x with level := new }
  others : ∀ x, x ≠ g → ¬ InheritsFrom s.parent s.levelFixed g x → s'.grp x = s.grp x
  /-- a group object that was replaced by another one of the same name may or may not follow -/
  replaced : ∀ x, x ≠ g → s'.grp x = s.grp x ∨ s'.grp x = { s.grp x with level := new }
  loggers : ∀ i, s.alive i = true → s.registered (s.lgr i).group → (s.lgr i).levelOv = false →
    InheritsFrom s.parent s.levelFixed g (s.lgr i).group → s'.lgr i = { s.lgr i with level := new }
  otherLoggers : ∀ i, (s.lgr i).levelOv = true ∨ ¬ InheritsFrom s.parent s.levelFixed g (s.lgr i).group ∨
    ¬ s.registered (s.lgr i).group → s'.lgr i = s.lgr i
  rest : RestSame s s'

theorem changesLevel_of {g : Nat} {l : Option Level} {s s' : Sys} (hw : WF s) (h : LevelSet g l s s') :
    ChangesLevel g (newLevel s.grp g l) (newMark (s.grp g).levelOv (s.grp g).parent l.isSome) s s' where
  group := h.self
  inheritors := h.registered
  others := fun x hx hn => by
    rcases h.other x hx with h1 | ⟨h1, _⟩
    · exact h1
    · exact absurd h1 hn
  replaced := fun x hx => by
    rcases h.other x hx with h1 | ⟨_, h1⟩
    · exact .inl h1
    · exact .inr h1
  loggers := fun i ha hr hov hi => h.logger i ha (hw.live_mem ha) hr hov hi
  otherLoggers := fun i hc => h.logger_kept i (by
    rintro ⟨_, _, h3, h4, h5⟩
    rcases hc with hc | hc | hc
    · rw [h4] at hc; cases hc
    · exact hc h5
    · exact hc h3)
  rest := restSame_of hw h.rest

theorem level_call {g : Nat} {l : Option Level} {s s' : Sys} {v : Val} {fuel : Nat}
    (hc : (ofOption (setLevelOfGroupPtr fuel g l s)).map Val.bool = .ret v s') :
    v = .bool true ∧ setLevelOfGroupPtr fuel g l s = some s' := by
  obtain ⟨b, hb, rfl⟩ := map_ret hc
  obtain ⟨rfl, h⟩ := ofOption_ret hb
  exact ⟨rfl, h⟩

/-- **C35**, `setLevelOfGroup(n, l)`: the group and exactly those that inherit from it get level `l`; the mark of the
group is set if it has a parent; nothing else changes. -/
theorem C35_setLevelOfGroup {s s' : Sys} (h : AnyReach s) {n : Text} {g : Nat} (hg : s.groups.find n = some g) {l : Level}
    {fuel : Nat} {v : Val} (hc : step fuel s (.setLevelOfGroup n l) = .ret v s') :
    v = .bool true ∧ ChangesLevel g l ((s.grp g).parent.isSome || (s.grp g).levelOv) s s' := by
  simp only [step, setLevelOfGroup, hg] at hc
  obtain ⟨hv, hc⟩ := level_call hc
  have hl := changesLevel_of h.wf (setLevelOfGroupPtr_spec h.wf.gU h.wf.ord hc)
  refine ⟨hv, ?_⟩
  have : newMark (s.grp g).levelOv (s.grp g).parent (some l).isSome = ((s.grp g).parent.isSome || (s.grp g).levelOv) := by
    unfold newMark; cases (s.grp g).parent <;> simp
  rw [this] at hl
  exact hl

/-- **C35**, `resetLevelOfGroup(n)`: a group with parent gets its parent's level and is no longer marked; with it
exactly those that inherit from it. -/
theorem C35_resetLevelOfGroup {s s' : Sys} (h : AnyReach s) {n : Text} {g p : Nat} (hg : s.groups.find n = some g)
    (hp : (s.grp g).parent = some p) {fuel : Nat} {v : Val} (hc : step fuel s (.resetLevelOfGroup n) = .ret v s') :
    v = .bool true ∧ ChangesLevel g (s.grp p).level false s s' := by
  simp only [step, resetLevelOfGroup, hg] at hc
  obtain ⟨hv, hc⟩ := level_call hc
  have hl := changesLevel_of h.wf (setLevelOfGroupPtr_spec h.wf.gU h.wf.ord hc)
  refine ⟨hv, ?_⟩
  have h1 : newMark (s.grp g).levelOv (s.grp g).parent (none : Option Level).isSome = false := by
    unfold newMark; simp [hp]
  have h2 : newLevel s.grp g none = (s.grp p).level := by unfold newLevel; simp [hp]
  rw [h1, h2] at hl
  exact hl

/-- **C35**: `resetLevelOfGroup(n)` of a group without parent keeps its level and mark. -/
theorem C35_resetLevelOfGroup_root {s s' : Sys} (h : AnyReach s) {n : Text} {g : Nat} (hg : s.groups.find n = some g)
    (hp : (s.grp g).parent = none) {fuel : Nat} {v : Val} (hc : step fuel s (.resetLevelOfGroup n) = .ret v s') :
    v = .bool true ∧ ChangesLevel g (s.grp g).level (s.grp g).levelOv s s' := by
  simp only [step, resetLevelOfGroup, hg] at hc
  obtain ⟨hv, hc⟩ := level_call hc
  have hl := changesLevel_of h.wf (setLevelOfGroupPtr_spec h.wf.gU h.wf.ord hc)
  refine ⟨hv, ?_⟩
  have h1 : newMark (s.grp g).levelOv (s.grp g).parent (none : Option Level).isSome = (s.grp g).levelOv := by
    unfold newMark; simp [hp]
  have h2 : newLevel s.grp g none = (s.grp g).level := by unfold newLevel; simp [hp]
  rw [h1, h2] at hl
  exact hl

/-- the same for sinks -/
structure ChangesSink (g : Nat) (new : Option Nat) (mark : Bool) (s s' : Sys) : Prop where
  group : s'.grp g = { s.grp g with sink := new, sinkOv := mark }
  inheritors : ∀ x, x ≠ g → s.registered x → InheritsFrom s.parent s.sinkFixed g x → s'.grp x = { s.grp x with sink := new }
  others : ∀ x, x ≠ g → ¬ InheritsFrom s.parent s.sinkFixed g x → s'.grp x = s.grp x
  replaced : ∀ x, x ≠ g → s'.grp x = s.grp x ∨ s'.grp x = { s.grp x with sink := new }
  loggers : ∀ i, s.alive i = true → s.registered (s.lgr i).group → (s.lgr i).sinkOv = false →
    InheritsFrom s.parent s.sinkFixed g (s.lgr i).group →
    s'.lgr i = { s.lgr i with sink := if new.isSome then new else (s.lgr i).sink }
  otherLoggers : ∀ i, (s.lgr i).sinkOv = true ∨ ¬ InheritsFrom s.parent s.sinkFixed g (s.lgr i).group ∨
    ¬ s.registered (s.lgr i).group → s'.lgr i = s.lgr i
  rest : RestSame s s'

theorem changesSink_of {g : Nat} {l : Option Nat} {s s' : Sys} (hw : WF s) (h : SinkSet g l s s') :
    ChangesSink g (newSink s.grp g l) (newMark (s.grp g).sinkOv (s.grp g).parent l.isSome) s s' where
  group := h.self
  inheritors := h.registered
  others := fun x hx hn => by
    rcases h.other x hx with h1 | ⟨h1, _⟩
    · exact h1
    · exact absurd h1 hn
  replaced := fun x hx => by
    rcases h.other x hx with h1 | ⟨_, h1⟩
    · exact .inl h1
    · exact .inr h1
  loggers := fun i ha hr hov hi => h.logger i ha (hw.live_mem ha) hr hov hi
  otherLoggers := fun i hc => h.logger_kept i (by
    rintro ⟨_, _, h3, h4, h5⟩
    rcases hc with hc | hc | hc
    · rw [h4] at hc; cases hc
    · exact hc h5
    · exact hc h3)
  rest := restSame_of hw h.rest

theorem sink_call {g : Nat} {l : Option Nat} {s s' : Sys} {v : Val} {fuel : Nat}
    (hc : (ofOption (setSinkOfGroupPtr fuel g l s)).map Val.bool = .ret v s') :
    v = .bool true ∧ setSinkOfGroupPtr fuel g l s = some s' := by
  obtain ⟨b, hb, rfl⟩ := map_ret hc
  obtain ⟨rfl, h⟩ := ofOption_ret hb
  exact ⟨rfl, h⟩

/-- **C35**, `setSinkOfGroup(n, kn)` -/
theorem C35_setSinkOfGroup {s s' : Sys} (h : AnyReach s) {n kn : Text} {g k : Nat} (hg : s.groups.find n = some g)
    (hk : s.sinks.find kn = some k) {fuel : Nat} {v : Val} (hc : step fuel s (.setSinkOfGroup n kn) = .ret v s') :
    v = .bool true ∧ ChangesSink g (some k) ((s.grp g).parent.isSome || (s.grp g).sinkOv) s s' := by
  simp only [step, setSinkOfGroup, getSink, hk, hg] at hc
  obtain ⟨hv, hc⟩ := sink_call hc
  have hl := changesSink_of h.wf (setSinkOfGroupPtr_spec h.wf.gU h.wf.ord hc)
  refine ⟨hv, ?_⟩
  have : newMark (s.grp g).sinkOv (s.grp g).parent (some k).isSome = ((s.grp g).parent.isSome || (s.grp g).sinkOv) := by
    unfold newMark; cases (s.grp g).parent <;> simp
  rw [this] at hl
  exact hl

/-- **C35**, `resetSinkOfGroup(n)` of a group with a parent -/
theorem C35_resetSinkOfGroup {s s' : Sys} (h : AnyReach s) {n : Text} {g p : Nat} (hg : s.groups.find n = some g)
    (hp : (s.grp g).parent = some p) {fuel : Nat} {v : Val} (hc : step fuel s (.resetSinkOfGroup n) = .ret v s') :
    v = .bool true ∧ ChangesSink g (s.grp p).sink false s s' := by
  simp only [step, resetSinkOfGroup, hg] at hc
  obtain ⟨hv, hc⟩ := sink_call hc
  have hl := changesSink_of h.wf (setSinkOfGroupPtr_spec h.wf.gU h.wf.ord hc)
  refine ⟨hv, ?_⟩
  have h1 : newMark (s.grp g).sinkOv (s.grp g).parent (none : Option Nat).isSome = false := by
    unfold newMark; simp [hp]
  have h2 : newSink s.grp g none = (s.grp p).sink := by unfold newSink; simp [hp]
  rw [h1, h2] at hl
  exact hl

/-- **C35**, `resetSinkOfGroup(n)` of a group without parent -/
theorem C35_resetSinkOfGroup_root {s s' : Sys} (h : AnyReach s) {n : Text} {g : Nat} (hg : s.groups.find n = some g)
    (hp : (s.grp g).parent = none) {fuel : Nat} {v : Val} (hc : step fuel s (.resetSinkOfGroup n) = .ret v s') :
    v = .bool true ∧ ChangesSink g (s.grp g).sink (s.grp g).sinkOv s s' := by
  simp only [step, resetSinkOfGroup, hg] at hc
  obtain ⟨hv, hc⟩ := sink_call hc
  have hl := changesSink_of h.wf (setSinkOfGroupPtr_spec h.wf.gU h.wf.ord hc)
  refine ⟨hv, ?_⟩
  have h1 : newMark (s.grp g).sinkOv (s.grp g).parent (none : Option Nat).isSome = (s.grp g).sinkOv := by
    unfold newMark; simp [hp]
  have h2 : newSink s.grp g none = (s.grp g).sink := by unfold newSink; simp [hp]
  rw [h1, h2] at hl
  exact hl

/-- `setLevelOfGroup("r", trace)`: `b` (2) and logger `x` (0) inherit through `a`; `c` (3), `q` (4), loggers `y`, `z` do not -/
example : InheritsFrom demoL.parent demoL.levelFixed 0 2 :=
  .child (p := 1) (by decide +kernel) (by decide +kernel) (.child (p := 0) (by decide +kernel) (by decide +kernel) .self)

example : let s' := after [.setLevelOfGroup ['r'] .trace] demoL
    (step 20 demoL (.setLevelOfGroup ['r'] .trace)).val = some (.bool true) ∧ demoL.groups.find ['b'] = some 2 ∧
    (s'.grp 2).level = .trace ∧ (s'.lgr 0).level = .trace ∧
    (s'.grp 3).level = .debug ∧ (s'.grp 4) = demoL.grp 4 ∧ (s'.lgr 1).level = .error ∧ (s'.lgr 2).level = .trace := by
  decide +kernel

/-- `setLevelOfGroup("a", trace)` marks `a`; the reset form makes it follow `r` again -/
example : let s' := after [.setLevelOfGroup ['a'] .trace] demoL
    let s'' := after [.resetLevelOfGroup ['a']] s'
    (s'.grp 1).levelOv = true ∧ (s'.lgr 0).level = .trace ∧ (s''.grp 1).levelOv = false ∧ (s''.lgr 0).level = .info := by
  decide +kernel

/-- the same with sinks -/
example : let s' := after [.setSinkOfGroup ['a'] ['t']] demoL
    let s'' := after [.resetSinkOfGroup ['a']] s'
    (s'.grp 1).sinkOv = true ∧ (s'.lgr 0).sink = some 2 ∧ (s''.grp 1).sinkOv = false ∧ (s''.lgr 0).sink = some 1 ∧
    (s'.grp 0).sink = some 1 := by decide +kernel

/-! ## C37 -/

/-- Every value that is inherited is the one of the group above. -/
structure UpToDate (s : Sys) : Prop where
  level : ∀ x p, s.registered x → (s.grp x).parent = some p → (s.grp x).levelOv = false → (s.grp x).level = (s.grp p).level
  sink : ∀ x p, s.registered x → (s.grp x).parent = some p → (s.grp x).sinkOv = false → (s.grp x).sink = (s.grp p).sink
  loggerLevel : ∀ i, s.alive i = true → s.registered (s.lgr i).group → (s.lgr i).levelOv = false →
    (s.lgr i).level = (s.grp (s.lgr i).group).level
  loggerSink : ∀ i k, s.alive i = true → s.registered (s.lgr i).group → (s.lgr i).sinkOv = false →
    (s.grp (s.lgr i).group).sink = some k → (s.lgr i).sink = some k

/-- Names, marks and overridden values, of groups and of loggers, are those of before. -/
structure MarksKept (s s' : Sys) : Prop where
  name : ∀ x, (s'.grp x).name = (s.grp x).name
  levelMark : ∀ x, (s'.grp x).levelOv = (s.grp x).levelOv
  sinkMark : ∀ x, (s'.grp x).sinkOv = (s.grp x).sinkOv
  level : ∀ x, (s.grp x).levelOv = true → (s'.grp x).level = (s.grp x).level
  sink : ∀ x, (s.grp x).sinkOv = true → (s'.grp x).sink = (s.grp x).sink
  logger : ∀ i, (s'.lgr i).name = (s.lgr i).name ∧ (s'.lgr i).group = (s.lgr i).group ∧
    (s'.lgr i).levelOv = (s.lgr i).levelOv ∧ (s'.lgr i).sinkOv = (s.lgr i).sinkOv
  loggerLevel : ∀ i, (s.lgr i).levelOv = true → (s'.lgr i).level = (s.lgr i).level
  loggerSink : ∀ i, (s.lgr i).sinkOv = true → (s'.lgr i).sink = (s.lgr i).sink

theorem marksKept_of {g : Nat} {p : Option Nat} {s s' : Sys} (h : ParentSet g p s s') : MarksKept s s' :=
  ⟨fun x => (h.shape x).1, fun x => (h.shape x).2.1, fun x => (h.shape x).2.2.1, fun x => (h.shape x).2.2.2.2.1,
   fun x => (h.shape x).2.2.2.2.2,
   fun i => ⟨(h.lshape i).1, (h.lshape i).2.1, (h.lshape i).2.2.1, (h.lshape i).2.2.2.1⟩,
   fun i => (h.lshape i).2.2.2.2.1, fun i => (h.lshape i).2.2.2.2.2⟩

theorem upToDate_of {s : Sys} (h : Reach s) : UpToDate s := ⟨h.fresh.lvl, h.fresh.snk, h.fresh.llvl, h.fresh.lsnk⟩

theorem parent_call {g : Nat} {p : Option Nat} {s s' : Sys} {v : Val} {fuel : Nat}
    (hc : (ofOption (setParentOfGroupPtr fuel g p s)).map Val.bool = .ret v s') :
    v = .bool true ∧ setParentOfGroupPtr fuel g p s = some s' := by
  obtain ⟨b, hb, rfl⟩ := map_ret hc
  obtain ⟨rfl, h⟩ := ofOption_ret hb
  exact ⟨rfl, h⟩

theorem setParent_ret {s s' : Sys} {gn pn : Text} {g p fuel : Nat} (hg : s.groups.find gn = some g)
    (hp : s.groups.find pn = some p) (hc : step fuel s (.setParentOfGroup gn pn) = .ret (.bool true) s') :
    setParentOfGroupPtr fuel g (some p) s = some s' := by
  simp only [step, setParentOfGroup, hg, hp] at hc
  split at hc
  · cases hc
  · cases hc
  · exact (parent_call hc).2

theorem inherits_below {parent : Nat → Option Nat} {fixed : Nat → Bool} {g x : Nat} (h : InheritsFrom parent fixed g x) :
    InheritsFrom parent (fun _ => false) g x := by
  induction h with
  | self => exact .self
  | child hp _ _ ih => exact .child hp rfl ih

theorem ParentSet.above {g : Nat} {parent : Option Nat} {s s' : Sys} (h : ParentSet g parent s s') :
    ∀ x, x ≠ g → ¬ InheritsFrom s'.parent (fun _ => false) g x →
      s'.grp x = { s.grp x with parent := (s'.grp x).parent } := by
  intro x hx hn
  have hpar : s'.parent = relink s.grp g parent := funext fun y => (h.shape y).2.2.2.1
  rcases h.other x hx with h1 | ⟨h1, _⟩
  · rw [(h.shape x).2.2.2.1]; exact h1
  · exfalso
    apply hn
    rw [hpar]
    exact inherits_below h1

/-- **C37**, `setParentOfGroup(gn, pn)` with result true: `p` is the parent of `g` (if `p` was a child of `g` it has no
parent now); no other link changes; marks and overridden values stay; afterwards everything inherited is inherited
along the new links (and `g` itself has the values `p` had); what is not below `g` keeps its values; nothing else
changes. -/
theorem C37_setParentOfGroup {s s' : Sys} (h : Reach s) {gn pn : Text} {g p : Nat} (hg : s.groups.find gn = some g)
    (hp : s.groups.find pn = some p) {fuel : Nat} (hc : step fuel s (.setParentOfGroup gn pn) = .ret (.bool true) s') :
    (s'.grp g).parent = some p ∧
    (∀ x, x ≠ g → (s'.grp x).parent = if x = p ∧ (s.grp p).parent = some g then none else (s.grp x).parent) ∧
    MarksKept s s' ∧ UpToDate s' ∧
    ((s.grp g).levelOv = false → (s'.grp g).level = (s.grp p).level) ∧
    ((s.grp g).sinkOv = false → (s'.grp g).sink = (s.grp p).sink) ∧
    (∀ x, x ≠ g → ¬ InheritsFrom s'.parent (fun _ => false) g x → s'.grp x = { s.grp x with parent := (s'.grp x).parent }) ∧
    (∀ i, ¬ InheritsFrom s'.parent (fun _ => false) g (s.lgr i).group → s'.lgr i = s.lgr i) ∧
    RestSame s s' := by
  have hps := setParentOfGroupPtr_spec h.wf.gU h.wf.ord (setParent_ret hg hp hc)
  have hpar : s'.parent = relink s.grp g (some p) := funext fun y => (hps.shape y).2.2.2.1
  refine ⟨?_, ?_, marksKept_of hps, upToDate_of (.call h trivial hc), ?_, ?_, hps.above, ?_, restSame_of h.wf hps.rest⟩
  · rw [(hps.shape g).2.2.2.1]; unfold relink; simp
  · intro x hx
    rw [(hps.shape x).2.2.2.1]
    unfold relink
    rw [if_neg hx]
    by_cases hxp : x = p
    · subst hxp; simp
    · rw [if_neg (fun hh => hxp (by cases hh.1; rfl)), if_neg (fun hh => hxp hh.1)]
  · intro hov; rw [hps.self]; unfold reparented inherit; simp [hov]
  · intro hov; rw [hps.self]; unfold reparented inherit; simp [hov]
  · intro i hn
    apply hps.logger_kept i
    rintro ⟨_, _, _, hi⟩
    apply hn
    rw [hpar]
    exact inherits_below hi

/-- `setParentOfGroup("a", "q")`: `b` and logger `x` now have the values of `q`; `c` keeps its level -/
example : let s' := after [.setParentOfGroup ['a'] ['q']] demoL
    (step 20 demoL (.setParentOfGroup ['a'] ['q'])).val = some (.bool true) ∧
    (s'.grp 1).parent = some 4 ∧ (s'.grp 2).level = .trace ∧ (s'.grp 2).sink = some 2 ∧ (s'.lgr 0).level = .trace ∧
    (s'.lgr 0).sink = some 2 ∧ (s'.grp 3).level = .debug ∧ (s'.grp 3).sink = some 2 ∧ (s'.lgr 1).level = .error := by
  decide +kernel

/-- `setParentOfGroup("r", "a")`, where `a` was a child of `r`: the link is turned round -/
example : let s' := after [.setParentOfGroup ['r'] ['a']] demoL
    (step 20 demoL (.setParentOfGroup ['r'] ['a'])).val = some (.bool true) ∧
    (s'.grp 0).parent = some 1 ∧ (s'.grp 1).parent = none ∧ (s'.grp 2).parent = some 1 := by decide +kernel

/-- **C37**, `unsetParentOfGroup(gn)`, when no group object was replaced by another of the same name (then all groups are
registered, `C37_all_registered`): the group has no parent and *every* value, mark and other link is as before. -/
theorem C37_unsetParentOfGroup {s s' : Sys} (h : Reach s) {gn : Text} {g : Nat} (hg : s.groups.find gn = some g)
    (hall : ∀ x p, s.registered x → (s.grp x).parent = some p → s.registered p)
    {fuel : Nat} {v : Val} (hc : step fuel s (.unsetParentOfGroup gn) = .ret v s') :
    v = .bool true ∧ (s'.grp g) = { s.grp g with parent := none } ∧
    (∀ x, x ≠ g → s.registered x → s'.grp x = s.grp x) ∧
    (∀ i, s.alive i = true → s.registered (s.lgr i).group → s'.lgr i = s.lgr i) ∧ RestSame s s' := by
  simp only [step, unsetParentOfGroup, hg] at hc
  obtain ⟨hv, hc⟩ := parent_call hc
  have hps := setParentOfGroupPtr_spec h.wf.gU h.wf.ord hc
  have hrel : ∀ x, x ≠ g → relink s.grp g none x = (s.grp x).parent := by
    intro x hx; unfold relink; simp [hx]
  have hgrp : ∀ x, InheritsFrom (relink s.grp g none) s.bothFixed g x → x ≠ g → s.registered x → s'.grp x = s.grp x := by
    intro x hi
    induction hi with
    | self => intro hx; exact absurd rfl hx
    | @child x p hr hf hi ih =>
      intro hx hreg
      obtain ⟨p', h1, h2⟩ := hps.registered x hx hreg (.child hr hf hi)
      rw [hr] at h1; cases h1
      have hxp : (s.grp x).parent = some p := by rw [← hrel x hx]; exact hr
      have hpl : (s'.grp p).level = (s.grp p).level ∧ (s'.grp p).sink = (s.grp p).sink := by
        by_cases hpg : p = g
        · subst hpg; rw [hps.self]; exact ⟨rfl, rfl⟩
        · rw [ih hpg (hall x p hreg hxp)]; exact ⟨rfl, rfl⟩
      rw [h2]
      unfold inherit
      rw [hpl.1, hpl.2]
      have e1 : (if (s.grp x).sinkOv = true then (s.grp x).sink else (s.grp p).sink) = (s.grp x).sink := by
        split
        · rfl
        · rename_i ho; exact (h.fresh.snk x p hreg hxp (by simpa using ho)).symm
      have e2 : (if (s.grp x).levelOv = true then (s.grp x).level else (s.grp p).level) = (s.grp x).level := by
        split
        · rfl
        · rename_i ho; exact (h.fresh.lvl x p hreg hxp (by simpa using ho)).symm
      simp only [e1, e2, ← hxp]
  have hgrp' : ∀ x, x ≠ g → s.registered x → s'.grp x = s.grp x := by
    intro x hx hreg
    rcases hps.other x hx with h1 | ⟨h1, _⟩
    · rw [h1, hrel x hx]
    · exact hgrp x h1 hx hreg
  have hself : s'.grp g = { s.grp g with parent := none } := hps.self
  refine ⟨hv, hself, hgrp', ?_, restSame_of h.wf hps.rest⟩
  intro i ha hr
  by_cases hi : InheritsFrom (relink s.grp g none) s.bothFixed g (s.lgr i).group
  · rw [hps.logger i ha (h.wf.live_mem ha) hr hi, setGroup_own]
    have hv2 : (s'.grp (s.lgr i).group).level = (s.grp (s.lgr i).group).level ∧
        (s'.grp (s.lgr i).group).sink = (s.grp (s.lgr i).group).sink := by
      by_cases hgi : (s.lgr i).group = g
      · rw [hgi, hself]; exact ⟨rfl, rfl⟩
      · rw [hgrp' _ hgi hr]; exact ⟨rfl, rfl⟩
    rw [hv2.1, hv2.2]
    have e1 : (if (s.lgr i).sinkOv = true then (s.lgr i).sink else followSink (s.lgr i).sink (s.grp (s.lgr i).group).sink)
        = (s.lgr i).sink := by
      split
      · rfl
      · rename_i ho
        unfold followSink
        cases hk : (s.grp (s.lgr i).group).sink with
        | none => rfl
        | some k => exact (h.fresh.lsnk i k ha hr (by simpa using ho) hk).symm
    have e2 : (if (s.lgr i).levelOv = true then (s.lgr i).level else (s.grp (s.lgr i).group).level) = (s.lgr i).level := by
      split
      · rfl
      · rename_i ho; exact (h.fresh.llvl i ha hr (by simpa using ho)).symm
    simp only [e1, e2]
  · exact hps.logger_kept i fun hh => hi hh.2.2.2

/-- a history in which no group is created under a name in use, nor under the name `*` -/
def newNames (s : Sys) : Op → Prop
  | .makeGroup n _ _ _ => s.groups.find n = none ∧ n ≠ star
  | _ => True

/-- in such a history every group stays registered under its name -/
theorem C37_all_registered {s : Sys} (h : ReachBy newNames s) :
    ∀ x, x < s.ngroups → s.groups.find (s.grp x).name = some x ∧ (s.grp x).name ≠ star := by
  have hstep : ∀ (s s' : Sys) (op : Op), WF s → newNames s op → (∃ fuel, (∃ v, step fuel s op = .ret v s') ∨ step fuel s op = .throw s') →
      (∀ x, x < s.ngroups → s.groups.find (s.grp x).name = some x ∧ (s.grp x).name ≠ star) →
      ∀ x, x < s'.ngroups → s'.groups.find (s'.grp x).name = some x ∧ (s'.grp x).name ≠ star := by
    intro s s' op hw hok ⟨fuel, hc⟩ ih
    by_cases hmk : ∃ n p k l, op = .makeGroup n p k l
    · obtain ⟨n, p, k, l, rfl⟩ := hmk
      simp only [step, makeGroup_eq hw.gLt] at hc
      split at hc
      · rename_i p' k' _ _ _
        rcases hc with ⟨v, hc⟩ | hc
        · cases hc
          intro x hx
          simp only at hx ⊢
          by_cases hxn : x = s.ngroups
          · subst hxn
            rw [upd_same]
            exact ⟨by simp only [newGroup]; rw [Table.find_put_self], hok.2⟩
          · rw [upd_other _ _ hxn]
            have := ih x (by omega)
            refine ⟨?_, this.2⟩
            have hne : (s.grp x).name ≠ n := by
              intro he
              rw [he, hok.1] at this
              cases this.1
            rw [Table.find_put_ne _ _ hne]
            split
            · rw [Table.find_put_ne _ _ this.2]; exact this.1
            · exact this.1
        · cases hc
      · rcases hc with ⟨v, hc⟩ | hc <;> cases hc
        exact ih
    · have ht : Trans ⟨fun _ _ => True, fun _ _ => False, True, True⟩ s s' := by
        rcases hc with ⟨v, hc⟩ | hc
        · exact step_trans hw (fun _ _ _ _ _ _ _ => trivial) (fun n p k l _ _ he => absurd ⟨n, p, k, l, he⟩ hmk) (fun _ _ => trivial) (.inl hc)
        · exact step_trans (v := .unit) hw (fun _ _ _ _ _ _ _ => trivial)
            (fun n p k l _ _ he => absurd ⟨n, p, k, l, he⟩ hmk) (fun _ _ => trivial) (.inr hc)
      have hgen : s'.ngroups = s.ngroups → s'.groups = s.groups → (∀ x, (s'.grp x).name = (s.grp x).name) →
          ∀ x, x < s'.ngroups → s'.groups.find (s'.grp x).name = some x ∧ (s'.grp x).name ≠ star := by
        intro h1 h2 h3 x hx
        rw [h1] at hx
        rw [h2, h3]
        exact ih x hx
      cases ht with
      | refl => exact ih
      | configured => exact ih
      | erase k i hk hd => exact ih
      | sink name => exact ih
      | group name parent sink level p k hp hk hl hA => exact hA.elim
      | fallback name g hg _ =>
        intro x hx
        have := ih x hx
        exact ⟨by simp only; rw [Table.find_put_ne _ _ this.2]; exact this.1, this.2⟩
      | create name g sink level ws hd hg => exact ih
      | logger i m hi ha hv => exact ih
      | drop i => exact ih
      | level _ g l hg h =>
        exact hgen (by rw [h.rest]) (by rw [h.rest]) fun x => (h.shape x).1
      | sinkOf _ g k hg hk h =>
        exact hgen (by rw [h.rest]) (by rw [h.rest]) fun x => (h.shape x).1
      | parentOf _ g p hg hp hA hwalk h =>
        exact hgen (by rw [h.rest]) (by rw [h.rest]) fun x => (h.shape x).1
  induction h with
  | init debug ord ho => intro x hx; simp [new] at hx
  | call hr hok hc ih => exact hstep _ _ _ hr.wf hok ⟨_, .inl ⟨_, hc⟩⟩ ih
  | failed hr hok hc ih => exact hstep _ _ _ hr.wf hok ⟨_, .inr hc⟩ ih
  | configuring _ ih => exact ih

/-- so the hypothesis of `C37_unsetParentOfGroup` holds -/
theorem C37_closed {s : Sys} (h : ReachBy newNames s) (x p : Nat) (hx : s.registered x) (hp : (s.grp x).parent = some p) :
    s.registered p :=
  ⟨_, (C37_all_registered h p (h.wf.pLt x p (h.wf.regLt hx) hp)).1⟩

theorem after_reachBy {ok : Sys → Op → Prop} {ops : List Op} {s : Sys} (h : ReachBy ok s) (hok : ∀ s, ∀ op ∈ ops, ok s op) :
    ReachBy ok (after ops s) := by
  have key : ∀ ops s s', ReachBy ok s → (∀ s, ∀ op ∈ ops, ok s op) → runOps 20 ops s = some s' → ReachBy ok s' := by
    intro ops
    induction ops with
    | nil => intro s s' h _ hr; cases hr; exact h
    | cons op ops ih =>
      intro s s' h hok hr
      unfold runOps at hr
      have h1 := hok s op List.mem_cons_self
      have h2 := fun s op hm => hok s op (List.mem_cons_of_mem _ hm)
      cases hc : step 20 s op with
      | ret v s1 => rw [hc] at hr; exact ih _ _ (.call h h1 hc) h2 hr
      | throw s1 => rw [hc] at hr; exact ih _ _ (.failed h h1 hc) h2 hr
      | ub => rw [hc] at hr; cases hr
      | diverge => rw [hc] at hr; cases hr
  unfold after
  cases hr : runOps 20 ops s with
  | none => exact h
  | some s' => exact key ops s s' h hok hr

/-- `unsetParentOfGroup("a")` -/
example : let s' := after [.unsetParentOfGroup ['a']] demoL
    (step 20 demoL (.unsetParentOfGroup ['a'])).val = some (.bool true) ∧
    (s'.grp 1) = { demoL.grp 1 with parent := none } ∧ (s'.grp 2) = demoL.grp 2 ∧ (s'.grp 2).level = .info ∧
    (s'.lgr 0) = demoL.lgr 0 := by decide +kernel

end System
end Soralog
