import Verif.Spec.SystemTerms
import Verif.Proofs.SystemPath
import Verif.Proofs.SystemTable
import Verif.Spec.Hierarchy
/-!
# Closed forms of the three propagating calls
-/
namespace Soralog
namespace System

open Hierarchy

theorem registered_mem {s : Sys} (hu : s.groups.Unique) {x : Nat} : s.registered x ↔ x ∈ s.groups.map (·.2) :=
  (Table.mem_values hu).symm

/-- a path depends only on the links and the marks of the groups other than `g` -/
theorem path_inherits {h : Nat → Group} {stop : Group → Bool} {g x : Nat} {parent : Nat → Option Nat}
    {fixed : Nat → Bool} (hp : ∀ y, y ≠ g → (h y).parent = parent y) (hf : ∀ y, y ≠ g → stop (h y) = fixed y) :
    (∃ l, Path h stop g x l) ↔ InheritsFrom parent fixed g x := by
  constructor
  · rintro ⟨l, hl⟩
    induction hl with
    | here => exact .self
    | up hne hs hpar _ ih => exact .child (by rw [← hp _ hne]; exact hpar) (by rw [← hf _ hne]; exact hs) ih
  · intro hi
    induction hi with
    | self => exact ⟨[], .here⟩
    | @child x p hpar hfix _ ih =>
      by_cases hx : x = g
      · subst hx; exact ⟨[], .here⟩
      · obtain ⟨l, hl⟩ := ih
        exact ⟨_, .up hx (by rw [hf _ hx]; exact hfix) (by rw [hp _ hx]; exact hpar) hl⟩

/-! ### a value handed down unchanged -/

/-- If the change copies the value `get` from the parent, every group taken has the value of `g` in the end. -/
theorem Propagated.value {β : Type} (get : Group → β) {stop : Group → Bool} {F : Group → Group → Group}
    {up : (Nat → Group) → Logger → Logger} {g : Nat} {s s' : Sys} (hP : Propagated stop F up g s s')
    (hget : ∀ a b, get (F a b) = get b) {x : Nat} {l : List Nat} (hx : Path s.grp stop g x l)
    (ht : ∀ y ∈ l, ∃ r l', r ∈ s.groups.map (·.2) ∧ Path s.grp stop g r l' ∧ y ∈ l') :
    get (s'.grp x) = get (s'.grp g) := by
  induction hx with
  | here => rfl
  | up hne hs hp hl ih =>
    obtain ⟨r, l', hr, hl', hy⟩ := ht _ List.mem_cons_self
    rw [hP.taken r l' _ _ hr hl' hy hp, hget]
    exact ih fun y hy => ht y (List.mem_cons_of_mem _ hy)

theorem Propagated.self {stop : Group → Bool} {F : Group → Group → Group}
    {up : (Nat → Group) → Logger → Logger} {g : Nat} {s s' : Sys} (hP : Propagated stop F up g s s') :
    s'.grp g = s.grp g := by
  apply hP.kept
  intro r l _ hl hg
  exact hl.ne_of_mem hg rfl

/-- Every group is kept or taken. -/
theorem Propagated.cases {stop : Group → Bool} {F : Group → Group → Group}
    {up : (Nat → Group) → Logger → Logger} {g : Nat} {s s' : Sys} (hP : Propagated stop F up g s s') (x : Nat) :
    (s'.grp x = s.grp x ∧ ¬ ∃ r l, r ∈ s.groups.map (·.2) ∧ Path s.grp stop g r l ∧ x ∈ l) ∨
    ∃ l p, Path s.grp stop g x (x :: l) ∧ (s.grp x).parent = some p ∧ stop (s.grp x) = false ∧ x ≠ g ∧
      s'.grp x = F (s.grp x) (s'.grp p) ∧
      ∀ y ∈ x :: l, ∃ r l', r ∈ s.groups.map (·.2) ∧ Path s.grp stop g r l' ∧ y ∈ l' := by
  by_cases hx : ∃ r l, r ∈ s.groups.map (·.2) ∧ Path s.grp stop g r l ∧ x ∈ l
  · right
    obtain ⟨r, l, hr, hl, hxl⟩ := hx
    obtain ⟨l', h1, h2⟩ := hl.of_mem hxl
    obtain ⟨h3, p, h4, _⟩ := hl.parent_of_mem hxl
    exact ⟨l', p, h1, h4, h3, hl.ne_of_mem hxl, hP.taken r l x p hr hl hxl h4,
      fun y hy => ⟨r, l, hr, hl, h2.subset hy⟩⟩
  · exact .inl ⟨hP.kept x fun r l hr hl hxl => hx ⟨r, l, hr, hl, hxl⟩, hx⟩

/-! ### levels -/

def FLevel (a b : Group) : Group := { a with level := b.level, levelOv := false }

theorem copiesLevel : Copies setLevelFromGroup FLevel := by
  constructor
  · intro h x p hp
    have hd : decide (some p ≠ (h x).parent) = false := by simp [hp]
    unfold setLevelFromGroup FLevel
    rw [hd]
  · intro a b; rfl

/-- the heap after the first line of `setLevelOfGroup`, :316-320 -/
def baseLevel (h : Nat → Group) (g : Nat) (level : Option Level) : Nat → Group :=
  match level with
  | some l => setLevel h g l
  | none => resetLevel h g

/-- the level `g` gets -/
def newLevel (h : Nat → Group) (g : Nat) (level : Option Level) : Level :=
  match level, (h g).parent with
  | some l, _ => l
  | none, some p => (h p).level
  | none, none => (h g).level

/-- the mark `g` gets -/
def newMark (old : Bool) (parent : Option Nat) (set : Bool) : Bool :=
  if parent.isSome then set else old

theorem baseLevel_other {h : Nat → Group} {g x : Nat} {level : Option Level} (hx : x ≠ g) :
    baseLevel h g level x = h x := by
  unfold baseLevel setLevel resetLevel
  cases level with
  | some l => simp [upd_other _ _ hx]
  | none =>
    cases (h g).parent with
    | some p => exact upd_other _ _ hx
    | none => rfl

theorem baseLevel_self {h : Nat → Group} {g : Nat} {level : Option Level} :
    baseLevel h g level g =
      { h g with level := newLevel h g level, levelOv := newMark (h g).levelOv (h g).parent level.isSome } := by
  unfold baseLevel setLevel resetLevel newLevel newMark
  cases level with
  | some l => simp
  | none =>
    cases hp : (h g).parent with
    | none => simp
    | some p => simp

/-- What `setLevelOfGroup` / `resetLevelOfGroup` do, in closed form. -/
structure LevelSet (g : Nat) (level : Option Level) (s s' : Sys) : Prop where
  self : s'.grp g = { s.grp g with
    level := newLevel s.grp g level, levelOv := newMark (s.grp g).levelOv (s.grp g).parent level.isSome }
  other : ∀ x, x ≠ g → s'.grp x = s.grp x ∨
    (InheritsFrom s.parent s.levelFixed g x ∧ s'.grp x = { s.grp x with level := newLevel s.grp g level })
  registered : ∀ x, x ≠ g → s.registered x → InheritsFrom s.parent s.levelFixed g x →
    s'.grp x = { s.grp x with level := newLevel s.grp g level }
  /-- nothing below a change is left out -/
  follows : ∀ x p, s.registered x → x ≠ g → (s.grp x).parent = some p → (s.grp x).levelOv = false →
    s'.grp p ≠ s.grp p → InheritsFrom s.parent s.levelFixed g x
  /-- nor is anything in between left out -/
  above : ∀ x p, x ≠ g → s.registered x → InheritsFrom s.parent s.levelFixed g x → (s.grp x).parent = some p →
    (s'.grp p).level = newLevel s.grp g level
  logger : ∀ i, s.alive i = true → i ∈ s.loggers.map (·.2) → s.registered (s.lgr i).group →
    (s.lgr i).levelOv = false → InheritsFrom s.parent s.levelFixed g (s.lgr i).group →
    s'.lgr i = { s.lgr i with level := newLevel s.grp g level }
  logger_kept : ∀ i, ¬ (s.alive i = true ∧ i ∈ s.loggers.map (·.2) ∧ s.registered (s.lgr i).group ∧
    (s.lgr i).levelOv = false ∧ InheritsFrom s.parent s.levelFixed g (s.lgr i).group) → s'.lgr i = s.lgr i
  rest : s' = { s with grp := s'.grp, lgr := s'.lgr, loggers := s.loggers.filter fun e => s.alive e.2 }

theorem setLevelOfGroupPtr_spec {fuel g : Nat} {level : Option Level} {s s' : Sys} (hu : s.groups.Unique)
    (ho : ∀ l, (s.ord l).Perm l) (hp : setLevelOfGroupPtr fuel g level s = some s') : LevelSet g level s s' := by
  have hp' : propagate fuel (·.levelOv) setLevelFromGroup
      (fun h l => if l.levelOv then l else l.setLevelFromGroup h l.group) g { s with grp := baseLevel s.grp g level } = some s' := hp
  have hP := propagate_spec (s := { s with grp := baseLevel s.grp g level }) copiesLevel ho hp'
  have hpar : ∀ y, y ≠ g → (baseLevel s.grp g level y).parent = s.parent y := by
    intro y hy; rw [baseLevel_other hy]; rfl
  have hfix : ∀ y, y ≠ g → (baseLevel s.grp g level y).levelOv = s.levelFixed y := by
    intro y hy; rw [baseLevel_other hy]; rfl
  have hinh : ∀ x, (∃ l, Path (baseLevel s.grp g level) (·.levelOv) g x l) ↔
      InheritsFrom s.parent s.levelFixed g x := fun x => path_inherits hpar hfix
  have hself : s'.grp g = baseLevel s.grp g level g := hP.self
  have hnew : (s'.grp g).level = newLevel s.grp g level := by rw [hself, baseLevel_self]
  have hreg : ∀ x, s.registered x ↔ x ∈ s.groups.map (·.2) := fun x => registered_mem hu
  have htaken : ∀ x l p, Path (baseLevel s.grp g level) (·.levelOv) g x (x :: l) → x ≠ g →
      (baseLevel s.grp g level x).parent = some p → (baseLevel s.grp g level x).levelOv = false →
      s'.grp x = FLevel (baseLevel s.grp g level x) (s'.grp p) →
      (∀ y ∈ x :: l, ∃ r l', r ∈ s.groups.map (·.2) ∧ Path (baseLevel s.grp g level) (·.levelOv) g r l' ∧ y ∈ l') →
      s'.grp x = { s.grp x with level := newLevel s.grp g level } := by
    intro x l p h1 hx h2 h3 h4 h5
    have hv := hP.value (·.level) (fun _ _ => rfl) h1 h5
    rw [h4] at hv ⊢
    rw [hnew] at hv
    unfold FLevel at hv ⊢
    simp only at hv
    rw [hv]
    rw [baseLevel_other hx] at h3 ⊢
    rw [← h3]
  refine ⟨by rw [hself, baseLevel_self], ?_, ?_, ?_, ?_, ?_, ?_, ?_⟩
  · intro x hx
    rcases hP.cases x with ⟨h1, _⟩ | ⟨l, p, h1, h2, h3, _, h4, h5⟩
    · left; rw [h1]; exact baseLevel_other hx
    · exact .inr ⟨(hinh x).1 ⟨_, h1⟩, htaken x l p h1 hx h2 h3 h4 h5⟩
  · intro x hx hr hi
    rcases hP.cases x with ⟨_, h1⟩ | ⟨l, p, h1, h2, h3, _, h4, h5⟩
    · exfalso
      obtain ⟨l, hl⟩ := (hinh x).2 hi
      cases hl with
      | here => exact hx rfl
      | up a b c d => exact h1 ⟨x, _, (hreg x).1 hr, .up a b c d, by simp⟩
    · exact htaken x l p h1 hx h2 h3 h4 h5
  · intro x p hr hx h2 h3 hc
    by_cases hpg : p = g
    · subst hpg; exact .child h2 h3 .self
    · rcases hP.cases p with ⟨h1, _⟩ | ⟨l, q, h1, _⟩
      · exfalso; apply hc; rw [h1]; exact baseLevel_other hpg
      · exact .child h2 h3 ((hinh p).1 ⟨_, h1⟩)
  · intro x p hx hr hi hxp
    obtain ⟨l, hl⟩ := (hinh x).2 hi
    have hl0 := hl
    cases hl with
    | here => exact absurd rfl hx
    | up a b c d =>
      have : s.parent x = some p := hxp
      rw [hpar x hx, this] at c
      cases c
      rw [hP.value (·.level) (fun _ _ => rfl) d
        (fun y hy => ⟨x, _, (hreg x).1 hr, hl0, List.mem_cons_of_mem _ hy⟩)]
      exact hnew
  · intro i ha hi hr hov hin
    have h1 := hP.lgr i ha hi ((hreg _).1 hr) ((hinh _).2 hin)
    rw [h1]
    have h2 : (s'.grp (s.lgr i).group).level = newLevel s.grp g level := by
      by_cases hg : (s.lgr i).group = g
      · rw [hg]; exact hnew
      · rcases hP.cases (s.lgr i).group with ⟨_, h1⟩ | ⟨l, p, h1, h2, h3, _, h4, h5⟩
        · exfalso
          obtain ⟨l, hl⟩ := (hinh _).2 hin
          generalize (s.lgr i).group = x at *
          cases hl with
          | here => exact hg rfl
          | up a b c d => exact h1 ⟨x, _, (hreg _).1 hr, .up a b c d, by simp⟩
        · rw [htaken _ l p h1 hg h2 h3 h4 h5]
    simp only [hov, Bool.false_eq_true, if_false]
    unfold Logger.setLevelFromGroup
    rw [h2]
    simp
  · intro i hni
    by_cases hc : s.alive i = true ∧ i ∈ s.loggers.map (·.2) ∧ (s.lgr i).group ∈ s.groups.map (·.2) ∧
        ∃ l, Path (baseLevel s.grp g level) (·.levelOv) g (s.lgr i).group l
    · obtain ⟨h1, h2, h3, h4⟩ := hc
      rw [hP.lgr i h1 h2 h3 h4]
      show (if (s.lgr i).levelOv = true then s.lgr i else _) = s.lgr i
      cases hov : (s.lgr i).levelOv with
      | true => simp
      | false => exact absurd ⟨h1, h2, (hreg _).2 h3, hov, (hinh _).1 h4⟩ hni
    · exact hP.lgr_kept i hc
  · exact hP.rest

/-! ### sinks -/

def FSink (a b : Group) : Group := { a with sink := b.sink, sinkOv := false }

theorem copiesSink : Copies setSinkFromGroup FSink := by
  constructor
  · intro h x p hp
    have hd : decide (some p ≠ (h x).parent) = false := by simp [hp]
    unfold setSinkFromGroup FSink
    rw [hd]
  · intro a b; rfl

/-- the heap after the first line of `setSinkOfGroup`, :247-251 -/
def baseSink (h : Nat → Group) (g : Nat) (sink : Option Nat) : Nat → Group :=
  match sink with
  | some k => setSink h g k
  | none => resetSink h g

/-- the sink `g` gets -/
def newSink (h : Nat → Group) (g : Nat) (sink : Option Nat) : Option Nat :=
  match sink, (h g).parent with
  | some k, _ => some k
  | none, some p => (h p).sink
  | none, none => (h g).sink

theorem baseSink_other {h : Nat → Group} {g x : Nat} {sink : Option Nat} (hx : x ≠ g) :
    baseSink h g sink x = h x := by
  unfold baseSink setSink resetSink
  cases sink with
  | some l => simp [upd_other _ _ hx]
  | none =>
    cases (h g).parent with
    | some p => exact upd_other _ _ hx
    | none => rfl

theorem baseSink_self {h : Nat → Group} {g : Nat} {sink : Option Nat} :
    baseSink h g sink g =
      { h g with sink := newSink h g sink, sinkOv := newMark (h g).sinkOv (h g).parent sink.isSome } := by
  unfold baseSink setSink resetSink newSink newMark
  cases sink with
  | some l => simp
  | none =>
    cases hp : (h g).parent with
    | none => simp
    | some p => simp

/-- the sink a following logger has afterwards: a group without sink leaves it alone -/
def followSink (old new : Option Nat) : Option Nat := if new.isSome then new else old

/-- What `setSinkOfGroup` / `resetSinkOfGroup` do, in closed form. -/
structure SinkSet (g : Nat) (sink : Option Nat) (s s' : Sys) : Prop where
  self : s'.grp g = { s.grp g with
    sink := newSink s.grp g sink, sinkOv := newMark (s.grp g).sinkOv (s.grp g).parent sink.isSome }
  other : ∀ x, x ≠ g → s'.grp x = s.grp x ∨
    (InheritsFrom s.parent s.sinkFixed g x ∧ s'.grp x = { s.grp x with sink := newSink s.grp g sink })
  registered : ∀ x, x ≠ g → s.registered x → InheritsFrom s.parent s.sinkFixed g x →
    s'.grp x = { s.grp x with sink := newSink s.grp g sink }
  follows : ∀ x p, s.registered x → x ≠ g → (s.grp x).parent = some p → (s.grp x).sinkOv = false →
    s'.grp p ≠ s.grp p → InheritsFrom s.parent s.sinkFixed g x
  /-- nor is anything in between left out -/
  above : ∀ x p, x ≠ g → s.registered x → InheritsFrom s.parent s.sinkFixed g x → (s.grp x).parent = some p →
    (s'.grp p).sink = newSink s.grp g sink
  logger : ∀ i, s.alive i = true → i ∈ s.loggers.map (·.2) → s.registered (s.lgr i).group →
    (s.lgr i).sinkOv = false → InheritsFrom s.parent s.sinkFixed g (s.lgr i).group →
    s'.lgr i = { s.lgr i with sink := followSink (s.lgr i).sink (newSink s.grp g sink) }
  logger_kept : ∀ i, ¬ (s.alive i = true ∧ i ∈ s.loggers.map (·.2) ∧ s.registered (s.lgr i).group ∧
    (s.lgr i).sinkOv = false ∧ InheritsFrom s.parent s.sinkFixed g (s.lgr i).group) → s'.lgr i = s.lgr i
  rest : s' = { s with grp := s'.grp, lgr := s'.lgr, loggers := s.loggers.filter fun e => s.alive e.2 }

theorem setSinkFromGroup_eq (l : Logger) (h : Nat → Group) (hov : l.sinkOv = false) :
    l.setSinkFromGroup h l.group = { l with sink := followSink l.sink (h l.group).sink } := by
  unfold Logger.setSinkFromGroup followSink
  cases (h l.group).sink with
  | none => simp
  | some k => simp [hov]

theorem setSinkOfGroupPtr_spec {fuel g : Nat} {sink : Option Nat} {s s' : Sys} (hu : s.groups.Unique)
    (ho : ∀ l, (s.ord l).Perm l) (hp : setSinkOfGroupPtr fuel g sink s = some s') : SinkSet g sink s s' := by
  have hp' : propagate fuel (·.sinkOv) setSinkFromGroup
      (fun h l => if l.sinkOv then l else l.setSinkFromGroup h l.group) g { s with grp := baseSink s.grp g sink } = some s' := hp
  have hP := propagate_spec (s := { s with grp := baseSink s.grp g sink }) copiesSink ho hp'
  have hpar : ∀ y, y ≠ g → (baseSink s.grp g sink y).parent = s.parent y := by
    intro y hy; rw [baseSink_other hy]; rfl
  have hfix : ∀ y, y ≠ g → (baseSink s.grp g sink y).sinkOv = s.sinkFixed y := by
    intro y hy; rw [baseSink_other hy]; rfl
  have hinh : ∀ x, (∃ l, Path (baseSink s.grp g sink) (·.sinkOv) g x l) ↔
      InheritsFrom s.parent s.sinkFixed g x := fun x => path_inherits hpar hfix
  have hself : s'.grp g = baseSink s.grp g sink g := hP.self
  have hnew : (s'.grp g).sink = newSink s.grp g sink := by rw [hself, baseSink_self]
  have hreg : ∀ x, s.registered x ↔ x ∈ s.groups.map (·.2) := fun x => registered_mem hu
  have htaken : ∀ x l p, Path (baseSink s.grp g sink) (·.sinkOv) g x (x :: l) → x ≠ g →
      (baseSink s.grp g sink x).parent = some p → (baseSink s.grp g sink x).sinkOv = false →
      s'.grp x = FSink (baseSink s.grp g sink x) (s'.grp p) →
      (∀ y ∈ x :: l, ∃ r l', r ∈ s.groups.map (·.2) ∧ Path (baseSink s.grp g sink) (·.sinkOv) g r l' ∧ y ∈ l') →
      s'.grp x = { s.grp x with sink := newSink s.grp g sink } := by
    intro x l p h1 hx h2 h3 h4 h5
    have hv := hP.value (·.sink) (fun _ _ => rfl) h1 h5
    rw [h4] at hv ⊢
    rw [hnew] at hv
    unfold FSink at hv ⊢
    simp only at hv
    rw [hv]
    rw [baseSink_other hx] at h3 ⊢
    rw [← h3]
  refine ⟨by rw [hself, baseSink_self], ?_, ?_, ?_, ?_, ?_, ?_, ?_⟩
  · intro x hx
    rcases hP.cases x with ⟨h1, _⟩ | ⟨l, p, h1, h2, h3, _, h4, h5⟩
    · left; rw [h1]; exact baseSink_other hx
    · exact .inr ⟨(hinh x).1 ⟨_, h1⟩, htaken x l p h1 hx h2 h3 h4 h5⟩
  · intro x hx hr hi
    rcases hP.cases x with ⟨_, h1⟩ | ⟨l, p, h1, h2, h3, _, h4, h5⟩
    · exfalso
      obtain ⟨l, hl⟩ := (hinh x).2 hi
      cases hl with
      | here => exact hx rfl
      | up a b c d => exact h1 ⟨x, _, (hreg x).1 hr, .up a b c d, by simp⟩
    · exact htaken x l p h1 hx h2 h3 h4 h5
  · intro x p hr hx h2 h3 hc
    by_cases hpg : p = g
    · subst hpg; exact .child h2 h3 .self
    · rcases hP.cases p with ⟨h1, _⟩ | ⟨l, q, h1, _⟩
      · exfalso; apply hc; rw [h1]; exact baseSink_other hpg
      · exact .child h2 h3 ((hinh p).1 ⟨_, h1⟩)
  · intro x p hx hr hi hxp
    obtain ⟨l, hl⟩ := (hinh x).2 hi
    have hl0 := hl
    cases hl with
    | here => exact absurd rfl hx
    | up a b c d =>
      have : s.parent x = some p := hxp
      rw [hpar x hx, this] at c
      cases c
      rw [hP.value (·.sink) (fun _ _ => rfl) d
        (fun y hy => ⟨x, _, (hreg x).1 hr, hl0, List.mem_cons_of_mem _ hy⟩)]
      exact hnew
  · intro i ha hi hr hov hin
    have h1 := hP.lgr i ha hi ((hreg _).1 hr) ((hinh _).2 hin)
    rw [h1]
    have h2 : (s'.grp (s.lgr i).group).sink = newSink s.grp g sink := by
      by_cases hg : (s.lgr i).group = g
      · rw [hg]; exact hnew
      · rcases hP.cases (s.lgr i).group with ⟨_, h1⟩ | ⟨l, p, h1, h2, h3, _, h4, h5⟩
        · exfalso
          obtain ⟨l, hl⟩ := (hinh _).2 hin
          generalize (s.lgr i).group = x at *
          cases hl with
          | here => exact hg rfl
          | up a b c d => exact h1 ⟨x, _, (hreg _).1 hr, .up a b c d, by simp⟩
        · rw [htaken _ l p h1 hg h2 h3 h4 h5]
    simp only [hov, Bool.false_eq_true, if_false]
    rw [setSinkFromGroup_eq _ _ hov, h2, hov]
  · intro i hni
    by_cases hc : s.alive i = true ∧ i ∈ s.loggers.map (·.2) ∧ (s.lgr i).group ∈ s.groups.map (·.2) ∧
        ∃ l, Path (baseSink s.grp g sink) (·.sinkOv) g (s.lgr i).group l
    · obtain ⟨h1, h2, h3, h4⟩ := hc
      rw [hP.lgr i h1 h2 h3 h4]
      show (if (s.lgr i).sinkOv = true then s.lgr i else _) = s.lgr i
      cases hov : (s.lgr i).sinkOv with
      | true => simp
      | false => exact absurd ⟨h1, h2, (hreg _).2 h3, hov, (hinh _).1 h4⟩ hni
    · exact hP.lgr_kept i hc
  · exact hP.rest

/-! ### parents -/

/-- what a group takes from its parent: everything that is not set on itself -/
def inherit (a b : Group) : Group :=
  { a with sink := if a.sinkOv then a.sink else b.sink, level := if a.levelOv then a.level else b.level }

theorem setParentGroup_eq (h : Nat → Group) (x p : Nat) :
    setParentGroup h x (some p) = upd h x (inherit { h x with parent := some p } (upd h x { h x with parent := some p } p)) := by
  funext y
  by_cases hpx : p = x
  · subst hpx
    by_cases hy : y = p
    · subst hy
      unfold setParentGroup setSinkFromGroup setLevelFromGroup inherit
      rcases hg : h y with ⟨a, b, c, d, e, f⟩
      cases d <;> cases f <;> simp
    · unfold setParentGroup setSinkFromGroup setLevelFromGroup
      simp only [upd_other _ _ hy]
      split <;> split <;> simp [upd_other _ _ hy]
  · by_cases hy : y = x
    · subst hy
      unfold setParentGroup setSinkFromGroup setLevelFromGroup inherit
      rcases hg : h y with ⟨a, b, c, d, e, f⟩
      cases d <;> cases f <;> simp [upd_other _ _ hpx]
    · unfold setParentGroup setSinkFromGroup setLevelFromGroup
      simp only [upd_other _ _ hy]
      split <;> split <;> simp [upd_other _ _ hy]

theorem copiesParent : Copies (fun h x p => setParentGroup h x (some p)) inherit := by
  constructor
  · intro h x p hp
    have h1 : { h x with parent := some p } = h x := by rw [← hp]
    simp only [setParentGroup_eq, h1]
    have h2 : upd h x (h x) = h := by
      funext y
      by_cases hy : y = x
      · subst hy; simp
      · rw [upd_other _ _ hy]
    rw [h2]
  · intro a b; rfl

/-- the parents after `setParentOfGroup(g, parent)`: if `parent` was a child of `g`, that link is cut -/
def relink (h : Nat → Group) (g : Nat) (parent : Option Nat) (x : Nat) : Option Nat :=
  if x = g then parent else if parent = some x ∧ (h x).parent = some g then none else (h x).parent

/-- the heap after the first lines of `setParentOfGroup`, :179-183 -/
def baseParent (h : Nat → Group) (g : Nat) (parent : Option Nat) : Nat → Group :=
  setParentGroup (match parent with
    | some p => if (h p).parent = some g then unsetParentGroup h p else h
    | none => h) g parent

/-- what `g` itself becomes -/
def reparented (h : Nat → Group) (g : Nat) (parent : Option Nat) : Group :=
  match parent with
  | none => { h g with parent := none }
  | some p => inherit { h g with parent := some p } (h p)

theorem baseParent_self (h : Nat → Group) (g : Nat) (parent : Option Nat) :
    baseParent h g parent g = reparented h g parent := by
  unfold baseParent reparented
  cases parent with
  | none => simp [setParentGroup]
  | some p =>
    simp only [setParentGroup_eq, upd_same]
    by_cases hpg : p = g
    · subst hpg
      by_cases hc : (h p).parent = some p
      · simp [hc, unsetParentGroup, inherit]
      · simp [hc, inherit]
    · rw [upd_other _ _ hpg]
      have hgp : g ≠ p := fun h => hpg h.symm
      by_cases hc : (h p).parent = some g
      · simp [hc, unsetParentGroup, upd_other _ _ hgp, inherit]
      · simp [hc, inherit]

theorem baseParent_other (h : Nat → Group) (g : Nat) (parent : Option Nat) {x : Nat} (hx : x ≠ g) :
    baseParent h g parent x = { h x with parent := relink h g parent x } := by
  unfold baseParent relink
  rw [if_neg hx]
  cases parent with
  | none => simp [setParentGroup, upd_other _ _ hx]
  | some p =>
    simp only [setParentGroup_eq, upd_other _ _ hx]
    by_cases hc : (h p).parent = some g
    · rw [if_pos hc]
      unfold unsetParentGroup
      by_cases hxp : x = p
      · subst hxp; simp [hc]
      · rw [upd_other _ _ hxp]
        have : ¬ (some p = some x ∧ (h x).parent = some g) := fun h => hxp (by simpa using h.1.symm)
        rw [if_neg this]
    · rw [if_neg hc]
      have : ¬ (some p = some x ∧ (h x).parent = some g) := by
        rintro ⟨h1, h2⟩
        cases h1
        exact hc h2
      rw [if_neg this]

/-- both properties are set on the group itself: the visit stops there -/
def Sys.bothFixed (s : Sys) (x : Nat) : Bool := (s.grp x).levelOv && (s.grp x).sinkOv

/-- What `setParentOfGroup` / `unsetParentOfGroup` do, in closed form. -/
structure ParentSet (g : Nat) (parent : Option Nat) (s s' : Sys) : Prop where
  self : s'.grp g = reparented s.grp g parent
  other : ∀ x, x ≠ g → s'.grp x = { s.grp x with parent := relink s.grp g parent x } ∨
    (InheritsFrom (relink s.grp g parent) s.bothFixed g x ∧ ∃ p, relink s.grp g parent x = some p ∧
      s'.grp x = inherit { s.grp x with parent := some p } (s'.grp p))
  registered : ∀ x, x ≠ g → s.registered x → InheritsFrom (relink s.grp g parent) s.bothFixed g x →
    ∃ p, relink s.grp g parent x = some p ∧ s'.grp x = inherit { s.grp x with parent := some p } (s'.grp p)
  follows : ∀ x p, x ≠ g → relink s.grp g parent x = some p → s.bothFixed x = false →
    s'.grp p ≠ { s.grp p with parent := relink s.grp g parent p } →
    InheritsFrom (relink s.grp g parent) s.bothFixed g x
  logger : ∀ i, s.alive i = true → i ∈ s.loggers.map (·.2) → s.registered (s.lgr i).group →
    InheritsFrom (relink s.grp g parent) s.bothFixed g (s.lgr i).group →
    s'.lgr i = (s.lgr i).setGroup s'.grp (s.lgr i).group
  logger_kept : ∀ i, ¬ (s.alive i = true ∧ i ∈ s.loggers.map (·.2) ∧ s.registered (s.lgr i).group ∧
    InheritsFrom (relink s.grp g parent) s.bothFixed g (s.lgr i).group) → s'.lgr i = s.lgr i
  rest : s' = { s with grp := s'.grp, lgr := s'.lgr, loggers := s.loggers.filter fun e => s.alive e.2 }

theorem setParentOfGroupPtr_spec {fuel g : Nat} {parent : Option Nat} {s s' : Sys} (hu : s.groups.Unique)
    (ho : ∀ l, (s.ord l).Perm l) (hp : setParentOfGroupPtr fuel g parent s = some s') : ParentSet g parent s s' := by
  have hp' : propagate fuel (fun x => x.levelOv && x.sinkOv) (fun h x p => setParentGroup h x (some p))
      (fun h l => l.setGroup h l.group) g { s with grp := baseParent s.grp g parent } = some s' := hp
  have hP := propagate_spec (s := { s with grp := baseParent s.grp g parent }) copiesParent ho hp'
  have hpar : ∀ y, y ≠ g → (baseParent s.grp g parent y).parent = relink s.grp g parent y := by
    intro y hy; rw [baseParent_other _ _ _ hy]
  have hfix : ∀ y, y ≠ g → ((baseParent s.grp g parent y).levelOv && (baseParent s.grp g parent y).sinkOv) = s.bothFixed y := by
    intro y hy; rw [baseParent_other _ _ _ hy]; rfl
  have hinh : ∀ x, (∃ l, Path (baseParent s.grp g parent) (fun x => x.levelOv && x.sinkOv) g x l) ↔
      InheritsFrom (relink s.grp g parent) s.bothFixed g x := fun x => path_inherits hpar hfix
  have hself : s'.grp g = reparented s.grp g parent := by
    rw [hP.self]; exact baseParent_self _ _ _
  have hreg : ∀ x, s.registered x ↔ x ∈ s.groups.map (·.2) := fun x => registered_mem hu
  have htaken : ∀ x p, x ≠ g → (baseParent s.grp g parent x).parent = some p →
      s'.grp x = inherit (baseParent s.grp g parent x) (s'.grp p) →
      ∃ p, relink s.grp g parent x = some p ∧ s'.grp x = inherit { s.grp x with parent := some p } (s'.grp p) := by
    intro x p hx h1 h2
    have h3 : relink s.grp g parent x = some p := by rw [← hpar x hx]; exact h1
    refine ⟨p, h3, ?_⟩
    rw [h2, baseParent_other _ _ _ hx, h3]
  refine ⟨hself, ?_, ?_, ?_, ?_, ?_, ?_⟩
  · intro x hx
    rcases hP.cases x with ⟨h1, _⟩ | ⟨l, p, h1, h2, h3, _, h4, h5⟩
    · left; rw [h1]; exact baseParent_other _ _ _ hx
    · exact .inr ⟨(hinh x).1 ⟨_, h1⟩, htaken x p hx h2 h4⟩
  · intro x hx hr hi
    rcases hP.cases x with ⟨_, h1⟩ | ⟨l, p, h1, h2, h3, _, h4, h5⟩
    · exfalso
      obtain ⟨l, hl⟩ := (hinh x).2 hi
      cases hl with
      | here => exact hx rfl
      | up a b c d => exact h1 ⟨x, _, (hreg x).1 hr, .up a b c d, by simp⟩
    · exact htaken x p hx h2 h4
  · intro x p hx h2 h3 hc
    by_cases hpg : p = g
    · subst hpg; exact .child h2 h3 .self
    · rcases hP.cases p with ⟨h1, _⟩ | ⟨l, q, h1, _⟩
      · exfalso; apply hc; rw [h1]; exact baseParent_other _ _ _ hpg
      · exact .child h2 h3 ((hinh p).1 ⟨_, h1⟩)
  · intro i ha hi hr hin
    exact hP.lgr i ha hi ((hreg _).1 hr) ((hinh _).2 hin)
  · intro i hni
    apply hP.lgr_kept i
    rintro ⟨h1, h2, h3, h4⟩
    exact hni ⟨h1, h2, (hreg _).2 h3, (hinh _).1 h4⟩
  · exact hP.rest

/-- links, names and marks after re-parenting -/
theorem ParentSet.shape {g : Nat} {parent : Option Nat} {s s' : Sys} (hp : ParentSet g parent s s') (x : Nat) :
    (s'.grp x).name = (s.grp x).name ∧ (s'.grp x).levelOv = (s.grp x).levelOv ∧ (s'.grp x).sinkOv = (s.grp x).sinkOv ∧
    (s'.grp x).parent = relink s.grp g parent x ∧
    ((s.grp x).levelOv = true → (s'.grp x).level = (s.grp x).level) ∧
    ((s.grp x).sinkOv = true → (s'.grp x).sink = (s.grp x).sink) := by
  by_cases hx : x = g
  · subst hx
    rw [hp.self]
    unfold reparented relink inherit
    cases parent with
    | none => simp
    | some p => simp +contextual
  · rcases hp.other x hx with h | ⟨_, p, h1, h2⟩
    · rw [h]; simp
    · rw [h2, h1]; unfold inherit; simp +contextual

end System
end Soralog
