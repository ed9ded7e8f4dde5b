import Verif.Proofs.SystemCalls
/-!
# Transitions of the logging system and its invariants
-/
namespace Soralog
namespace System

/-! ### the calls, inverted -/

/-- the logger `getLogger` creates -/
def mkLogger (s : Sys) (name : Text) (g : Nat) (sink : Option Text) (level : Option Level) : Logger :=
  let l := Logger.new s.grp name g
  let l := match sink with
    | some kn => (match getSink kn s with | some k => l.setSink k | none => l)
    | none => l
  match level with | some v => l.setLevel v | none => l

/-- the state after `getLogger` created a logger -/
def created (s : Sys) (name : Text) (g : Nat) (sink : Option Text) (level : Option Level) (ws : List Warning) : Sys :=
  { s with nloggers := s.nloggers + 1, lgr := upd s.lgr s.nloggers (mkLogger s name g sink level),
           alive := upd s.alive s.nloggers true, loggers := s.loggers.put name s.nloggers, warned := ws }

/-- the live logger registered under a name -/
def Sys.liveLogger (s : Sys) (name : Text) : Option Nat :=
  match s.loggers.find name with
  | some i => if s.alive i then some i else none
  | none => none

theorem liveLogger_eq {s : Sys} {name : Text} {i : Nat} :
    s.liveLogger name = some i ↔ s.loggers.find name = some i ∧ s.alive i = true := by
  unfold Sys.liveLogger
  cases s.loggers.find name with
  | none => simp
  | some j =>
    simp only
    split
    · constructor
      · intro h; cases h; exact ⟨rfl, by assumption⟩
      · intro h; cases h.1; rfl
    · constructor
      · intro h; cases h
      · intro h; cases h.1; exact absurd h.2 (by assumption)

theorem warnThrough_spec {g : Nat} {w : Nat → Warning} {s s' : Sys} (h : warnThrough g w s = some s') :
    ∃ ws, s' = { s with warned := ws } ∧ (ws = s.warned ∨ ∃ k, (s.grp g).sink = some k ∧ ws = s.warned ++ [w k]) := by
  unfold warnThrough at h
  simp only at h
  split at h
  · have hk : (Logger.new s.grp ['S', 'o', 'r', 'a', 'l', 'o', 'g'] g).sink = (s.grp g).sink := by
      unfold Logger.new Logger.setSinkFromGroup Logger.setLevelFromGroup
      cases (s.grp g).sink <;> rfl
    rw [hk] at h
    rw [Option.map_eq_some_iff] at h
    obtain ⟨k, h1, h2⟩ := h
    exact ⟨_, h2.symm, .inr ⟨k, h1, rfl⟩⟩
  · cases h
    exact ⟨_, rfl, .inl rfl⟩

theorem getLogger_ret {name group : Text} {sink : Option Text} {level : Option Level} {s s' : Sys} {i : Nat}
    (h : getLogger name group sink level s = .ret i s') :
    s.configured = true ∧
    ((s.liveLogger name = some i ∧ s' = s) ∨
     (s.liveLogger name = none ∧ i = s.nloggers ∧ ∃ g ws,
       (s.groups.find group = some g ∨ (s.groups.find group = none ∧ s.groups.find star = some g)) ∧
       s' = created s name g sink level ws)) := by
  unfold getLogger at h
  split at h
  · cases h
  rename_i hc
  have hc : s.configured = true := by simpa using hc
  refine ⟨hc, ?_⟩
  change (match s.liveLogger name with | some i => _ | none => _) = _ at h
  cases hl : s.liveLogger name with
  | some j =>
    rw [hl] at h
    cases h
    exact .inl ⟨rfl, rfl⟩
  | none =>
    rw [hl] at h
    simp only at h
    split at h
    · cases h
    have hw1 : ∀ s1, (if group = star then (getFallbackGroup s).bind fun f => warnThrough f (fun k => .deprecated k) s
        else some s) = some s1 → ∃ ws, s1 = { s with warned := ws } := by
      intro s1 h1
      split at h1
      · rw [Option.bind_eq_some_iff] at h1
        obtain ⟨f, _, h2⟩ := h1
        obtain ⟨ws, h3, _⟩ := warnThrough_spec h2
        exact ⟨ws, h3⟩
      · cases h1; exact ⟨_, rfl⟩
    generalize hq : (if group = star then (getFallbackGroup s).bind fun f => warnThrough f (fun k => .deprecated k) s
        else some s) = q at h hw1
    cases q with
    | none => cases h
    | some s1 =>
      obtain ⟨ws, rfl⟩ := hw1 s1 rfl
      simp only [getGroup, getFallbackGroup] at h
      cases hg : s.groups.find group with
      | some g =>
        rw [hg] at h
        simp only [Res.ret.injEq] at h
        refine .inr ⟨rfl, h.1.symm, g, ws, .inl rfl, ?_⟩
        rw [← h.2]; rfl
      | none =>
        rw [hg] at h
        simp only at h
        cases hf : s.groups.find star with
        | none => rw [hf] at h; simp at h
        | some f =>
          rw [hf] at h
          simp only [Option.bind_some] at h
          generalize hw2 : warnThrough f _ _ = w2 at h
          cases w2 with
          | none => cases h
          | some s2 =>
            obtain ⟨ws2, rfl, _⟩ := warnThrough_spec hw2
            simp only [Option.map_some, Res.ret.injEq] at h
            refine .inr ⟨rfl, h.1.symm, f, ws2, .inr ⟨rfl, rfl⟩, ?_⟩
            rw [← h.2]; rfl

theorem getLogger_throw {name group : Text} {sink : Option Text} {level : Option Level} {s s' : Sys}
    (h : getLogger name group sink level s = .throw s') : s' = s := by
  unfold getLogger at h
  split at h
  · cases h; rfl
  change (match s.liveLogger name with | some i => _ | none => _) = _ at h
  cases hl : s.liveLogger name with
  | some j => rw [hl] at h; cases h
  | none =>
    rw [hl] at h
    simp only at h
    split at h
    · cases h; rfl
    · split at h
      · cases h
      · split at h <;> cases h

theorem onLogger_ret {name : Text} {erases : Bool} {up : Logger → Logger} {s s' : Sys} {b : Bool}
    (h : onLogger name erases up s = .ret b s') :
    (b = true ∧ ∃ i, s.loggers.find name = some i ∧ s.alive i = true ∧ s' = { s with lgr := upd s.lgr i (up (s.lgr i)) }) ∨
    (b = false ∧ (s' = s ∨ ∃ i, s.loggers.find name = some i ∧ s.alive i = false ∧ s' = { s with loggers := s.loggers.erase name })) := by
  unfold onLogger at h
  split at h
  · cases h; exact .inr ⟨rfl, .inl rfl⟩
  · rename_i i hi
    split at h
    · rename_i ha
      cases h
      exact .inl ⟨rfl, i, hi, ha, rfl⟩
    · rename_i ha
      simp only [Res.ret.injEq] at h
      obtain ⟨rfl, rfl⟩ := h
      refine .inr ⟨rfl, ?_⟩
      split
      · exact .inr ⟨i, hi, by simpa using ha, rfl⟩
      · exact .inl rfl

/-- `onLogger` neither throws nor fails -/
theorem onLogger_total (name : Text) (erases : Bool) (up : Logger → Logger) (s : Sys) :
    ∃ b s', onLogger name erases up s = .ret b s' := by
  unfold onLogger
  split
  · exact ⟨_, _, rfl⟩
  · split <;> exact ⟨_, _, rfl⟩

/-- the group `makeGroup` creates -/
def newGroup (s : Sys) (name : Text) (parent : Option Nat) (sink : Option Nat) (level : Option Level) : Group :=
  { name, parent,
    sink := if sink.isSome then sink else parent.bind fun p => (s.grp p).sink,
    sinkOv := parent.isSome && sink.isSome,
    level := match level, parent with | some l, _ => l | none, some p => (s.grp p).level | none, none => .off,
    levelOv := parent.isSome && level.isSome }

/-- an optional name that, if given, must be known -/
def resolve (t : Table) : Option Text → Option (Option Nat)
  | none => some none
  | some k => (t.find k).map some

theorem upd_upd {α β : Type} [DecidableEq α] (f : α → β) (a : α) (b c : β) : upd (upd f a b) a c = upd f a c := by
  funext x
  by_cases hx : x = a
  · subst hx; simp
  · rw [upd_other _ _ hx, upd_other _ _ hx, upd_other _ _ hx]

/-- `makeGroup` in closed form (for a fresh object: no registered group is the new one) -/
theorem makeGroup_eq {name : Text} {parent sink : Option Text} {level : Option Level} {s : Sys}
    (hlt : ∀ k g, s.groups.find k = some g → g < s.ngroups) :
    makeGroup name parent sink level s =
      match resolve s.groups parent, resolve s.sinks sink, (parent.isSome || level.isSome) with
      | some p, some k, true =>
        .ret s.ngroups { s with
          ngroups := s.ngroups + 1, grp := upd s.grp s.ngroups (newGroup s name p k level),
          groups := (if (s.groups.find star).isNone then s.groups.put star s.ngroups else s.groups).put name s.ngroups }
      | _, _, _ => .throw s := by
  unfold makeGroup resolve
  have hgen : ∀ (p : Option Nat) (h1 : Nat → Group), (∀ q, p = some q → q < s.ngroups) →
      h1 = upd s.grp s.ngroups ⟨name, p, p.bind fun q => (s.grp q).sink, false,
        (match p with | some q => (s.grp q).level | none => .off), false⟩ →
      (match (match sink with
        | none => some h1
        | some kn => (s.sinks.find kn).map fun k => setSink h1 s.ngroups k) with
      | none => Res.throw s
      | some h2 =>
        match (match level with
          | some l => some (setLevel h2 s.ngroups l)
          | none => if (h2 s.ngroups).parent.isSome then some h2 else none) with
        | none => .throw s
        | some h3 =>
          let tab := if (s.groups.find star).isNone then s.groups.put star s.ngroups else s.groups
          .ret s.ngroups { s with ngroups := s.ngroups + 1, grp := h3, groups := tab.put name s.ngroups }) =
      match (match sink with
          | none => some none
          | some kn => (s.sinks.find kn).map some), (p.isSome || level.isSome) with
      | some k, true =>
        .ret s.ngroups { s with
          ngroups := s.ngroups + 1, grp := upd s.grp s.ngroups (newGroup s name p k level),
          groups := (if (s.groups.find star).isNone then s.groups.put star s.ngroups else s.groups).put name s.ngroups }
      | _, _ => .throw s := by
    intro p h1 hp heq
    subst heq
    cases sink with
    | none =>
      cases level with
      | none =>
        cases p with
        | none => simp
        | some q => simp [newGroup]
      | some l =>
        cases p with
        | none => simp [setLevel, newGroup, upd_upd]
        | some q => simp [setLevel, newGroup, upd_upd]
    | some kn =>
      cases hk : s.sinks.find kn with
      | none => simp [hk]
      | some k =>
        cases level with
        | none =>
          cases p with
          | none => simp [hk, setSink]
          | some q => simp [hk, setSink, newGroup, upd_upd]
        | some l =>
          cases p with
          | none => simp [hk, setSink, setLevel, newGroup, upd_upd]
          | some q => simp [hk, setSink, setLevel, newGroup, upd_upd]
  cases parent with
  | none =>
    refine (hgen none _ (by simp) rfl).trans ?_
    cases sink with
    | none => cases level <;> rfl
    | some kn => cases hk : s.sinks.find kn <;> cases level <;> simp [hk]
  | some pn =>
    cases hp : s.groups.find pn with
    | none => simp [hp]
    | some p =>
      simp only [hp, Option.map_some]
      have hlt' := hlt pn p hp
      refine (hgen (some p) _ (by simpa using hlt') ?_).trans ?_
      rotate_left
      · cases sink with
        | none => cases level <;> rfl
        | some kn => cases hk : s.sinks.find kn <;> cases level <;> simp [hk]
      · rw [setParentGroup_eq]
        have hne : p ≠ s.ngroups := Nat.ne_of_lt hlt'
        simp only [upd_same, upd_upd, upd_other _ _ hne]
        rfl

/-! ### transitions -/

/-- restrictions on re-parenting (child, parent), on creating groups (parent, sink), on setting the fallback group and on configuring -/
structure Allow where
  reparent : Nat → Nat → Prop
  group : Option Nat → Option Nat → Prop
  fallback : Prop
  conf : Prop

/-- no restrictions -/
def Allow.all : Allow := ⟨fun _ _ => True, fun _ _ => True, True, True⟩

inductive Trans (A : Allow) : Sys → Sys → Prop
  | refl (s : Sys) : Trans A s s
  | configured (s : Sys) (hA : A.conf) : Trans A s { s with configured := true }
  | erase (s : Sys) (k : Text) (i : Nat) (hk : s.loggers.find k = some i) (hd : s.alive i = false) :
      Trans A s { s with loggers := s.loggers.erase k }
  | sink (s : Sys) (name : Text) :
      Trans A s { s with nsinks := s.nsinks + 1, sinkName := upd s.sinkName s.nsinks name, sinks := s.sinks.put name s.nsinks }
  | group (s : Sys) (name : Text) (parent sink : Option Text) (level : Option Level) (p k : Option Nat)
      (hp : resolve s.groups parent = some p) (hk : resolve s.sinks sink = some k)
      (hl : (parent.isSome || level.isSome) = true) (hA : A.group p k) :
      Trans A s { s with
          ngroups := s.ngroups + 1, grp := upd s.grp s.ngroups (newGroup s name p k level),
          groups := (if (s.groups.find star).isNone then s.groups.put star s.ngroups else s.groups).put name s.ngroups }
  | fallback (s : Sys) (name : Text) (g : Nat) (hg : s.groups.find name = some g) (hA : A.fallback) :
      Trans A s { s with groups := s.groups.put star g }
  | create (s : Sys) (name : Text) (g : Nat) (sink : Option Text) (level : Option Level) (ws : List Warning)
      (hd : s.liveLogger name = none) (hg : s.registered g) : Trans A s (created s name g sink level ws)
  | logger (s : Sys) (i : Nat) (m : Method) (hi : i < s.nloggers) (ha : s.alive i = true) (hv : m.valid s) :
      Trans A s { s with lgr := upd s.lgr i ((s.lgr i).call s.grp m) }
  | drop (s : Sys) (i : Nat) : Trans A s { s with alive := upd s.alive i false }
  | level (s s' : Sys) (g : Nat) (l : Option Level) (hg : s.registered g) (h : LevelSet g l s s') : Trans A s s'
  | sinkOf (s s' : Sys) (g : Nat) (k : Option Nat) (hg : s.registered g) (hk : ∀ k', k = some k' → k' < s.nsinks)
      (h : SinkSet g k s s') : Trans A s s'
  | parentOf (s s' : Sys) (g : Nat) (p : Option Nat) (hg : s.registered g) (hp : ∀ p', p = some p' → s.registered p')
      (hA : ∀ p', p = some p' → A.reparent g p')
      (hw : ∀ p', p = some p' → (s.grp p').parent = some g ∨
        ∃ fuel, walk s.grp g fuel (s.grp p').parent = some false)
      (h : ParentSet g p s s') : Trans A s s'

/-! ### well-formedness -/

structure WF (s : Sys) : Prop where
  ord : ∀ l, (s.ord l).Perm l
  gU : s.groups.Unique
  lU : s.loggers.Unique
  kU : s.sinks.Unique
  gLt : ∀ k g, s.groups.find k = some g → g < s.ngroups
  gName : ∀ k g, s.groups.find k = some g → k = star ∨ (s.grp g).name = k
  kLt : ∀ n k, s.sinks.find n = some k → k < s.nsinks ∧ s.sinkName k = n
  lLt : ∀ n i, s.loggers.find n = some i → i < s.nloggers ∧ (s.lgr i).name = n
  live : ∀ i, s.alive i = true → i < s.nloggers ∧ s.loggers.find (s.lgr i).name = some i
  pLt : ∀ x p, x < s.ngroups → (s.grp x).parent = some p → p < s.ngroups
  gsLt : ∀ x k, x < s.ngroups → (s.grp x).sink = some k → k < s.nsinks
  lgLt : ∀ i, i < s.nloggers → (s.lgr i).group < s.ngroups
  lsLt : ∀ i k, i < s.nloggers → (s.lgr i).sink = some k → k < s.nsinks

theorem WF.regLt {s : Sys} (hw : WF s) {g : Nat} (hg : s.registered g) : g < s.ngroups :=
  let ⟨k, hk⟩ := hg; hw.gLt k g hk

theorem WF.live_mem {s : Sys} (hw : WF s) {i : Nat} (ha : s.alive i = true) : i ∈ s.loggers.map (·.2) :=
  (Table.mem_values hw.lU).2 ⟨_, (hw.live i ha).2⟩

/-- what a logger call can change -/
theorem call_shape (l : Logger) (h : Nat → Group) (m : Method) :
    (l.call h m).name = l.name ∧
    ((l.call h m).group = l.group ∨ ∃ g, m = .setGroup g ∧ (l.call h m).group = g) ∧
    ∀ k, (l.call h m).sink = some k → l.sink = some k ∨ m = .setSink k ∨
      (∃ g, (m = .setGroup g ∨ m = .setSinkFromGroup g) ∧ (h g).sink = some k) ∨ (h l.group).sink = some k := by
  cases m with
  | setLevel v => exact ⟨rfl, .inl rfl, fun k hk => .inl hk⟩
  | resetLevel => exact ⟨rfl, .inl rfl, fun k hk => .inl hk⟩
  | setLevelFromGroup g => exact ⟨rfl, .inl rfl, fun k hk => .inl hk⟩
  | setSink k => exact ⟨rfl, .inl rfl, fun k' hk => .inr (.inl (by cases hk; rfl))⟩
  | resetSink => exact ⟨rfl, .inl rfl, fun k' hk => .inr (.inr (.inr hk))⟩
  | setSinkFromGroup g =>
    unfold Logger.call Logger.setSinkFromGroup
    simp only
    split
    · rename_i k0 hk0
      exact ⟨rfl, .inl rfl, fun k' hk => .inr (.inr (.inl ⟨g, .inr rfl, by cases hk; exact hk0⟩))⟩
    · exact ⟨rfl, .inl rfl, fun k' hk => .inl hk⟩
  | setGroup g =>
    unfold Logger.call Logger.setGroup Logger.setSinkFromGroup Logger.setLevelFromGroup
    simp only
    refine ⟨?_, .inr ⟨g, rfl, ?_⟩, ?_⟩
    · cases (h g).sink <;> simp only <;> (repeat' split) <;> rfl
    · cases (h g).sink <;> simp only <;> (repeat' split) <;> rfl
    · intro k
      cases hs : (h g).sink with
      | none =>
        simp only
        (repeat' split) <;> exact fun hk => .inl hk
      | some k0 =>
        intro hk
        have : l.sink = some k ∨ k0 = k := by
          revert hk
          simp only
          (repeat' split) <;> simp +contextual
        rcases this with h1 | rfl
        · exact .inl h1
        · exact .inr (.inr (.inl ⟨g, .inl rfl, hs⟩))

theorem mkLogger_name (s : Sys) (name : Text) (g : Nat) (sink : Option Text) (level : Option Level) :
    (mkLogger s name g sink level).name = name ∧ (mkLogger s name g sink level).group = g ∧
    ∀ k, (mkLogger s name g sink level).sink = some k →
      (s.grp g).sink = some k ∨ ∃ kn, sink = some kn ∧ s.sinks.find kn = some k := by
  have h0 : (Logger.new s.grp name g).name = name ∧ (Logger.new s.grp name g).group = g ∧
      (Logger.new s.grp name g).sink = (s.grp g).sink := by
    unfold Logger.new Logger.setSinkFromGroup Logger.setLevelFromGroup
    cases (s.grp g).sink <;> exact ⟨rfl, rfl, rfl⟩
  have h1 : ∀ l : Logger, (match level with | some v => l.setLevel v | none => l).name = l.name ∧
      (match level with | some v => l.setLevel v | none => l).group = l.group ∧
      (match level with | some v => l.setLevel v | none => l).sink = l.sink := by
    intro l; cases level <;> exact ⟨rfl, rfl, rfl⟩
  unfold mkLogger
  simp only
  obtain ⟨a, b, c⟩ := h1 (match sink with
    | some kn => (match getSink kn s with
      | some k => (Logger.new s.grp name g).setSink k
      | none => Logger.new s.grp name g)
    | none => Logger.new s.grp name g)
  rw [a, b, c]
  cases sink with
  | none => exact ⟨h0.1, h0.2.1, fun k hk => .inl (by rw [← h0.2.2]; exact hk)⟩
  | some kn =>
    simp only [getSink]
    cases hk : s.sinks.find kn with
    | none => exact ⟨h0.1, h0.2.1, fun k hk => .inl (by rw [← h0.2.2]; exact hk)⟩
    | some k0 =>
      refine ⟨h0.1, h0.2.1, fun k hk' => .inr ⟨kn, rfl, ?_⟩⟩
      cases hk'; exact hk

/-- the registered groups after a table changed -/
theorem put_find {t : Table} {k k' : Text} {v w : Nat} (h : (t.put k v).find k' = some w) :
    (k' = k ∧ w = v) ∨ t.find k' = some w := by
  rw [Table.find_put] at h
  split at h
  · rename_i hk; cases h; exact .inl ⟨hk, rfl⟩
  · exact .inr h

end System
end Soralog
