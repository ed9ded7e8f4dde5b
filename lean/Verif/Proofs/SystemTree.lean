import Verif.Proofs.SystemReach
/-!
# The hierarchy: chains of parents end; calls terminate
-/
namespace Soralog
namespace System

open Hierarchy

/-- going up `n` times from `x` one arrives at a group without parent, or at one that is its own parent -/
inductive Ends (parent : Nat → Option Nat) : Nat → Nat → Prop
  | root {x : Nat} (hp : parent x = none) : Ends parent x 0
  | loop {x : Nat} (hp : parent x = some x) : Ends parent x 0
  | up {x p n : Nat} (hp : parent x = some p) (hne : p ≠ x) (h : Ends parent p n) : Ends parent x (n + 1)

theorem Ends.det {parent : Nat → Option Nat} {x n m : Nat} (a : Ends parent x n) (b : Ends parent x m) : n = m := by
  induction a generalizing m with
  | root hp =>
    cases b with
    | root _ => rfl
    | loop _ => rfl
    | up hp' _ _ => rw [hp] at hp'; cases hp'
  | loop hp =>
    cases b with
    | root _ => rfl
    | loop _ => rfl
    | up hp' hne _ => rw [hp] at hp'; cases hp'; exact absurd rfl hne
  | up hp hne _ ih =>
    cases b with
    | root hp' => rw [hp] at hp'; cases hp'
    | loop hp' => rw [hp] at hp'; cases hp'; exact absurd rfl hne
    | up hp' _ h' => rw [hp] at hp'; cases hp'; rw [ih h']

/-- the groups of a chain are different -/
theorem Ends.chain {parent : Nat → Option Nat} {N : Nat} (hclosed : ∀ x p, x < N → parent x = some p → p < N)
    {x n : Nat} (h : Ends parent x n) (hx : x < N) :
    ∃ l : List Nat, l.length = n + 1 ∧ l.Nodup ∧ (∀ y ∈ l, y < N) ∧ ∀ y ∈ l, ∃ m, m ≤ n ∧ Ends parent y m := by
  induction h with
  | @root x hp => exact ⟨[x], rfl, by simp, by simpa using hx, fun y hy => ⟨0, Nat.le_refl _, by simp at hy; subst hy; exact .root hp⟩⟩
  | @loop x hp => exact ⟨[x], rfl, by simp, by simpa using hx, fun y hy => ⟨0, Nat.le_refl _, by simp at hy; subst hy; exact .loop hp⟩⟩
  | @up x p n hp hne h ih =>
    obtain ⟨l, l1, l2, l3, l4⟩ := ih (hclosed x p hx hp)
    refine ⟨x :: l, by simp [l1], ?_, ?_, ?_⟩
    · rw [List.nodup_cons]
      refine ⟨?_, l2⟩
      intro hc
      obtain ⟨m, hm, he⟩ := l4 x hc
      have := he.det (.up hp hne h)
      omega
    · intro y hy
      rcases List.mem_cons.1 hy with rfl | hy
      · exact hx
      · exact l3 y hy
    · intro y hy
      rcases List.mem_cons.1 hy with rfl | hy
      · exact ⟨_, Nat.le_refl _, .up hp hne h⟩
      · obtain ⟨m, hm, he⟩ := l4 y hy
        exact ⟨m, by omega, he⟩

theorem nodup_bound {l : List Nat} {N : Nat} (hn : l.Nodup) (hl : ∀ y ∈ l, y < N) : l.length ≤ N := by
  induction N generalizing l with
  | zero =>
    cases l with
    | nil => simp
    | cons x l => exact absurd (hl x (by simp)) (by omega)
  | succ N ih =>
    have h1 := ih (l := l.erase N) (hn.erase N) (by
      intro y hy
      have h2 := hl y (List.mem_of_mem_erase hy)
      have h3 : y ≠ N := by
        rintro rfl
        exact (hn.not_mem_erase) hy
      omega)
    have h2 : l.length ≤ (l.erase N).length + 1 := by
      by_cases hm : N ∈ l
      · rw [List.length_erase_of_mem hm]; omega
      · rw [List.erase_of_not_mem hm]; omega
    omega

/-- a chain is not longer than the number of groups -/
theorem Ends.bound {parent : Nat → Option Nat} {N : Nat} (hclosed : ∀ x p, x < N → parent x = some p → p < N)
    {x n : Nat} (h : Ends parent x n) (hx : x < N) : n < N := by
  obtain ⟨l, l1, l2, l3, _⟩ := h.chain hclosed hx
  have := nodup_bound l2 l3
  omega

/-- all chains of allocated groups end -/
def AllEnd (s : Sys) : Prop := ∀ x, x < s.ngroups → ∃ n, Ends s.parent x n

theorem ends_congr {parent parent' : Nat → Option Nat} {N : Nat} (hclosed : ∀ x p, x < N → parent x = some p → p < N)
    (heq : ∀ x, x < N → parent' x = parent x) {x n : Nat} (h : Ends parent x n) (hx : x < N) : Ends parent' x n := by
  induction h with
  | root hp => exact .root (by rw [heq _ hx]; exact hp)
  | loop hp => exact .loop (by rw [heq _ hx]; exact hp)
  | up hp hne _ ih => exact .up (by rw [heq _ hx]; exact hp) hne (ih (hclosed _ _ hx hp))

theorem walk_false_ends {h : Nat → Group} {g p : Nat} {fuel : Nat} {y : Nat} (hy : y ≠ g)
    (hw : walk h g fuel (h y).parent = some false) : ∃ n, Ends (relink h g (some p)) y n := by
  induction fuel generalizing y with
  | zero =>
    cases hp : (h y).parent with
    | none =>
      refine ⟨0, .root ?_⟩
      unfold relink
      rw [if_neg hy, hp]; simp
    | some c => rw [hp] at hw; simp [walk] at hw
  | succ fuel ih =>
    cases hp : (h y).parent with
    | none =>
      refine ⟨0, .root ?_⟩
      unfold relink
      rw [if_neg hy, hp]; simp
    | some c =>
      rw [hp] at hw
      unfold walk at hw
      split at hw
      · cases hw
      · rename_i hc
        have hr : relink h g (some p) y = some c := by
          unfold relink
          rw [if_neg hy, if_neg, hp]
          rintro ⟨_, h2⟩
          rw [hp] at h2; cases h2
          exact hc rfl
        by_cases hcy : c = y
        · subst hcy; exact ⟨0, .loop hr⟩
        · obtain ⟨n, hn⟩ := ih hc hw
          exact ⟨n + 1, .up hr hcy hn⟩

/-- re-parenting keeps all chains finite -/
theorem relink_ends {h : Nat → Group} {g : Nat} {pp : Option Nat}
    (hw : ∀ p, pp = some p → (h p).parent = some g ∨ ∃ fuel, walk h g fuel (h p).parent = some false)
    {x n : Nat} (he : Ends (fun y => (h y).parent) x n) : ∃ m, Ends (relink h g pp) x m := by
  have hg : ∃ m, Ends (relink h g pp) g m := by
    have hrg : relink h g pp g = pp := by unfold relink; rw [if_pos rfl]
    cases pp with
    | none => exact ⟨0, .root hrg⟩
    | some p =>
      by_cases hpg : p = g
      · subst hpg; exact ⟨0, .loop hrg⟩
      · rcases hw p rfl with hc | ⟨fuel, hc⟩
        · have hrp : relink h g (some p) p = none := by
            unfold relink
            rw [if_neg hpg, if_pos ⟨rfl, hc⟩]
          exact ⟨1, .up hrg hpg (.root hrp)⟩
        · obtain ⟨n, hn⟩ := walk_false_ends (p := p) hpg hc
          exact ⟨n + 1, .up hrg hpg hn⟩
  have hstep : ∀ y, y ≠ g → relink h g pp y = none ∨ relink h g pp y = (h y).parent := by
    intro y hy
    unfold relink
    rw [if_neg hy]
    split
    · exact .inl rfl
    · exact .inr rfl
  induction he with
  | @root y hp =>
    by_cases hy : y = g
    · subst hy; exact hg
    · rcases hstep y hy with h1 | h1
      · exact ⟨0, .root h1⟩
      · exact ⟨0, .root (by rw [h1]; exact hp)⟩
  | @loop y hp =>
    by_cases hy : y = g
    · subst hy; exact hg
    · rcases hstep y hy with h1 | h1
      · exact ⟨0, .root h1⟩
      · exact ⟨0, .loop (by rw [h1]; exact hp)⟩
  | @up y p n hp hne _ ih =>
    by_cases hy : y = g
    · subst hy; exact hg
    · rcases hstep y hy with h1 | h1
      · exact ⟨0, .root h1⟩
      · obtain ⟨m, hm⟩ := ih
        exact ⟨m + 1, .up (by rw [h1]; exact hp) hne hm⟩

/-- the parents after a transition -/
theorem trans_parent {A : Allow} {s s' : Sys} (hw : WF s) (ht : Trans A s s') :
    (s'.ngroups = s.ngroups ∧ (∀ x, s'.parent x = s.parent x)) ∨
    (s'.ngroups = s.ngroups + 1 ∧ (∀ x, x ≠ s.ngroups → s'.parent x = s.parent x) ∧
      ∀ p, s'.parent s.ngroups = some p → p < s.ngroups) ∨
    (∃ g pp, s'.ngroups = s.ngroups ∧ s.registered g ∧ (∀ p, pp = some p → s.registered p) ∧
      (∀ p, pp = some p → A.reparent g p) ∧
      (∀ p, pp = some p → (s.grp p).parent = some g ∨ ∃ fuel, walk s.grp g fuel (s.grp p).parent = some false) ∧
      ∀ x, s'.parent x = relink s.grp g pp x) := by
  cases ht with
  | refl => exact .inl ⟨rfl, fun _ => rfl⟩
  | configured => exact .inl ⟨rfl, fun _ => rfl⟩
  | erase k i hk hd => exact .inl ⟨rfl, fun _ => rfl⟩
  | sink name => exact .inl ⟨rfl, fun _ => rfl⟩
  | group name parent sink level p k hp hk hl hA =>
    refine .inr (.inl ⟨rfl, ?_, ?_⟩)
    · intro x hx
      show (upd s.grp s.ngroups (newGroup s name p k level) x).parent = _
      rw [upd_other _ _ hx]; rfl
    · intro q hq
      have hq : (upd s.grp s.ngroups (newGroup s name p k level) s.ngroups).parent = some q := hq
      rw [upd_same] at hq
      have hq : p = some q := hq
      obtain ⟨kn, _, h⟩ := resolve_registered hp hq
      exact hw.gLt _ _ h
  | fallback name g hg _ => exact .inl ⟨rfl, fun _ => rfl⟩
  | create name g sink level ws hd hg => exact .inl ⟨rfl, fun _ => rfl⟩
  | logger i m hi ha hv => exact .inl ⟨rfl, fun _ => rfl⟩
  | drop i => exact .inl ⟨rfl, fun _ => rfl⟩
  | level _ g l hg h => exact .inl ⟨by rw [h.rest], fun x => (h.shape x).2.1⟩
  | sinkOf _ g k hg hk h => exact .inl ⟨by rw [h.rest], fun x => (h.shape x).2.1⟩
  | parentOf _ g p hg hp hA hwalk h =>
    exact .inr (.inr ⟨g, p, by rw [h.rest], hg, hp, hA, hwalk, fun x => (h.shape x).2.2.2.1⟩)

theorem trans_allEnd {A : Allow} {s s' : Sys} (hw : WF s) (he : AllEnd s) (ht : Trans A s s') : AllEnd s' := by
  have hclosed : ∀ x p, x < s.ngroups → s.parent x = some p → p < s.ngroups := fun x p hx hp => hw.pLt x p hx hp
  intro x hx
  rcases trans_parent hw ht with ⟨h1, h2⟩ | ⟨h1, h2, h3⟩ | ⟨g, pp, h1, hg, hp, _, hwalk, h2⟩
  · rw [h1] at hx
    obtain ⟨n, hn⟩ := he x hx
    exact ⟨n, ends_congr hclosed (fun y _ => h2 y) hn hx⟩
  · rw [h1] at hx
    rcases Nat.lt_or_eq_of_le (Nat.le_of_lt_succ hx) with hx | hx
    · obtain ⟨n, hn⟩ := he x hx
      exact ⟨n, ends_congr hclosed (fun y hy => h2 y (Nat.ne_of_lt hy)) hn hx⟩
    · subst hx
      cases hq : s'.parent s.ngroups with
      | none => exact ⟨0, .root hq⟩
      | some q =>
        have hlt := h3 q hq
        obtain ⟨n, hn⟩ := he q hlt
        exact ⟨n + 1, .up hq (Nat.ne_of_lt hlt) (ends_congr hclosed (fun y hy => h2 y (Nat.ne_of_lt hy)) hn hlt)⟩
  · rw [h1] at hx
    obtain ⟨n, hn⟩ := he x hx
    obtain ⟨m, hm⟩ := relink_ends (g := g) (pp := pp) hwalk hn
    have : s'.parent = relink s.grp g pp := funext h2
    exact ⟨m, by rw [this]; exact hm⟩

theorem ReachBy.allEnd {ok : Sys → Op → Prop} {s : Sys} (h : ReachBy ok s) : AllEnd s :=
  h.invariant (P := AllEnd) (fun debug ord x hx => by simp [new] at hx) (fun _ _ hw hf ht => trans_allEnd hw hf ht)

/-- the only cycles are groups that are their own parents -/
theorem ends_cycle {parent : Nat → Option Nat} {x n : Nat} (he : Ends parent x n) (hc : Ancestor parent x x) :
    parent x = some x := by
  induction he with
  | root hp =>
    cases hc with
    | parent h => rw [hp] at h; cases h
    | above h _ => rw [hp] at h; cases h
  | loop hp => exact hp
  | @up x p n hp hne h ih =>
    have hxp : Ancestor parent x p := by
      cases hc with
      | parent h => rw [hp] at h; cases h; exact absurd rfl hne
      | above h h2 => rw [hp] at h; cases h; exact h2
    -- p is its own ancestor as well
    have hpp : Ancestor parent p p := by
      have key : ∀ y, Ancestor parent x y → Ancestor parent p y := by
        intro y hy
        induction hy with
        | parent h => exact .above h (.parent hp)
        | above h _ ih => exact .above h ih
      exact key p hxp
    have hself := ih hpp
    -- all ancestors of p are p
    have : ∀ y, Ancestor parent x y → y = p → x = p := by
      intro y hy
      induction hy with
      | parent h' => rintro rfl; rw [hself] at h'; cases h'; rfl
      | above h' _ ih' => rintro rfl; rw [hself] at h'; cases h'; exact ih' rfl
    exact absurd (this p hxp rfl).symm hne

/-! ### termination -/

/-- The visit and the walk end if chains do and no group but (perhaps) `g` is its own parent. -/
theorem visit_ends {h : Nat → Group} {stop : Group → Bool} {g : Nat} {passed : Nat → Option (Option Nat)}
    (hself : ∀ x, x ≠ g → (h x).parent ≠ some x) {x n : Nat} (he : Ends (fun y => (h y).parent) x n) (fuel : Nat) (hf : n < fuel) (st : Stages) :
    visit h stop g passed fuel x st ≠ none := by
  induction he generalizing fuel with
  | @root y hp =>
    cases fuel with
    | zero => omega
    | succ fuel =>
      unfold visit
      split
      · simp
      · split
        · simp
        · split
          · simp
          · rw [hp]; simp
  | @loop y hp =>
    cases fuel with
    | zero => omega
    | succ fuel =>
      unfold visit
      split
      · simp
      · split
        · simp
        · rename_i hne
          exact absurd hp (hself y hne)
  | @up y p n hp hne _ ih =>
    cases fuel with
    | zero => omega
    | succ fuel =>
      unfold visit
      split
      · simp
      · split
        · simp
        · split
          · simp
          · rw [hp]
            simp only
            have := ih fuel (by omega)
            split
            · rename_i hv; exact absurd hv this
            · simp
            · simp

theorem visitAll_ends {h : Nat → Group} {stop : Group → Bool} {g fuel : Nat}
    (hself : ∀ x, x ≠ g → (h x).parent ≠ some x) (rs : List Nat)
    (he : ∀ x ∈ rs, ∃ n, n < fuel ∧ Ends (fun y => (h y).parent) x n) (passed : Nat → Option (Option Nat)) (st : Stages) :
    visitAll h stop g fuel rs passed st ≠ none := by
  induction rs generalizing passed st with
  | nil => simp [visitAll]
  | cons r rs ih =>
    unfold visitAll
    obtain ⟨n, hn, hr⟩ := he r (by simp)
    have := visit_ends (stop := stop) (passed := passed) hself hr fuel hn st
    split
    · rename_i hv; exact absurd hv this
    · exact ih (fun x hx => he x (List.mem_cons_of_mem _ hx)) _ _

theorem walk_ends {h : Nat → Group} {g : Nat} (hself : ∀ x, (h x).parent ≠ some x) {x n : Nat}
    (he : Ends (fun y => (h y).parent) x n) (fuel : Nat) (hf : n < fuel) : walk h g fuel (some x) ≠ none := by
  induction he generalizing fuel with
  | @root y hp =>
    cases fuel with
    | zero => omega
    | succ fuel =>
      unfold walk
      split
      · simp
      · rw [hp]; simp [walk]
  | @loop y hp => exact absurd hp (hself y)
  | @up y p n hp hne _ ih =>
    cases fuel with
    | zero => omega
    | succ fuel =>
      unfold walk
      split
      · simp
      · rw [hp]; exact ih fuel (by omega)

/-- no group is its own parent -/
def NoSelf (s : Sys) : Prop := ∀ x, s.parent x ≠ some x

def allowNoSelf : Allow := ⟨fun g p => g ≠ p, fun _ _ => True, True, True⟩

theorem trans_noSelf {s s' : Sys} (hw : WF s) (hn : NoSelf s) (ht : Trans allowNoSelf s s') : NoSelf s' := by
  intro x
  rcases trans_parent hw ht with ⟨_, h2⟩ | ⟨_, h2, h3⟩ | ⟨g, pp, _, _, _, hA, _, h2⟩
  · rw [h2]; exact hn x
  · by_cases hx : x = s.ngroups
    · subst hx
      intro hc
      exact Nat.lt_irrefl _ (h3 _ hc)
    · rw [h2 x hx]; exact hn x
  · rw [h2]
    unfold relink
    split
    · rename_i hx
      subst hx
      intro hc
      exact hA x hc rfl
    · split
      · simp
      · exact hn x

theorem ReachBy.noSelf {s : Sys} (h : ReachBy noSelfParent s) : NoSelf s := by
  have hAr : ∀ {s op}, noSelfParent s op → ∀ g p g' p', op = .setParentOfGroup g p → s.groups.find g = some g' →
      s.groups.find p = some p' → allowNoSelf.reparent g' p' := by
    rintro s op hok g p g' p' rfl hg hp rfl
    rcases hok with h | h
    · rw [hg] at h; cases h
    · exact h (by rw [hg, hp])
  induction h with
  | init debug ord ho => intro x; simp [new, Sys.parent]
  | call hr hok hc ih =>
    exact trans_noSelf hr.wf ih (step_trans hr.wf (hAr hok) (fun _ _ _ _ _ _ _ _ _ => trivial) (fun _ _ => trivial) (.inl hc))
  | failed hr hok hc ih =>
    exact trans_noSelf hr.wf ih (step_trans (v := .unit) hr.wf (hAr hok) (fun _ _ _ _ _ _ _ _ _ => trivial) (fun _ _ => trivial) (.inr hc))
  | configuring _ ih => exact ih

/-! ### methods of group objects -/

theorem ends_upd {parent parent' : Nat → Option Nat} {g : Nat} (heq : ∀ x, x ≠ g → parent' x = parent x) {y n : Nat}
    (h : Ends parent y n) (hy : y ≠ g) (ha : ¬ Ancestor parent g y) : Ends parent' y n := by
  induction h with
  | root hp => exact .root (by rw [heq _ hy]; exact hp)
  | loop hp => exact .loop (by rw [heq _ hy]; exact hp)
  | up hp hne _ ih =>
    exact .up (by rw [heq _ hy]; exact hp) hne (ih (fun e => ha (.parent (by rw [hp, e]))) (fun h => ha (.above hp h)))

/-- the parents after a method of a group object -/
theorem onGroup_parent (s : Sys) (g : Nat) (m : GroupMethod) :
    (∀ x, x ≠ g → (onGroup s g m x).parent = s.parent x) ∧ ((onGroup s g m g).parent = s.parent g ∨ (onGroup s g m g).parent = none ∨
      ∃ p, (onGroup s g m g).parent = some p ∧ (m = .setParentGroup (some p) ∨ ∃ n, m = .setParentGroupNamed n ∧ s.groups.find n = some p)) := by
  have one : ∀ (gr : Group), (∀ x, x ≠ g → (upd s.grp g gr x).parent = s.parent x) ∧ (upd s.grp g gr g).parent = gr.parent :=
    fun gr => ⟨fun x hx => by rw [upd_other _ _ hx]; rfl, by rw [upd_same]⟩
  have same : ∀ gr : Group, gr.parent = s.parent g → ∀ h, h = upd s.grp g gr →
      (∀ x, x ≠ g → (h x).parent = s.parent x) ∧ ((h g).parent = s.parent g ∨ (h g).parent = none ∨
      ∃ p, (h g).parent = some p ∧ (m = .setParentGroup (some p) ∨ ∃ n, m = .setParentGroupNamed n ∧ s.groups.find n = some p)) := by
    rintro gr e h rfl
    exact ⟨(one gr).1, .inl (by rw [(one gr).2, e])⟩
  have nothing : ∀ h, h = s.grp → (∀ x, x ≠ g → (h x).parent = s.parent x) ∧ ((h g).parent = s.parent g ∨ (h g).parent = none ∨
      ∃ p, (h g).parent = some p ∧ (m = .setParentGroup (some p) ∨ ∃ n, m = .setParentGroupNamed n ∧ s.groups.find n = some p)) := by
    rintro h rfl
    exact ⟨fun _ _ => rfl, .inl rfl⟩
  have par : ∀ p, (∀ x, x ≠ g → (setParentGroup s.grp g (some p) x).parent = s.parent x) ∧
      (setParentGroup s.grp g (some p) g).parent = some p := by
    intro p
    constructor
    · intro x hx
      unfold setParentGroup setSinkFromGroup setLevelFromGroup
      dsimp only
      split <;> split <;> simp [upd_other _ _ hx] <;> rfl
    · unfold setParentGroup setSinkFromGroup setLevelFromGroup
      dsimp only
      split <;> split <;> simp [upd_same]
  cases m with
  | setLevel l => exact same _ (by rfl) _ rfl
  | resetLevel =>
    cases e : (s.grp g).parent with
    | none => exact nothing _ (by simp only [onGroup, resetLevel, e])
    | some p => exact same { s.grp g with level := (s.grp p).level, levelOv := false } rfl _ (by simp only [onGroup, resetLevel, e])
  | setLevelFromGroup p => exact same _ (by rfl) _ rfl
  | setLevelFromGroupNamed n =>
    cases e : s.groups.find n with
    | none => exact nothing _ (by simp only [onGroup, getGroup, e])
    | some p =>
      exact same { s.grp g with level := (s.grp p).level, levelOv := decide (some p ≠ (s.grp g).parent) } rfl _
        (by simp only [onGroup, getGroup, e, setLevelFromGroup])
  | setSink k => exact same _ (by rfl) _ rfl
  | setSinkNamed n =>
    cases e : s.sinks.find n with
    | none => exact nothing _ (by simp only [onGroup, getSink, e])
    | some k =>
      exact same { s.grp g with sink := some k, sinkOv := if (s.grp g).parent.isSome then true else (s.grp g).sinkOv } rfl _
        (by simp only [onGroup, getSink, e, setSink])
  | resetSink =>
    cases e : (s.grp g).parent with
    | none => exact nothing _ (by simp only [onGroup, resetSink, e])
    | some p => exact same { s.grp g with sink := (s.grp p).sink, sinkOv := false } rfl _ (by simp only [onGroup, resetSink, e])
  | setSinkFromGroup p => exact same _ (by rfl) _ rfl
  | setSinkFromGroupNamed n =>
    cases e : s.groups.find n with
    | none => exact nothing _ (by simp only [onGroup, getGroup, e])
    | some p =>
      exact same { s.grp g with sink := (s.grp p).sink, sinkOv := decide (some p ≠ (s.grp g).parent) } rfl _
        (by simp only [onGroup, getGroup, e, setSinkFromGroup])
  | unsetParentGroup => exact ⟨(one _).1, .inr (.inl (one _).2)⟩
  | setParentGroup p =>
    cases p with
    | none => exact ⟨(one _).1, .inr (.inl (one _).2)⟩
    | some p => exact ⟨(par p).1, .inr (.inr ⟨p, (par p).2, .inl rfl⟩)⟩
  | setParentGroupNamed n =>
    cases e : s.groups.find n with
    | none => exact nothing _ (by simp only [onGroup, getGroup, e])
    | some p =>
      have : onGroup s g (.setParentGroupNamed n) = setParentGroup s.grp g (some p) := by simp only [onGroup, getGroup, e]
      rw [this]
      exact ⟨(par p).1, .inr (.inr ⟨p, (par p).2, .inr ⟨n, rfl, e⟩⟩)⟩

theorem onGroup_keeps {s : Sys} (hw : WF s) (he : AllEnd s) (hn : NoSelf s) {g : Nat} {m : GroupMethod}
    (hok : noCycleMade s (.group g m)) (hg : g < s.ngroups) (hm : m.valid s) :
    AllEnd { s with grp := onGroup s g m } ∧ NoSelf { s with grp := onGroup s g m } := by
  obtain ⟨h1, h2⟩ := onGroup_parent s g m
  have key : ∀ pp : Option Nat, (onGroup s g m g).parent = pp → (∀ p, pp = some p → p < s.ngroups ∧ p ≠ g ∧ (pp = s.parent g ∨ ¬ Ancestor s.parent g p)) →
      AllEnd { s with grp := onGroup s g m } ∧ NoSelf { s with grp := onGroup s g m } := by
    intro pp hpp hc
    have hgE : ∃ n, Ends (Sys.parent { s with grp := onGroup s g m }) g n ∨ pp = s.parent g := by
      cases pp with
      | none => exact ⟨0, .inl (.root hpp)⟩
      | some p =>
        obtain ⟨hlt, hne, hh⟩ := hc p rfl
        rcases hh with hh | hh
        · exact ⟨0, .inr hh⟩
        · obtain ⟨n, hE⟩ := he p hlt
          exact ⟨n + 1, .inl (.up hpp hne (ends_upd h1 hE hne hh))⟩
    constructor
    · intro x hx
      obtain ⟨n, hE⟩ := he x hx
      obtain ⟨n0, hg0 | hg0⟩ := hgE
      · clear hx
        induction hE with
        | @root y hp =>
          by_cases e : y = g
          · subst e; exact ⟨_, hg0⟩
          · exact ⟨0, .root (by show (onGroup s g m y).parent = none; rw [h1 y e]; exact hp)⟩
        | @loop y hp => exact absurd hp (hn y)
        | @up y p n hp hne _ ih =>
          by_cases e : y = g
          · subst e; exact ⟨_, hg0⟩
          · obtain ⟨m', hm'⟩ := ih
            exact ⟨m' + 1, .up (by show (onGroup s g m y).parent = some p; rw [h1 y e]; exact hp) hne hm'⟩
      · refine ⟨n, ?_⟩
        have : Sys.parent { s with grp := onGroup s g m } = s.parent := by
          funext y
          by_cases e : y = g
          · subst e; exact hpp.trans hg0
          · exact h1 y e
        rw [this]; exact hE
    · intro x hx
      by_cases e : x = g
      · subst e
        have : pp = some x := hpp.symm.trans hx
        exact (hc x this).2.1 rfl
      · have hx : (onGroup s g m x).parent = some x := hx
        rw [h1 x e] at hx
        exact hn x hx
  rcases h2 with h2 | h2 | ⟨p, h2, hp⟩
  · exact key _ h2 fun p hp => ⟨hw.pLt g p hg hp, fun e => hn g (by rw [hp, e]), .inl rfl⟩
  · exact key _ h2 fun p hp => by cases hp
  · refine key _ h2 fun p' hp' => ?_
    cases hp'
    rcases hp with rfl | ⟨n, rfl, hf⟩
    · exact ⟨hm, hok.1, .inr hok.2⟩
    · exact ⟨hw.gLt n p hf, (hok p hf).1, .inr (hok p hf).2⟩

theorem AnyReachBy.tree {s : Sys} (h : AnyReachBy noCycleMade s) : AllEnd s ∧ NoSelf s := by
  have hAr : ∀ {s op}, noSelfParent s op → ∀ g p g' p', op = .setParentOfGroup g p → s.groups.find g = some g' →
      s.groups.find p = some p' → allowNoSelf.reparent g' p' := by
    rintro s op hok g p g' p' rfl hg hp rfl
    rcases hok with h | h
    · rw [hg] at h; cases h
    · exact h (by rw [hg, hp])
  have hstep : ∀ {s s' : Sys} {fuel : Nat} {op : Op} {v : Val}, WF s → AllEnd s ∧ NoSelf s → noSelfParent s op →
      (step fuel s op = .ret v s' ∨ step fuel s op = .throw s') → AllEnd s' ∧ NoSelf s' := by
    intro s s' fuel op v hw ih hok hc
    have ht := step_trans hw (hAr hok) (fun _ _ _ _ _ _ _ _ _ => trivial) (fun _ _ => trivial) hc
    exact ⟨trans_allEnd hw ih.1 ht, trans_noSelf hw ih.2 ht⟩
  have hact : ∀ {s s' : Sys} {fuel : Nat} {a : Act} {v : Val}, WF s → AllEnd s ∧ NoSelf s → noCycleMade s a →
      (System.act fuel s a = .ret v s' ∨ System.act fuel s a = .throw s') → AllEnd s' ∧ NoSelf s' := by
    intro s s' fuel a v hw ih hok hc
    cases a with
    | call op => exact hstep hw ih hok hc
    | group g m =>
      by_cases hv : g < s.ngroups ∧ m.valid s
      · simp only [System.act, if_pos hv] at hc
        rcases hc with hc | hc <;> cases hc
        exact onGroup_keeps hw ih.1 ih.2 hok hv.1 hv.2
      · simp only [System.act, if_neg hv] at hc
        rcases hc with hc | hc <;> cases hc
        exact ih
    | logger i m =>
      simp only [System.act] at hc
      cases e : m.resolve s with
      | none => rw [e] at hc; rcases hc with hc | hc <;> cases hc; exact ih
      | some m' => rw [e] at hc; exact hstep (op := .onHandle i m') hw ih trivial hc
  induction h with
  | init debug ord ho => exact ⟨fun x hx => by simp [new] at hx, fun x => by simp [new, Sys.parent]⟩
  | act hr hok hc ih => exact hact hr.wf ih hok (.inl hc)
  | failed hr hok hc ih => exact hact (v := .unit) hr.wf ih hok (.inr hc)
  | configuring _ ih => exact ih

theorem propagate_ends {fuel : Nat} {stop : Group → Bool} {f : Change} {up : (Nat → Group) → Logger → Logger} {g : Nat}
    {s : Sys} (hself : ∀ x, x ≠ g → s.parent x ≠ some x)
    (he : ∀ x ∈ s.groups.map (·.2), ∃ n, n < fuel ∧ Ends s.parent x n) : propagate fuel stop f up g s ≠ none := by
  unfold propagate
  have := visitAll_ends (h := s.grp) (stop := stop) (g := g) (fuel := fuel) hself (s.groups.map (·.2)) he (fun _ => none) []
  split
  · rename_i hv; exact absurd hv this
  · simp

theorem setLevelOfGroupPtr_eq (fuel g : Nat) (l : Option Level) (s : Sys) : setLevelOfGroupPtr fuel g l s =
    propagate fuel (·.levelOv) setLevelFromGroup (fun h l => if l.levelOv then l else l.setLevelFromGroup h l.group) g
      { s with grp := baseLevel s.grp g l } := rfl

theorem setSinkOfGroupPtr_eq (fuel g : Nat) (k : Option Nat) (s : Sys) : setSinkOfGroupPtr fuel g k s =
    propagate fuel (·.sinkOv) setSinkFromGroup (fun h l => if l.sinkOv then l else l.setSinkFromGroup h l.group) g
      { s with grp := baseSink s.grp g k } := rfl

theorem setParentOfGroupPtr_eq (fuel g : Nat) (p : Option Nat) (s : Sys) : setParentOfGroupPtr fuel g p s =
    propagate fuel (fun x => x.levelOv && x.sinkOv) (fun h x p => setParentGroup h x (some p))
      (fun h l => l.setGroup h l.group) g { s with grp := baseParent s.grp g p } := rfl

/-- in a state without self-parents, a bound larger than the number of groups is never exhausted -/
theorem step_ends {s : Sys} (hw : WF s) (hn : NoSelf s) (ha : AllEnd s) (op : Op) {fuel : Nat} (hf : s.ngroups < fuel) :
    step fuel s op ≠ .diverge := by
  have hclosed : ∀ x p, x < s.ngroups → s.parent x = some p → p < s.ngroups := fun x p hx hp => hw.pLt x p hx hp
  have hmem : ∀ x, x ∈ s.groups.map (·.2) → x < s.ngroups :=
    fun x hx => hw.regLt ((registered_mem hw.gU).2 hx)
  have hbound : ∀ x, x < s.ngroups → ∃ n, n < fuel ∧ Ends s.parent x n := by
    intro x hx
    obtain ⟨n, h⟩ := ha x hx
    exact ⟨n, Nat.lt_trans (h.bound hclosed hx) hf, h⟩
  have hof : ∀ r : Option Sys, r ≠ none → ofOption r ≠ .diverge := by
    intro r hr
    cases r with
    | none => exact absurd rfl hr
    | some s => simp [ofOption]
  have hmap : ∀ {α β : Type} (f : α → β) (r : Res α), r ≠ .diverge → r.map f ≠ .diverge := by
    intro α β f r hr
    cases r with
    | diverge => exact absurd rfl hr
    | _ => simp [Res.map]
  have hsame : ∀ (s1 : Sys) (stop : Group → Bool) (f : Change) (up : (Nat → Group) → Logger → Logger) (g : Nat),
      (∀ x, s1.parent x = s.parent x) → s1.groups = s.groups → propagate fuel stop f up g s1 ≠ none := by
    intro s1 stop f up g h1 h2
    have h1 : s1.parent = s.parent := funext h1
    apply propagate_ends
    · intro x _; rw [h1]; exact hn x
    · intro x hx
      rw [h2] at hx; rw [h1]
      exact hbound x (hmem x hx)
  have hlevel : ∀ g l, setLevelOfGroupPtr fuel g l s ≠ none := by
    intro g l
    rw [setLevelOfGroupPtr_eq]
    apply hsame
    · intro x
      show (baseLevel s.grp g l x).parent = (s.grp x).parent
      by_cases hx : x = g
      · subst hx; rw [baseLevel_self]
      · rw [baseLevel_other hx]
    · rfl
  have hsink : ∀ g k, setSinkOfGroupPtr fuel g k s ≠ none := by
    intro g l
    rw [setSinkOfGroupPtr_eq]
    apply hsame
    · intro x
      show (baseSink s.grp g l x).parent = (s.grp x).parent
      by_cases hx : x = g
      · subst hx; rw [baseSink_self]
      · rw [baseSink_other hx]
    · rfl
  have hparent : ∀ g pp, (∀ p, pp = some p → p < s.ngroups) → g < s.ngroups →
      (∀ p, pp = some p → (s.grp p).parent = some g ∨ ∃ fuel, walk s.grp g fuel (s.grp p).parent = some false) →
      setParentOfGroupPtr fuel g pp s ≠ none := by
    intro g pp hpp hg hwalk
    have h1 : ∀ x, Sys.parent { s with grp := baseParent s.grp g pp } x = relink s.grp g pp x := by
      intro x
      show (baseParent s.grp g pp x).parent = _
      by_cases hx : x = g
      · subst hx
        rw [baseParent_self]
        unfold reparented relink inherit
        cases pp <;> simp
      · rw [baseParent_other _ _ _ hx]
    have h1 := funext h1
    have hcl : ∀ x p, x < s.ngroups → relink s.grp g pp x = some p → p < s.ngroups := by
      intro x p hx hr
      unfold relink at hr
      split at hr
      · exact hpp p hr
      · split at hr
        · cases hr
        · exact hclosed x p hx hr
    rw [setParentOfGroupPtr_eq]
    apply propagate_ends
    · intro x hx
      rw [h1]
      unfold relink
      rw [if_neg hx]
      split
      · simp
      · exact hn x
    · intro x hx
      have hx := hmem x hx
      rw [h1]
      obtain ⟨n, hn⟩ := ha x hx
      obtain ⟨m, hm⟩ := relink_ends (g := g) (pp := pp) hwalk hn
      exact ⟨m, Nat.lt_trans (hm.bound hcl hx) hf, hm⟩
  cases op with
  | makeSink n => simp [step, makeSink, Res.map]
  | makeGroup n p k l =>
    apply hmap
    rw [makeGroup_eq hw.gLt]
    split <;> simp
  | setFallbackGroup n =>
    apply hmap
    unfold setFallbackGroup
    split <;> simp
  | getLogger n g k l =>
    apply hmap
    unfold getLogger
    simp only
    split
    · simp
    · split
      · simp
      · split
        · simp
        · split
          · simp
          · split <;> simp
  | setParentOfGroup g p =>
    apply hmap
    unfold setParentOfGroup
    cases hg : s.groups.find g with
    | none => simp
    | some g' =>
      cases hp : s.groups.find p with
      | none => simp
      | some p' =>
        simp only
        have hg' := hw.gLt _ _ hg
        have hp' := hw.gLt _ _ hp
        have hwalk : (if (s.grp p').parent ≠ some g' then walk s.grp g' fuel (s.grp p').parent else some false) ≠ none := by
          split
          · cases hq : (s.grp p').parent with
            | none => simp [walk]
            | some q =>
              obtain ⟨n, hn1, hn2⟩ := hbound q (hclosed p' q hp' hq)
              exact walk_ends hn hn2 fuel hn1
          · simp
        split
        · rename_i h; exact absurd h hwalk
        · simp
        · rename_i h
          apply hof
          apply hparent _ _ (by intro q hq; cases hq; exact hp') hg'
          intro q hq
          cases hq
          split at h
          · exact .inr ⟨fuel, h⟩
          · rename_i hc; exact .inl (by simpa using hc)
  | unsetParentOfGroup g =>
    apply hmap
    unfold unsetParentOfGroup
    cases hg : s.groups.find g with
    | none => simp
    | some g' => exact hof _ (hparent g' none (by simp) (hw.gLt _ _ hg) (by simp))
  | setSinkOfGroup g k =>
    apply hmap
    unfold setSinkOfGroup
    cases getSink k s with
    | none => simp
    | some k' =>
      cases s.groups.find g with
      | none => simp
      | some g' => exact hof _ (hsink _ _)
  | resetSinkOfGroup g =>
    apply hmap
    unfold resetSinkOfGroup
    cases s.groups.find g with
    | none => simp
    | some g' => exact hof _ (hsink _ _)
  | setLevelOfGroup g l =>
    apply hmap
    unfold setLevelOfGroup
    cases s.groups.find g with
    | none => simp
    | some g' => exact hof _ (hlevel _ _)
  | resetLevelOfGroup g =>
    apply hmap
    unfold resetLevelOfGroup
    cases s.groups.find g with
    | none => simp
    | some g' => exact hof _ (hlevel _ _)
  | setGroupOfLogger l g =>
    apply hmap
    unfold setGroupOfLogger
    split
    · simp
    · obtain ⟨b, s1, h1⟩ := onLogger_total l true (fun l => l.setGroup s.grp _) s
      rw [h1]; simp
  | setSinkOfLogger l k =>
    apply hmap
    unfold setSinkOfLogger
    split
    · simp
    · obtain ⟨b, s1, h1⟩ := onLogger_total l true (fun l => l.setSink _) s
      rw [h1]; simp
  | resetSinkOfLogger l =>
    apply hmap
    unfold resetSinkOfLogger
    obtain ⟨b, s1, h1⟩ := onLogger_total l false (fun l => l.setSinkFromGroup s.grp l.group) s
    rw [h1]; simp
  | setLevelOfLogger l v =>
    apply hmap
    unfold setLevelOfLogger
    obtain ⟨b, s1, h1⟩ := onLogger_total l true (fun l => l.setLevel v) s
    rw [h1]; simp
  | resetLevelOfLogger l =>
    apply hmap
    unfold resetLevelOfLogger
    obtain ⟨b, s1, h1⟩ := onLogger_total l true (fun l => l.setLevelFromGroup s.grp l.group) s
    rw [h1]; simp
  | onHandle i m =>
    simp only [step]
    split <;> simp
  | drop i => simp [step]

end System
end Soralog
