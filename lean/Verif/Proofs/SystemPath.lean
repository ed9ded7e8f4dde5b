import Verif.Model.System
/-!
# The recursive visit and the staged update
-/
namespace Soralog
namespace System

@[simp] theorem upd_same {α β : Type} [DecidableEq α] (f : α → β) (a : α) (b : β) : upd f a b a = b := by
  simp [upd]

theorem upd_other {α β : Type} [DecidableEq α] (f : α → β) {a x : α} (b : β) (h : x ≠ a) : upd f a b x = f x := by
  simp [upd, h]

/-- `Path h stop g x l`: going up from `x` over links that are not stopped one arrives at `g`; `l` are the groups
passed, `x` first and `g` left out. -/
inductive Path (h : Nat → Group) (stop : Group → Bool) (g : Nat) : Nat → List Nat → Prop
  | here : Path h stop g g []
  | up {x p : Nat} {l : List Nat} (hne : x ≠ g) (hs : stop (h x) = false) (hp : (h x).parent = some p)
      (hl : Path h stop g p l) : Path h stop g x (x :: l)

variable {h : Nat → Group} {stop : Group → Bool} {g : Nat}

theorem Path.det {x : Nat} {l l' : List Nat} (a : Path h stop g x l) (b : Path h stop g x l') : l = l' := by
  induction a generalizing l' with
  | here =>
    cases b with
    | here => rfl
    | up hne _ _ _ => exact absurd rfl hne
  | up hne _ hp _ ih =>
    cases b with
    | here => exact absurd rfl hne
    | up _ _ hp' hl' =>
      rw [hp] at hp'; cases hp'
      rw [ih hl']

/-- every group on a path has a path of its own -/
theorem Path.of_mem {x y : Nat} {l : List Nat} (a : Path h stop g x l) (hy : y ∈ l) :
    ∃ l', Path h stop g y (y :: l') ∧ (y :: l').Sublist l := by
  induction a with
  | here => cases hy
  | up hne hs hp hl ih =>
    rcases List.mem_cons.1 hy with rfl | hy
    · exact ⟨_, .up hne hs hp hl, List.Sublist.refl _⟩
    · obtain ⟨l', h1, h2⟩ := ih hy
      exact ⟨l', h1, h2.cons _⟩

theorem Path.ne_of_mem {x y : Nat} {l : List Nat} (a : Path h stop g x l) (hy : y ∈ l) : y ≠ g := by
  obtain ⟨l', h1, _⟩ := a.of_mem hy
  cases h1 with
  | up hne _ _ _ => exact hne

/-- the group above one on a path -/
theorem Path.parent_of_mem {x y : Nat} {l : List Nat} (a : Path h stop g x l) (hy : y ∈ l) :
    stop (h y) = false ∧ ∃ p, (h y).parent = some p ∧ (p = g ∨ p ∈ l) := by
  induction a with
  | here => cases hy
  | up hne hs hp hl ih =>
    rcases List.mem_cons.1 hy with rfl | hy
    · refine ⟨hs, _, hp, ?_⟩
      cases hl with
      | here => exact .inl rfl
      | up _ _ _ _ => exact .inr (by simp)
    · obtain ⟨h1, p, h2, h3⟩ := ih hy
      exact ⟨h1, p, h2, h3.imp id fun h => List.mem_cons_of_mem _ h⟩

/-! ### stages -/

def Staged (st : Stages) (y m : Nat) : Prop := ∃ l, st[m]? = some l ∧ y ∈ l

theorem staged_nil (y m : Nat) : ¬ Staged [] y m := by
  rintro ⟨l, h, _⟩; simp at h

theorem staged_emplace (st : Stages) (n x y m : Nat) :
    Staged (st.emplace n x) y m ↔ Staged st y m ∨ (y = x ∧ m = n) := by
  unfold Stages.emplace Staged
  have key : ∀ st' : Stages, n < st'.length → (∀ (m : Nat) (l : List Nat), st[m]? = some l → st'[m]? = some l) →
      (∀ (m : Nat) (l : List Nat), st'[m]? = some l → st[m]? = some l ∨ l = []) →
      ((∃ l, (st'.modify n fun l => if x ∈ l then l else l ++ [x])[m]? = some l ∧ y ∈ l) ↔
        (∃ l, st[m]? = some l ∧ y ∈ l) ∨ (y = x ∧ m = n)) := by
    intro st' hn h1 h2
    rw [List.getElem?_modify]
    by_cases hm : n = m
    · subst hm
      have hget : st'[n]? = some st'[n] := List.getElem?_eq_getElem hn
      rw [hget]
      simp only [if_true, Option.map_some, Option.map_eq_map, Option.some.injEq, exists_eq_left']
      have hmem : y ∈ (if x ∈ st'[n] then st'[n] else st'[n] ++ [x]) ↔ y ∈ st'[n] ∨ y = x := by
        split
        · rename_i hx
          constructor
          · exact Or.inl
          · rintro (h | rfl)
            · exact h
            · exact hx
        · simp
      rw [hmem]
      constructor
      · rintro (hy | rfl)
        · rcases h2 n _ hget with h3 | h3
          · exact .inl ⟨_, h3, hy⟩
          · rw [h3] at hy; cases hy
        · exact .inr ⟨rfl, trivial⟩
      · rintro (⟨l, hl, hy⟩ | ⟨rfl, _⟩)
        · have := h1 _ _ hl
          rw [hget] at this
          cases this
          exact .inl hy
        · exact .inr rfl
    · have hm' : ¬ m = n := fun h => hm h.symm
      simp only [if_neg hm, Option.map_eq_map, Option.map_id', hm', and_false, or_false]
      constructor
      · rintro ⟨l, hl, hy⟩
        rcases h2 m l hl with h3 | h3
        · exact ⟨l, h3, hy⟩
        · subst h3; cases hy
      · rintro ⟨l, hl, hy⟩
        exact ⟨l, h1 _ _ hl, hy⟩
  simp only
  split
  · rename_i hle
    apply key
    · rw [List.length_append, List.length_replicate]; omega
    · intro m l hl
      have : m < st.length := (List.getElem?_eq_some_iff.1 hl).1
      rw [List.getElem?_append_left this]; exact hl
    · intro m l hl
      rcases Nat.lt_or_ge m st.length with hm | hm
      · rw [List.getElem?_append_left hm] at hl; exact .inl hl
      · rw [List.getElem?_append_right hm] at hl
        have := List.mem_of_getElem? hl
        exact .inr (List.eq_of_mem_replicate this)
  · rename_i hle
    exact key st (by omega) (fun _ _ h => h) (fun _ _ h => .inl h)

def AllNodup (st : Stages) : Prop := ∀ l ∈ st, l.Nodup

theorem nodup_emplace {st : Stages} (hn : AllNodup st) (n x : Nat) : AllNodup (st.emplace n x) := by
  unfold Stages.emplace AllNodup
  have key : ∀ st' : Stages, AllNodup st' →
      ∀ l ∈ (st'.modify n fun l => if x ∈ l then l else l ++ [x]), l.Nodup := by
    intro st' h l hl
    obtain ⟨m, hm⟩ := List.mem_iff_getElem?.1 hl
    rw [List.getElem?_modify] at hm
    cases hg : st'[m]? with
    | none => rw [hg] at hm; cases hm
    | some k =>
      rw [hg] at hm
      have hk : k.Nodup := h k (List.mem_of_getElem? hg)
      simp only [Option.map_eq_map, Option.map_some, Option.some.injEq] at hm
      subst hm
      split
      · split
        · exact hk
        · rename_i hx
          rw [List.nodup_append]
          refine ⟨hk, by simp, ?_⟩
          intro a ha b hb hab
          simp at hb
          subst hb; subst hab
          exact hx ha
      · exact hk
  simp only
  split
  · apply key
    intro l hl
    rcases List.mem_append.1 hl with hl | hl
    · exact hn l hl
    · rw [List.eq_of_mem_replicate hl]; simp
  · exact key st hn

/-! ### the visit -/

structure PassedOk (h : Nat → Group) (stop : Group → Bool) (g : Nat) (passed : Nat → Option (Option Nat))
    (st : Stages) : Prop where
  hit : ∀ y n, passed y = some (some n) → ∃ l, Path h stop g y l ∧ l.length = n ∧ ∀ z ∈ l, ∃ m, Staged st z m
  miss : ∀ y, passed y = some none → ¬ ∃ l, Path h stop g y l

structure StagesOk (h : Nat → Group) (stop : Group → Bool) (g : Nat) (st : Stages) : Prop where
  len : ∀ y m, Staged st y m → ∃ l, Path h stop g y l ∧ l.length = m + 1
  nodup : AllNodup st

theorem PassedOk.mono {passed : Nat → Option (Option Nat)} {st st' : Stages} (a : PassedOk h stop g passed st)
    (hm : ∀ y m, Staged st y m → Staged st' y m) : PassedOk h stop g passed st' :=
  ⟨fun y n hy => (a.hit y n hy).imp fun _ ⟨h1, h2, h3⟩ => ⟨h1, h2, fun z hz => (h3 z hz).imp fun _ hs => hm _ _ hs⟩, a.miss⟩

theorem visit_spec {passed : Nat → Option (Option Nat)} :
    ∀ {fuel cur : Nat} {st st' : Stages} {r : Option Nat}, PassedOk h stop g passed st → StagesOk h stop g st →
      visit h stop g passed fuel cur st = some (r, st') →
      StagesOk h stop g st' ∧ (∀ y m, Staged st y m → Staged st' y m) ∧
      match r with
      | none => st' = st ∧ ¬ ∃ l, Path h stop g cur l
      | some n => ∃ l, Path h stop g cur l ∧ l.length = n ∧ (∀ z ∈ l, ∃ m, Staged st' z m) ∧
          ∀ y m, Staged st' y m → Staged st y m ∨ y ∈ l := by
  intro fuel
  induction fuel with
  | zero => intro cur st st' r _ _ hv; cases hv
  | succ fuel ih =>
    intro cur st st' r hp hs hv
    unfold visit at hv
    cases hc : passed cur with
    | some r' =>
      rw [hc] at hv
      simp only [Option.some.injEq, Prod.mk.injEq] at hv
      obtain ⟨rfl, rfl⟩ := hv
      refine ⟨hs, fun _ _ h => h, ?_⟩
      cases r' with
      | none => exact ⟨rfl, hp.miss _ hc⟩
      | some n =>
        obtain ⟨l, h1, h2, h3⟩ := hp.hit _ _ hc
        exact ⟨l, h1, h2, h3, fun _ _ h => .inl h⟩
    | none =>
      rw [hc] at hv
      simp only at hv
      split at hv
      · rename_i hcg
        subst hcg
        simp only [Option.some.injEq, Prod.mk.injEq] at hv
        obtain ⟨rfl, rfl⟩ := hv
        exact ⟨hs, fun _ _ h => h, [], .here, rfl, fun _ h => absurd h (by simp), fun _ _ h => .inl h⟩
      · rename_i hcg
        split at hv
        · rename_i hst
          simp only [Option.some.injEq, Prod.mk.injEq] at hv
          obtain ⟨rfl, rfl⟩ := hv
          refine ⟨hs, fun _ _ h => h, rfl, ?_⟩
          rintro ⟨l, hl⟩
          cases hl with
          | here => exact hcg rfl
          | up _ hs' _ _ => rw [hst] at hs'; cases hs'
        · rename_i hst
          cases hpar : (h cur).parent with
          | none =>
            rw [hpar] at hv
            simp only [Option.some.injEq, Prod.mk.injEq] at hv
            obtain ⟨rfl, rfl⟩ := hv
            refine ⟨hs, fun _ _ h => h, rfl, ?_⟩
            rintro ⟨l, hl⟩
            cases hl with
            | here => exact hcg rfl
            | up _ _ hp' _ => rw [hpar] at hp'; cases hp'
          | some p =>
            rw [hpar] at hv
            simp only at hv
            cases hrec : visit h stop g passed fuel p st with
            | none => rw [hrec] at hv; cases hv
            | some q =>
              obtain ⟨q1, q2⟩ := q
              rw [hrec] at hv
              obtain ⟨i1, i2, i3⟩ := ih hp hs hrec
              cases q1 with
              | none =>
                simp only [Option.some.injEq, Prod.mk.injEq] at hv
                obtain ⟨rfl, rfl⟩ := hv
                refine ⟨i1, i2, i3.1, ?_⟩
                rintro ⟨l, hl⟩
                cases hl with
                | here => exact hcg rfl
                | up _ _ hp' hl' =>
                  rw [hpar] at hp'; cases hp'
                  exact i3.2 ⟨_, hl'⟩
              | some n =>
                simp only [Option.some.injEq, Prod.mk.injEq] at hv
                obtain ⟨rfl, rfl⟩ := hv
                obtain ⟨l, l1, l2, l3, l4⟩ := i3
                have hpath : Path h stop g cur (cur :: l) := .up hcg (by simpa using hst) hpar l1
                refine ⟨⟨?_, nodup_emplace i1.nodup _ _⟩, ?_, cur :: l, hpath, by simp [l2], ?_, ?_⟩
                · intro y m hy
                  rcases (staged_emplace _ _ _ _ _).1 hy with hy | ⟨rfl, rfl⟩
                  · exact i1.len y m hy
                  · exact ⟨_, hpath, by simp [l2]⟩
                · intro y m hy
                  exact (staged_emplace _ _ _ _ _).2 (.inl (i2 y m hy))
                · intro z hz
                  rcases List.mem_cons.1 hz with rfl | hz
                  · exact ⟨n, (staged_emplace _ _ _ _ _).2 (.inr ⟨rfl, rfl⟩)⟩
                  · exact (l3 z hz).imp fun m hm => (staged_emplace _ _ _ _ _).2 (.inl hm)
                · intro y m hy
                  rcases (staged_emplace _ _ _ _ _).1 hy with hy | ⟨rfl, rfl⟩
                  · exact (l4 y m hy).imp id fun h => List.mem_cons_of_mem _ h
                  · exact .inr (by simp)

theorem visitAll_spec {fuel : Nat} :
    ∀ {rs : List Nat} {passed passed' : Nat → Option (Option Nat)} {st st' : Stages},
      PassedOk h stop g passed st → StagesOk h stop g st →
      visitAll h stop g fuel rs passed st = some (passed', st') →
      PassedOk h stop g passed' st' ∧ StagesOk h stop g st' ∧ (∀ y m, Staged st y m → Staged st' y m) ∧
      (∀ y, (passed' y).isSome ↔ (passed y).isSome ∨ y ∈ rs) ∧
      (∀ y m, Staged st' y m → Staged st y m ∨ ∃ r ∈ rs, ∃ l, Path h stop g r l ∧ y ∈ l) := by
  intro rs
  induction rs with
  | nil =>
    intro passed passed' st st' hp hs hv
    simp only [visitAll, Option.some.injEq, Prod.mk.injEq] at hv
    obtain ⟨rfl, rfl⟩ := hv
    exact ⟨hp, hs, fun _ _ h => h, by simp, fun _ _ h => .inl h⟩
  | cons r rs ih =>
    intro passed passed' st st' hp hs hv
    unfold visitAll at hv
    cases hrec : visit h stop g passed fuel r st with
    | none => rw [hrec] at hv; cases hv
    | some q =>
      obtain ⟨n, st1⟩ := q
      rw [hrec] at hv
      simp only at hv
      obtain ⟨a1, a2, a3⟩ := visit_spec hp hs hrec
      have hp1 : PassedOk h stop g (upd passed r (some n)) st1 := by
        have hm := hp.mono a2
        constructor
        · intro y k hy
          by_cases hyr : y = r
          · subst hyr
            simp only [upd_same, Option.some.injEq] at hy
            subst hy
            obtain ⟨l, l1, l2, l3, _⟩ := a3
            exact ⟨l, l1, l2, l3⟩
          · rw [upd_other _ _ hyr] at hy
            exact hm.hit y k hy
        · intro y hy
          by_cases hyr : y = r
          · subst hyr
            simp only [upd_same, Option.some.injEq] at hy
            subst hy
            exact a3.2
          · rw [upd_other _ _ hyr] at hy
            exact hm.miss y hy
      obtain ⟨b1, b2, b3, b4, b5⟩ := ih hp1 a1 hv
      refine ⟨b1, b2, fun y m hy => b3 y m (a2 y m hy), ?_, ?_⟩
      · intro y
        rw [b4 y, List.mem_cons]
        by_cases hyr : y = r
        · subst hyr; simp
        · rw [upd_other _ _ hyr]; simp [hyr]
      · intro y m hy
        rcases b5 y m hy with hy | ⟨r', hr', hl⟩
        · cases n with
          | none => rw [a3.1] at hy; exact .inl hy
          | some n =>
            obtain ⟨l, l1, _, _, l4⟩ := a3
            rcases l4 y m hy with hy | hy
            · exact .inl hy
            · exact .inr ⟨r, by simp, l, l1, hy⟩
        · exact .inr ⟨r', List.mem_cons_of_mem _ hr', hl⟩

/-! ### the staged update -/

/-- A change that takes something from the parent and keeps the parent. -/
structure Copies (f : Change) (F : Group → Group → Group) : Prop where
  eq : ∀ h x p, (h x).parent = some p → f h x p = upd h x (F (h x) (h p))
  parent : ∀ a b, (F a b).parent = a.parent

theorem fold_spec {f : Change} {F : Group → Group → Group} (hf : Copies f F) :
    ∀ (L : List Nat) (h : Nat → Group), (∀ x ∈ L, ∃ p, (h x).parent = some p ∧ p ≠ x) → L.Nodup →
      L.Pairwise (fun a b => (h a).parent ≠ some b) →
      (∀ y, y ∉ L → L.foldl (change1 f) h y = h y) ∧
      ∀ x ∈ L, ∀ p, (h x).parent = some p →
        L.foldl (change1 f) h x = F (h x) (L.foldl (change1 f) h p) := by
  intro L
  induction L with
  | nil => intro h _ _ _; exact ⟨fun _ _ => rfl, fun _ hx => absurd hx (by simp)⟩
  | cons x L ih =>
    intro h hpar hnd hpw
    obtain ⟨p, hp, hpx⟩ := hpar x (by simp)
    have hstep : change1 f h x = upd h x (F (h x) (h p)) := by
      unfold change1; rw [hp]; exact hf.eq h x p hp
    rw [List.foldl_cons, hstep]
    generalize hh1 : upd h x (F (h x) (h p)) = h1
    have hsame : ∀ y, y ≠ x → h1 y = h y := by intro y hy; rw [← hh1, upd_other _ _ hy]
    have hx1 : h1 x = F (h x) (h p) := by rw [← hh1, upd_same]
    have hparent : ∀ y, (h1 y).parent = (h y).parent := by
      intro y
      by_cases hy : y = x
      · subst hy; rw [hx1, hf.parent]
      · rw [hsame y hy]
    rw [List.nodup_cons] at hnd
    rw [List.pairwise_cons] at hpw
    obtain ⟨i1, i2⟩ := ih h1
      (fun y hy => by rw [hparent]; exact hpar y (List.mem_cons_of_mem _ hy)) hnd.2
      (hpw.2.imp fun {a b} hab => by rw [hparent]; exact hab)
    have hpL : p ∉ L := fun hc => hpw.1 p hc hp
    constructor
    · intro y hy
      rw [List.mem_cons, not_or] at hy
      rw [i1 y hy.2, hsame y hy.1]
    · intro y hy q hq
      rcases List.mem_cons.1 hy with rfl | hy
      · rw [hp] at hq
        cases hq
        rw [i1 y hnd.1, i1 p hpL, hx1, hsame p hpx]
      · have hyx : y ≠ x := fun hc => hnd.1 (hc ▸ hy)
        have := i2 y hy q (by rw [hparent]; exact hq)
        rw [this, hsame y hyx]

/-- The order of the staged groups: no group is updated before its parent. -/
theorem staged_order {st : Stages} (hs : StagesOk h stop g st) {ord : List Nat → List Nat}
    (ho : ∀ l, (ord l).Perm l) :
    (st.flatMap ord).Nodup ∧ (st.flatMap ord).Pairwise (fun a b => (h a).parent ≠ some b) ∧
      (∀ x, x ∈ st.flatMap ord ↔ ∃ m, Staged st x m) ∧
      ∀ x ∈ st.flatMap ord, ∃ p, (h x).parent = some p ∧ p ≠ x := by
  have hmem : ∀ x, x ∈ st.flatMap ord ↔ ∃ m, Staged st x m := by
    intro x
    rw [List.mem_flatMap]
    constructor
    · rintro ⟨l, hl, hx⟩
      obtain ⟨m, hm⟩ := List.mem_iff_getElem?.1 hl
      exact ⟨m, l, hm, (ho l).mem_iff.1 hx⟩
    · rintro ⟨m, l, hm, hx⟩
      exact ⟨l, List.mem_of_getElem? hm, (ho l).mem_iff.2 hx⟩
  have hpar : ∀ x m, Staged st x m → ∃ p l, (h x).parent = some p ∧ Path h stop g p l ∧ l.length = m ∧
      Path h stop g x (x :: l) := by
    intro x m hx
    obtain ⟨l, l1, l2⟩ := hs.len x m hx
    cases l1 with
    | here => simp at l2
    | up hne hst hp hl =>
      exact ⟨_, _, hp, hl, by simpa using l2, .up hne hst hp hl⟩
  have hpw : ∀ (R : Nat → Nat → Prop), (∀ l ∈ st, (ord l).Pairwise R) →
      (∀ a b i j, Staged st a i → Staged st b j → i < j → R a b) → (st.flatMap ord).Pairwise R := by
    intro R h1 h2
    rw [List.pairwise_flatMap]
    refine ⟨h1, ?_⟩
    rw [List.pairwise_iff_getElem]
    intro i j hi hj hij a ha b hb
    exact h2 a b i j ⟨_, List.getElem?_eq_getElem hi, (ho _).mem_iff.1 ha⟩
      ⟨_, List.getElem?_eq_getElem hj, (ho _).mem_iff.1 hb⟩ hij
  have hlevel : ∀ a b i j, Staged st a i → Staged st b j → i ≤ j → (h a).parent ≠ some b := by
    intro a b i j ha hb hij hp
    obtain ⟨p, l, p1, p2, p3, _⟩ := hpar a i ha
    rw [p1] at hp; cases hp
    obtain ⟨l', q1, q2⟩ := hs.len _ _ hb
    rw [p2.det q1] at p3
    omega
  refine ⟨?_, ?_, hmem, ?_⟩
  · apply hpw
    · intro l hl
      exact ((ho l).nodup_iff.2 (hs.nodup l hl))
    · intro a b i j ha hb hij hab
      subst hab
      obtain ⟨l1, p1, p2⟩ := hs.len _ _ ha
      obtain ⟨l2, q1, q2⟩ := hs.len _ _ hb
      rw [p1.det q1] at p2
      omega
  · apply hpw
    · intro l hl
      rw [List.pairwise_iff_getElem]
      intro i j hi hj _
      obtain ⟨m, hm⟩ := List.mem_iff_getElem?.1 hl
      exact hlevel _ _ m m ⟨l, hm, (ho l).mem_iff.1 (List.getElem_mem hi)⟩
        ⟨l, hm, (ho l).mem_iff.1 (List.getElem_mem hj)⟩ (Nat.le_refl _)
    · intro a b i j ha hb hij
      exact hlevel a b i j ha hb (Nat.le_of_lt hij)
  · intro x hx
    obtain ⟨m, hm⟩ := (hmem x).1 hx
    obtain ⟨p, l, p1, p2, p3, p4⟩ := hpar x m hm
    refine ⟨p, p1, ?_⟩
    rintro rfl
    rw [p2.det p4] at p3
    have := p2.det p4
    have := congrArg List.length this
    simp at this

/-- everything the propagation does -/
structure Propagated (stop : Group → Bool) (F : Group → Group → Group) (up : (Nat → Group) → Logger → Logger) (g : Nat)
    (s s' : Sys) : Prop where
  /-- groups on the way from a registered group to `g` take the new values -/
  taken : ∀ r l x p, r ∈ s.groups.map (·.2) → Path s.grp stop g r l → x ∈ l → (s.grp x).parent = some p →
    s'.grp x = F (s.grp x) (s'.grp p)
  /-- all others stay -/
  kept : ∀ x, (∀ r l, r ∈ s.groups.map (·.2) → Path s.grp stop g r l → x ∉ l) → s'.grp x = s.grp x
  /-- live loggers of the registered groups that arrive at `g` -/
  lgr : ∀ i, s.alive i = true → i ∈ s.loggers.map (·.2) → (s.lgr i).group ∈ s.groups.map (·.2) →
    (∃ l, Path s.grp stop g (s.lgr i).group l) → s'.lgr i = up s'.grp (s.lgr i)
  lgr_kept : ∀ i, ¬ (s.alive i = true ∧ i ∈ s.loggers.map (·.2) ∧ (s.lgr i).group ∈ s.groups.map (·.2) ∧
    ∃ l, Path s.grp stop g (s.lgr i).group l) → s'.lgr i = s.lgr i
  rest : s' = { s with grp := s'.grp, lgr := s'.lgr, loggers := s.loggers.filter fun e => s.alive e.2 }

theorem propagate_spec {fuel : Nat} {stop : Group → Bool} {f : Change} {F : Group → Group → Group}
    {up : (Nat → Group) → Logger → Logger} {g : Nat} {s s' : Sys} (hf : Copies f F) (ho : ∀ l, (s.ord l).Perm l)
    (hp : propagate fuel stop f up g s = some s') : Propagated stop F up g s s' := by
  unfold propagate at hp
  cases hv : visitAll s.grp stop g fuel (s.groups.map (·.2)) (fun _ => none) [] with
  | none => rw [hv] at hp; cases hp
  | some q =>
    obtain ⟨passed, st⟩ := q
    rw [hv] at hp
    simp only [Option.some.injEq] at hp
    obtain ⟨v1, v2, _, v4, v5⟩ := visitAll_spec (h := s.grp) (stop := stop) (g := g)
      ⟨fun _ _ h => (by cases h), fun _ h => (by cases h)⟩
      ⟨fun y m h => absurd h (staged_nil y m), fun l hl => (by cases hl)⟩ hv
    obtain ⟨o1, o2, o3, o4⟩ := staged_order v2 ho
    obtain ⟨f1, f2⟩ := fold_spec hf (st.flatMap s.ord) s.grp o4 o1 o2
    have hpassed : ∀ y, (∃ n, passed y = some (some n)) ↔ y ∈ s.groups.map (·.2) ∧ ∃ l, Path s.grp stop g y l := by
      intro y
      constructor
      · rintro ⟨n, hn⟩
        obtain ⟨l, l1, _⟩ := v1.hit y n hn
        refine ⟨?_, l, l1⟩
        have := (v4 y).1 (by rw [hn]; rfl)
        simpa using this
      · rintro ⟨hy, l, hl⟩
        have : (passed y).isSome := (v4 y).2 (.inr hy)
        cases hq : passed y with
        | none => rw [hq] at this; cases this
        | some q =>
          cases q with
          | none => exact absurd ⟨l, hl⟩ (v1.miss y hq)
          | some n => exact ⟨n, rfl⟩
    have hgrp : s'.grp = (st.flatMap s.ord).foldl (change1 f) s.grp := by rw [← hp]; rfl
    have hstaged : ∀ x, (∃ m, Staged st x m) ↔ ∃ r l, r ∈ s.groups.map (·.2) ∧ Path s.grp stop g r l ∧ x ∈ l := by
      intro x
      constructor
      · rintro ⟨m, hm⟩
        rcases v5 x m hm with h | ⟨r, hr, l, hl, hx⟩
        · exact absurd h (staged_nil x m)
        · exact ⟨r, l, hr, hl, hx⟩
      · rintro ⟨r, l, hr, hl, hx⟩
        obtain ⟨n, hn⟩ := (hpassed r).2 ⟨hr, l, hl⟩
        obtain ⟨l', l1, _, l3⟩ := v1.hit r n hn
        rw [l1.det hl] at l3
        exact l3 x hx
    refine ⟨?_, ?_, ?_, ?_, ?_⟩
    · intro r l x p hr hl hx hxp
      rw [hgrp]
      exact f2 x ((o3 x).2 ((hstaged x).2 ⟨r, l, hr, hl, hx⟩)) p hxp
    · intro x hx
      rw [hgrp]
      apply f1
      intro hc
      obtain ⟨r, l, hr, hl, hxl⟩ := (hstaged x).1 ((o3 x).1 hc)
      exact hx r l hr hl hxl
    · intro i ha hi hg hl
      obtain ⟨n, hn⟩ := (hpassed _).2 ⟨hg, hl⟩
      rw [← hp]
      unfold updateLoggers
      simp only [ha, hi, and_self, if_true, hn]
    · intro i hni
      rw [← hp]
      unfold updateLoggers
      simp only
      split
      · rename_i hi
        split
        · rename_i n hn
          obtain ⟨q1, q2⟩ := (hpassed _).1 ⟨n, hn⟩
          exact absurd ⟨hi.1, hi.2, q1, q2⟩ hni
        · rfl
      · rfl
    · rw [← hp]; rfl

end System
end Soralog
