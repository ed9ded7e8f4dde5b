import Verif.Model.System
/-!
# Facts about the tables of the logging system
-/
namespace Soralog
namespace System
namespace Table

/-- no key occurs twice (a hash map) -/
def Unique (t : Table) : Prop := (t.map (·.1)).Nodup

theorem find_some_mem {t : Table} {k : Text} {v : Nat} (h : t.find k = some v) : (k, v) ∈ t := by
  unfold find at h
  rw [Option.map_eq_some_iff] at h
  obtain ⟨e, he, hv⟩ := h
  have h1 := List.mem_of_find?_eq_some he
  have h2 : (e.1 == k) = true := List.find?_some (p := fun e : Text × Nat => e.1 == k) he
  have h2 : e.1 = k := by simpa using h2
  subst hv; subst h2; exact h1

theorem find_of_mem {t : Table} (hu : t.Unique) {k : Text} {v : Nat} (h : (k, v) ∈ t) : t.find k = some v := by
  induction t with
  | nil => cases h
  | cons e t ih =>
    unfold Unique at hu
    rw [List.map_cons, List.nodup_cons] at hu
    unfold find
    rw [List.find?_cons]
    cases h with
    | head => simp
    | tail _ h =>
      have hne : (e.1 == k) = false := by
        rw [beq_eq_false_iff_ne]
        intro he
        exact hu.1 (by rw [he]; exact List.mem_map_of_mem (f := (·.1)) h)
      rw [hne]
      exact ih hu.2 h

theorem find_none {t : Table} {k : Text} (h : t.find k = none) (v : Nat) : (k, v) ∉ t := by
  intro hm
  unfold find at h
  rw [Option.map_eq_none_iff, List.find?_eq_none] at h
  exact h _ hm (by simp)

theorem mem_values {t : Table} (hu : t.Unique) {v : Nat} : v ∈ t.map (·.2) ↔ ∃ k, t.find k = some v := by
  constructor
  · intro h
    obtain ⟨⟨k, v'⟩, he, hv⟩ := List.mem_map.1 h
    simp only at hv
    subst hv
    exact ⟨k, find_of_mem hu he⟩
  · rintro ⟨k, h⟩
    exact List.mem_map.2 ⟨(k, v), find_some_mem h, rfl⟩

theorem put_unique {t : Table} (hu : t.Unique) (k : Text) (v : Nat) : (t.put k v).Unique := by
  unfold put Unique
  split
  · have : (t.map fun e => if e.1 == k then (k, v) else e).map (·.1) = t.map (·.1) := by
      rw [List.map_map]
      apply List.map_congr_left
      intro e _
      simp only [Function.comp]
      split
      · rename_i h; simp at h; exact h.symm
      · rfl
    rw [this]; exact hu
  · rename_i hn
    rw [List.map_append, List.map_singleton]
    rw [List.nodup_append]
    refine ⟨hu, by simp, ?_⟩
    intro a ha b hb
    simp only [List.mem_singleton] at hb
    subst hb
    intro hab
    subst hab
    obtain ⟨e, he, hk⟩ := List.mem_map.1 ha
    apply hn
    rw [List.any_eq_true]
    exact ⟨e, he, by simp [hk]⟩

theorem find_map_put (t : Table) (k k' : Text) (v : Nat) :
    (find (t.map fun e => if e.1 == k then (k, v) else e) k') =
      if k' = k then (if t.any (fun e => e.1 == k) then some v else none) else t.find k' := by
  induction t with
  | nil => simp [find]
  | cons e t ih =>
    unfold find at ih ⊢
    simp only [List.map_cons, List.find?_cons, List.any_cons]
    by_cases hek : e.1 = k
    · subst hek
      simp only [beq_self_eq_true, if_true, Bool.true_or]
      by_cases hk : k' = e.1
      · subst hk; simp
      · have h1 : (e.1 == k') = false := by rw [beq_eq_false_iff_ne]; exact fun h => hk h.symm
        rw [h1]
        simp only [if_neg hk] at ih ⊢
        exact ih
    · have h0 : (e.1 == k) = false := by rw [beq_eq_false_iff_ne]; exact hek
      simp only [h0, Bool.false_or, Bool.false_eq_true, if_false]
      by_cases hk : e.1 = k'
      · subst hk
        simp [hek]
      · have h1 : (e.1 == k') = false := by rw [beq_eq_false_iff_ne]; exact hk
        simp only [h1]
        exact ih

theorem find_put (t : Table) (k k' : Text) (v : Nat) :
    (t.put k v).find k' = if k' = k then some v else t.find k' := by
  unfold put
  split
  · rename_i h
    rw [find_map_put, h]; simp
  · rename_i h
    unfold find
    rw [List.find?_append]
    by_cases hk : k' = k
    · subst hk
      have : t.find? (fun e => e.1 == k') = none := by
        rw [List.find?_eq_none]
        intro e he hc
        exact h (List.any_eq_true.2 ⟨e, he, hc⟩)
      rw [this]; simp
    · have h1 : (k == k') = false := by rw [beq_eq_false_iff_ne]; exact fun h => hk h.symm
      rw [if_neg hk]
      simp [h1]

theorem find_put_self (t : Table) (k : Text) (v : Nat) : (t.put k v).find k = some v := by
  rw [find_put, if_pos rfl]

theorem find_put_ne (t : Table) {k k' : Text} (v : Nat) (h : k' ≠ k) : (t.put k v).find k' = t.find k' := by
  rw [find_put, if_neg h]

theorem filter_unique {t : Table} (hu : t.Unique) (p : Text × Nat → Bool) : Unique (t.filter p) := by
  unfold Unique at hu ⊢
  exact List.Nodup.sublist (List.Sublist.map _ List.filter_sublist) hu

theorem find_filter {t : Table} (hu : t.Unique) (p : Text × Nat → Bool) (k : Text) :
    find (t.filter p) k = (t.find k).bind fun v => if p (k, v) then some v else none := by
  cases h : t.find k with
  | none =>
    cases h' : find (t.filter p) k with
    | none => rfl
    | some v => exact absurd (List.mem_filter.1 (find_some_mem h')).1 (find_none h v)
  | some v =>
    have hm := find_some_mem h
    show _ = if p (k, v) then some v else none
    split
    · rename_i hp
      exact find_of_mem (filter_unique hu p) (List.mem_filter.2 ⟨hm, hp⟩)
    · rename_i hp
      cases h' : find (t.filter p) k with
      | none => rfl
      | some w =>
        exfalso
        have := List.mem_filter.1 (find_some_mem h')
        have h2 := find_of_mem hu this.1
        rw [h] at h2
        cases h2
        exact hp this.2

theorem erase_unique {t : Table} (hu : t.Unique) (k : Text) : (t.erase k).Unique := filter_unique hu _

theorem find_erase {t : Table} (hu : t.Unique) (k k' : Text) :
    (t.erase k).find k' = if k' = k then none else t.find k' := by
  unfold erase
  rw [find_filter hu]
  by_cases h : k' = k
  · subst h; cases t.find k' <;> simp
  · rw [if_neg h]
    have : (!(k' == k)) = true := by simp [h]
    cases t.find k' <;> simp [this]

theorem mem_put {t : Table} {k k' : Text} {v v' : Nat} (h : (k', v') ∈ t.put k v) :
    (k' = k ∧ v' = v) ∨ (k', v') ∈ t := by
  unfold put at h
  split at h
  · obtain ⟨e, he, heq⟩ := List.mem_map.1 h
    split at heq
    · cases heq; exact Or.inl ⟨rfl, rfl⟩
    · subst heq; exact Or.inr he
  · rw [List.mem_append] at h
    rcases h with h | h
    · exact Or.inr h
    · simp at h; exact Or.inl h

end Table
end System
end Soralog
