import Verif.Spec.HappensBefore
/-!
# Locations guarded by flags are accessed without races
-/
namespace Soralog
namespace Race

/-- which flag guards which location -/
class Guard (F L : Type) where
  guard : L → Option F
export Guard (guard)

variable {F L : Type} [DecidableEq F] [Guard F L]

/-- who holds the flag after the trace -/
def held (f : F) (tr : GTrace F L) : Option Tid :=
  tr.foldl (fun h e => match e.2 with
    | .acquire g => if g = f then some e.1 else h
    | .release g => if g = f then none else h
    | _ => h) none

theorem held_snoc (f : F) (tr : GTrace F L) (t : Tid) (e : GEv F L) : held f (tr ++ [(t, e)]) = match e with
    | .acquire g => if g = f then some t else held f tr
    | .release g => if g = f then none else held f tr
    | _ => held f tr := by
  unfold held
  rw [List.foldl_append]
  rfl

/-- what an event must observe -/
def Ok (tr : GTrace F L) (t : Tid) : GEv F L → Prop
  | .acquire f => held f tr = none
  | .release f => held f tr = some t
  | .read x | .write x => ∀ f, guard x = some f → held f tr = some t
  | _ => True

/-- every event of the trace is made in accordance with the flags -/
inductive Disc : GTrace F L → Prop
  | nil : Disc []
  | snoc {tr : GTrace F L} {t : Tid} {e : GEv F L} (h : Disc tr) (ok : Ok tr t e) : Disc (tr ++ [(t, e)])

theorem getElem?_snoc {tr : GTrace F L} {x y : Tid × GEv F L} {i : Nat} (h : (tr ++ [x])[i]? = some y) : tr[i]? = some y ∨ (i = tr.length ∧ y = x) := by
  rw [List.getElem?_append] at h
  split at h
  · exact .inl h
  · rename_i hi
    have : i - tr.length < [x].length := by
      rcases Nat.lt_or_ge (i - tr.length) [x].length with h1 | h1
      · exact h1
      · rw [List.getElem?_eq_none h1] at h; cases h
    have e : i - tr.length = 0 := by simpa using this
    rw [e] at h
    cases h
    exact .inr ⟨by omega, rfl⟩

theorem lt_of_some {tr : GTrace F L} {i : Nat} {y : Tid × GEv F L} (h : tr[i]? = some y) : i < tr.length := by
  rcases Nat.lt_or_ge i tr.length with h1 | h1
  · exact h1
  · rw [List.getElem?_eq_none h1] at h; cases h

theorem old {tr : GTrace F L} {x y : Tid × GEv F L} {i : Nat} (hi : i < tr.length) : (tr ++ [x])[i]? = some y ↔ tr[i]? = some y := by
  rw [List.getElem?_append_left hi]

theorem last {tr : GTrace F L} {x : Tid × GEv F L} : (tr ++ [x])[tr.length]? = some x := by
  rw [List.getElem?_append_right (Nat.le_refl _)]; simp

/-- the holder has acquired it, and since then nobody has touched the flag -/
theorem held_some {tr : GTrace F L} (hd : Disc tr) {f : F} {t : Tid} (h : held f tr = some t) : ∃ k : Nat, tr[k]? = some (t, GEv.acquire f) ∧
    ∀ (m : Nat) (v : Tid), k < m → tr[m]? ≠ some (v, GEv.acquire f) ∧ tr[m]? ≠ some (v, GEv.release f) := by
  induction hd with
  | nil => cases h
  | @snoc tr u e hd ok ih =>
    rw [held_snoc] at h
    have keep : (e ≠ .acquire f ∧ e ≠ .release f) → held f tr = some t → ∃ k : Nat, (tr ++ [(u, e)])[k]? = some (t, .acquire f) ∧
        ∀ (m : Nat) (v : Tid), k < m → (tr ++ [(u, e)])[m]? ≠ some (v, .acquire f) ∧ (tr ++ [(u, e)])[m]? ≠ some (v, .release f) := by
      intro hne hh
      obtain ⟨k, h1, h2⟩ := ih hh
      refine ⟨k, (old (lt_of_some h1)).2 h1, fun m v hm => ⟨fun hx => ?_, fun hx => ?_⟩⟩
      · rcases getElem?_snoc hx with h | ⟨_, h⟩
        · exact (h2 m v hm).1 h
        · cases h; exact hne.1 rfl
      · rcases getElem?_snoc hx with h | ⟨_, h⟩
        · exact (h2 m v hm).2 h
        · cases h; exact hne.2 rfl
    cases e with
    | acquire g =>
      dsimp only at h
      by_cases hg : g = f
      · subst hg
        rw [if_pos rfl] at h
        cases h
        refine ⟨tr.length, last, fun m v hm => ?_⟩
        have : (tr ++ [(t, GEv.acquire g)])[m]? = none := List.getElem?_eq_none (by simp; omega)
        rw [this]; exact ⟨nofun, nofun⟩
      · rw [if_neg hg] at h
        exact keep ⟨fun e => hg (by injection e), nofun⟩ h
    | release g =>
      dsimp only at h
      by_cases hg : g = f
      · rw [if_pos hg] at h; cases h
      · rw [if_neg hg] at h
        exact keep ⟨nofun, fun e => hg (by injection e)⟩ h
    | read x => exact keep ⟨nofun, nofun⟩ h
    | write x => exact keep ⟨nofun, nofun⟩ h
    | destroy => exact keep ⟨nofun, nofun⟩ h
    | join => exact keep ⟨nofun, nofun⟩ h

/-- the event needs the flag -/
def needs (f : F) : GEv F L → Prop
  | .release g => g = f
  | .read x | .write x => guard x = some f
  | _ => False

theorem needs_held {tr : GTrace F L} {t : Tid} {e : GEv F L} {f : F} (h : Ok tr t e) (hn : needs f e) : held f tr = some t := by
  cases e <;> first | exact hn.elim | exact h f hn | (cases hn; exact h)

/-- nothing happens to the flag between two moments -/
def Still (tr : GTrace F L) (f : F) (k r : Nat) : Prop :=
  ∀ m v, k < m → m < r → tr[m]? ≠ some (v, .acquire f) ∧ tr[m]? ≠ some (v, .release f)

theorem Still.old {tr : GTrace F L} {x : Tid × GEv F L} {f : F} {k r : Nat} (h : Still tr f k r) (hr : r ≤ tr.length) : Still (tr ++ [x]) f k r := by
  intro m v h1 h2
  rw [ne_eq, ne_eq, Race.old (by omega), Race.old (by omega)]
  exact h m v h1 h2

theorem disc_take {tr : GTrace F L} (hd : Disc tr) (n : Nat) : Disc (tr.take n) := by
  induction hd with
  | nil => simp; exact .nil
  | @snoc tr u e hd ok ih =>
    rcases Nat.lt_or_ge tr.length n with h | h
    · rw [List.take_of_length_le (by simp; omega)]; exact .snoc hd ok
    · rw [List.take_append_of_le_length h]; exact ih

/-- what is done under the flag is preceded by its acquisition by the same thread -/
theorem acquired_of {tr : GTrace F L} (hd : Disc tr) {f : F} {n : Nat} {t : Tid} (he : held f (tr.take n) = some t) (hlen : n ≤ tr.length) :
    ∃ k, k < n ∧ tr[k]? = some (t, .acquire f) ∧ Still tr f k n := by
  obtain ⟨k, h1, h2⟩ := held_some (disc_take hd n) he
  have hk := lt_of_some h1
  rw [List.length_take] at hk
  have hkn : k < n := by omega
  have e : ∀ m, m < n → (tr.take n)[m]? = tr[m]? := fun m hm => by rw [List.getElem?_take, if_pos hm]
  refine ⟨k, hkn, by rw [← e k hkn]; exact h1, fun m v hm hm' => ?_⟩
  rw [← e m hm']
  exact h2 m v hm

/-- the discipline at one event -/
theorem disc_at {tr : GTrace F L} (hd : Disc tr) {n : Nat} {t : Tid} {e : GEv F L} (hn : tr[n]? = some (t, e)) : Ok (tr.take n) t e := by
  induction hd with
  | nil => simp at hn
  | @snoc tr u e' hd ok ih =>
    rcases getElem?_snoc hn with hn | ⟨rfl, h⟩
    · rw [List.take_append_of_le_length (Nat.le_of_lt (lt_of_some hn))]; exact ih hn
    · cases h; rw [List.take_append_of_le_length (Nat.le_refl _), List.take_length]; exact ok

/-- what needs the flag is preceded by its acquisition by the same thread -/
theorem acquired {tr : GTrace F L} (hd : Disc tr) {f : F} {n : Nat} {t : Tid} {e : GEv F L} (hn : tr[n]? = some (t, e)) (he : needs f e) :
    ∃ k, k < n ∧ tr[k]? = some (t, .acquire f) ∧ Still tr f k n :=
  acquired_of hd (needs_held (disc_at hd hn) he) (Nat.le_of_lt (lt_of_some hn))

/-- an acquired flag is still held, or has been released by the same thread -/
theorem released {tr : GTrace F L} (hd : Disc tr) {f : F} {k : Nat} {t : Tid} (hk : tr[k]? = some (t, .acquire f)) :
    (held f tr = some t ∧ Still tr f k tr.length) ∨ ∃ r, k < r ∧ tr[r]? = some (t, .release f) ∧ Still tr f k r := by
  induction hd with
  | nil => simp at hk
  | @snoc tr u e hd ok ih =>
    have hlen : (tr ++ [(u, e)]).length = tr.length + 1 := by simp
    rcases getElem?_snoc hk with hk | ⟨rfl, h⟩
    · have hklt := lt_of_some hk
      rcases ih hk with ⟨h1, h2⟩ | ⟨r, h1, h2, h3⟩
      · have stay : e ≠ .acquire f → e ≠ .release f → Still (tr ++ [(u, e)]) f k (tr ++ [(u, e)]).length := by
          intro e1 e2 m v hm hm'
          rw [hlen] at hm'
          rcases Nat.lt_or_ge m tr.length with hlt | hge
          · rw [ne_eq, ne_eq, old hlt, old hlt]; exact h2 m v hm hlt
          · have : m = tr.length := by omega
            subst this
            rw [last]
            exact ⟨fun h => e1 (by cases h; rfl), fun h => e2 (by cases h; rfl)⟩
        rw [held_snoc]
        cases e with
        | acquire g =>
          by_cases hg : g = f
          · subst hg
            have ok : held g tr = none := ok
            rw [ok] at h1; cases h1
          · left
            refine ⟨by dsimp only; rw [if_neg hg]; exact h1, stay (fun e => hg (by injection e)) nofun⟩
        | release g =>
          by_cases hg : g = f
          · subst hg
            have ok : held g tr = some u := ok
            rw [ok] at h1; cases h1
            exact .inr ⟨tr.length, hklt, last, h2.old (Nat.le_refl _)⟩
          · left
            refine ⟨by dsimp only; rw [if_neg hg]; exact h1, stay nofun (fun e => hg (by injection e))⟩
        | read x => exact .inl ⟨h1, stay nofun nofun⟩
        | write x => exact .inl ⟨h1, stay nofun nofun⟩
        | destroy => exact .inl ⟨h1, stay nofun nofun⟩
        | join => exact .inl ⟨h1, stay nofun nofun⟩
      · have := lt_of_some h2
        exact .inr ⟨r, h1, (old this).2 h2, h3.old (by omega)⟩
    · cases h
      left
      rw [held_snoc]
      refine ⟨by dsimp only; rw [if_pos rfl], fun m v hm hm' => ?_⟩
      rw [hlen] at hm'
      omega

/-- the latest release before an acquisition -/
theorem latest {tr : GTrace F L} {f : F} (n r : Nat) (hr : r < n) (t : Tid) (h : tr[r]? = some (t, .release f)) :
    ∃ r' u, r ≤ r' ∧ r' < n ∧ tr[r']? = some (u, .release f) ∧ ∀ k v, r' < k → k < n → tr[k]? ≠ some (v, .release f) := by
  induction n with
  | zero => omega
  | succ n ih =>
    by_cases hx : ∃ v, tr[n]? = some (v, .release f)
    · obtain ⟨v, hv⟩ := hx
      exact ⟨n, v, by omega, by omega, hv, fun k _ h1 h2 => by omega⟩
    · rcases Nat.lt_or_ge r n with hlt | hge
      · obtain ⟨r', u, h1, h2, h3, h4⟩ := ih hlt
        refine ⟨r', u, h1, by omega, h3, fun k v h5 h6 => ?_⟩
        rcases Nat.lt_or_ge k n with hk | hk
        · exact h4 k v h5 hk
        · have : k = n := by omega
          subst this
          exact fun h => hx ⟨v, h⟩
      · have : r = n := by omega
        subst this
        exact absurd ⟨t, h⟩ hx

/-- a release of a flag happens before every later acquisition of it -/
theorem release_before {w : Tid} {tr : GTrace F L} (hd : Disc tr) {f : F} {r : Nat} {t : Tid} (hr : tr[r]? = some (t, .release f)) :
    ∀ k u, r < k → tr[k]? = some (u, .acquire f) → HB w tr r k := by
  intro k
  induction k using Nat.strongRecOn with
  | ind k ih =>
    intro u hrk hk
    obtain ⟨r', v, h1, h2, h3, h4⟩ := latest k r hrk t hr
    rcases Nat.lt_or_eq_of_le h1 with hlt | heq
    · obtain ⟨k', h5, h6, h7⟩ := acquired hd (f := f) h3 rfl
      have h8 : r < k' := by
        rcases Nat.lt_trichotomy r k' with h | h | h
        · exact h
        · subst h; rw [h6] at hr; cases hr
        · exact absurd hr (h7 r t h hlt).2
      exact .trans (ih k' (by omega) v h8 h6) (.trans (.thread h5 h6 h3) (.flag h2 h3 hk h4))
    · subst heq
      exact .flag h2 h3 hk h4

/-- accesses under the flag are ordered -/
theorem held_before {w : Tid} {tr : GTrace F L} (hd : Disc tr) {f : F} {i j : Nat} {t u : Tid} {a b : GEv F L} (hij : i < j)
    (hi : tr[i]? = some (t, a)) (hj : tr[j]? = some (u, b)) (htu : t ≠ u) (ha : held f (tr.take i) = some t) (hb : held f (tr.take j) = some u) :
    HB w tr i j := by
  obtain ⟨k1, h1, h2, h3⟩ := acquired_of hd ha (Nat.le_of_lt (lt_of_some hi))
  obtain ⟨k2, h4, h5, h6⟩ := acquired_of hd hb (Nat.le_of_lt (lt_of_some hj))
  have hlt : k1 < k2 := by
    rcases Nat.lt_trichotomy k1 k2 with h | h | h
    · exact h
    · subst h; rw [h2] at h5; cases h5; exact absurd rfl htu
    · exact absurd h2 (h6 k1 t h (by omega)).1
  rcases released hd h2 with ⟨h7, h8⟩ | ⟨r, h7, h8, h9⟩
  · exact absurd h5 (h8 k2 u hlt (lt_of_some h5)).1
  · have hr : r < k2 := by
      rcases Nat.lt_trichotomy r k2 with h | h | h
      · exact h
      · subst h; rw [h8] at h5; cases h5
      · exact absurd h5 (h9 k2 u hlt h).1
    have hir : i ≤ r := by
      rcases Nat.lt_or_ge r i with h | h
      · exact absurd h8 (h3 r t h7 h).2
      · exact h
    have hrest := HB.trans (release_before (w := w) hd h8 k2 u hr h5) (.thread h4 h5 hj)
    rcases Nat.lt_or_eq_of_le hir with h | h
    · exact .trans (.thread h hi h8) hrest
    · subst h; exact hrest

theorem disc_raceFree {w : Tid} {tr : GTrace F L} (hg : ∀ x : L, (guard x : Option F) ≠ none) (hd : Disc tr) : RaceFree w tr := by
  intro i j t u a b hij hi hj htu hc
  obtain ⟨x, hx⟩ := hc
  cases hf : (guard x : Option F) with
  | none => exact absurd hf (hg x)
  | some f =>
    have ha : needs f a := by rcases hx with ⟨rfl, _⟩ | ⟨rfl, _⟩ <;> exact hf
    have hb : needs f b := by rcases hx with ⟨_, rfl | rfl⟩ | ⟨_, rfl⟩ <;> exact hf
    exact held_before hd hij hi hj htu (needs_held (disc_at hd hi) ha) (needs_held (disc_at hd hj) hb)

/-- more events at the end change nothing about the earlier ones -/
theorem HB.mono {w : Tid} {tr : GTrace F L} {i j : Nat} (h : HB w tr i j) (l : GTrace F L) : HB w (tr ++ l) i j := by
  have lift : ∀ {i : Nat} {y : Tid × GEv F L}, tr[i]? = some y → (tr ++ l)[i]? = some y := fun h => by
    rw [List.getElem?_append_left (lt_of_some h)]; exact h
  induction h with
  | thread hij hi hj => exact .thread hij (lift hi) (lift hj)
  | flag hij hi hj hlast =>
    refine .flag hij (lift hi) (lift hj) fun k v h1 h2 => ?_
    rw [List.getElem?_append_left (Nat.lt_trans h2 (lt_of_some hj))]
    exact hlast k v h1 h2
  | destroy hij hi ht hj => exact .destroy hij (lift hi) ht (lift hj)
  | join hij hi hj => exact .join hij (lift hi) (lift hj)
  | trans _ _ h1 h2 => exact .trans h1 h2

/-- a last part made by one thread, to which everything before it is known -/
theorem raceFree_final {w : Tid} {tr l : GTrace F L} (h : RaceFree w tr) {t : Tid} (hl : ∀ e ∈ l, e.1 = t)
    (hk : ∀ i u a, tr[i]? = some (u, a) → u = t ∨ ∃ j b, HB w tr i j ∧ tr[j]? = some (t, b)) : RaceFree w (tr ++ l) := by
  have hnew : ∀ {i : Nat} {y : Tid × GEv F L}, (tr ++ l)[i]? = some y → tr[i]? = some y ∨ (tr.length ≤ i ∧ y.1 = t) := by
    intro i y h
    rw [List.getElem?_append] at h
    split at h
    · exact .inl h
    · exact .inr ⟨by omega, hl _ (List.mem_of_getElem? h)⟩
  intro i j u v a b hij hi hj huv hc
  rcases hnew hj with hj' | ⟨h1, h2⟩
  · have : i < tr.length := Nat.lt_trans hij (lt_of_some hj')
    rw [List.getElem?_append_left this] at hi
    exact (h i j u v a b hij hi hj' huv hc).mono l
  · have h2 : v = t := h2
    subst h2
    rcases hnew hi with hi' | ⟨_, h4⟩
    · rcases hk i u a hi' with h5 | ⟨k, b', h5, h6⟩
      · exact absurd h5 huv
      · have := lt_of_some h6
        have h6' : (tr ++ l)[k]? = some (v, b') := by rw [List.getElem?_append_left this]; exact h6
        exact .trans (h5.mono l) (.thread (by omega) h6' hj)
    · exact absurd h4 huv

end Race
end Soralog
