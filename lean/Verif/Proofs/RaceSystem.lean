import Verif.Proofs.HappensBefore
import Verif.Model.RaceSystem
/-!
# The logging system respects its mutex
-/
namespace Soralog
namespace Race
open System.Conc (St)

instance sysGuard : Guard Mutex Field where
  guard _ := none

theorem ok_access {tr : SysTrace} {t : Tid} {e : SysEv} (h : isAccess e = true) : Ok tr t e := by
  cases e <;> first | exact fun f e => nomatch e | cases h

theorem held_access {tr : SysTrace} {t : Tid} {acc : List SysEv} (h : ∀ e ∈ acc, isAccess e = true) :
    held .mutex (tr ++ acc.map (t, ·)) = held .mutex tr := by
  induction acc generalizing tr with
  | nil => simp
  | cons e acc ih =>
    have : tr ++ (e :: acc).map (t, ·) = (tr ++ [(t, e)]) ++ acc.map (t, ·) := by simp
    rw [this, ih (fun e he => h e (List.mem_cons_of_mem _ he)), held_snoc]
    have he := h e (List.mem_cons_self)
    cases e <;> first | rfl | cases he

theorem disc_access {tr : SysTrace} {t : Tid} {acc : List SysEv} (hd : Disc tr) (h : ∀ e ∈ acc, isAccess e = true) : Disc (tr ++ acc.map (t, ·)) := by
  induction acc generalizing tr with
  | nil => simpa using hd
  | cons e acc ih =>
    have : tr ++ (e :: acc).map (t, ·) = (tr ++ [(t, e)]) ++ acc.map (t, ·) := by simp
    rw [this]
    exact ih (.snoc hd (ok_access (h e List.mem_cons_self))) (fun e he => h e (List.mem_cons_of_mem _ he))

theorem block_eq (tr : SysTrace) (t : Tid) (acc : List SysEv) :
    tr ++ block t acc = ((tr ++ [(t, .acquire .mutex)]) ++ acc.map (t, ·)) ++ [(t, .release .mutex)] := by simp [block]

theorem held_acq (tr : SysTrace) (t : Tid) : held .mutex (tr ++ [(t, .acquire .mutex)]) = some t := by rw [held_snoc]; rfl

theorem disc_block {tr : SysTrace} {t : Tid} {acc : List SysEv} (hd : Disc tr) (hn : held .mutex tr = none) (h : ∀ e ∈ acc, isAccess e = true) :
    Disc (tr ++ block t acc) ∧ held .mutex (tr ++ block t acc) = none := by
  rw [block_eq]
  have h1 : Disc (tr ++ [(t, .acquire .mutex)]) := .snoc hd hn
  have h2 : Disc ((tr ++ [(t, .acquire .mutex)]) ++ acc.map (t, ·)) := disc_access h1 h
  have h3 : held .mutex ((tr ++ [(t, .acquire .mutex)]) ++ acc.map (t, ·)) = some t := by rw [held_access h, held_acq]
  refine ⟨.snoc h2 h3, ?_⟩
  rw [held_snoc]; rfl

theorem plain_access (p : System.Conc.PC) : ∀ e ∈ plainEvents p, isAccess e = true := by
  intro e he
  cases p <;> simp [plainEvents] at he <;> subst he <;> rfl

/-- what may be accessed without the mutex, when the methods of logger objects are not used -/
def Plain (e : SysEv) : Prop :=
  ∃ x, e = .read x ∧ ((∃ i, x = .loggerLevel i ∨ x = .loggerSink i) ∨ ∃ g, x = .groupLevel g ∨ x = .groupSink g)

theorem plain_plain (p : System.Conc.PC) : ∀ e ∈ plainEvents p, Plain e := by
  intro e he
  cases p <;> simp [plainEvents] at he <;> subst he
  · exact ⟨_, rfl, .inr ⟨_, .inr rfl⟩⟩
  · exact ⟨_, rfl, .inr ⟨_, .inl rfl⟩⟩
  · exact ⟨_, rfl, .inl ⟨_, .inl rfl⟩⟩
  · exact ⟨_, rfl, .inl ⟨_, .inr rfl⟩⟩
  · exact ⟨_, rfl, .inl ⟨_, .inl rfl⟩⟩
  · exact ⟨_, rfl, .inl ⟨_, .inr rfl⟩⟩

theorem getElem?_two {tr l : SysTrace} {n : Nat} {y : Tid × SysEv} (h : (tr ++ l)[n]? = some y) :
    (n < tr.length ∧ tr[n]? = some y) ∨ (tr.length ≤ n ∧ l[n - tr.length]? = some y) := by
  rw [List.getElem?_append] at h
  split at h
  · exact .inl ⟨by assumption, h⟩
  · exact .inr ⟨by omega, h⟩

/-- an access inside a block holds the mutex -/
theorem held_block {tr : SysTrace} {t u : Tid} {acc : List SysEv} {e : SysEv} {n : Nat} (h : ∀ e ∈ acc, isAccess e = true) (he : isAccess e = true)
    (hge : tr.length ≤ n) (hn : (tr ++ block t acc)[n]? = some (u, e)) : u = t ∧ held .mutex ((tr ++ block t acc).take n) = some t := by
  rw [block_eq] at hn ⊢
  rcases getElem?_two hn with ⟨hlt, h1⟩ | ⟨_, h1⟩
  · rcases getElem?_two h1 with ⟨hlt', h2⟩ | ⟨hge', h2⟩
    · rcases getElem?_two h2 with ⟨h3, _⟩ | ⟨_, h3⟩
      · omega
      · have : n - tr.length = 0 := by simp at hlt'; omega
        rw [this] at h3; cases h3; cases he
    · have hu : u = t := by
        have := List.mem_of_getElem? h2
        obtain ⟨e', _, h3⟩ := List.mem_map.1 this
        cases h3; rfl
      refine ⟨hu, ?_⟩
      rw [List.take_append_of_le_length (Nat.le_of_lt hlt), List.take_append, List.take_of_length_le hge', List.map_take.symm,
        held_access (fun e he => h e (List.mem_of_mem_take he)), held_acq]
  · have := List.mem_of_getElem? h1
    simp at this
    cases this.2 ▸ he

structure SysGood (direct : Bool) (tr : SysTrace) : Prop where
  disc : Disc tr
  free : held .mutex tr = none
  plain : direct = false → ∀ n t e, tr[n]? = some (t, e) → isAccess e = true → held .mutex (tr.take n) = some t ∨ Plain e

theorem good_block {d : Bool} {tr : SysTrace} (h : SysGood d tr) {t : Tid} {acc : List SysEv} (ha : ∀ e ∈ acc, isAccess e = true) :
    SysGood d (tr ++ block t acc) := by
  have h1 := disc_block (t := t) h.disc h.free ha
  refine ⟨h1.1, h1.2, fun hd n u e hn he => ?_⟩
  rcases getElem?_two hn with ⟨hlt, h2⟩ | ⟨hge, _⟩
  · rw [List.take_append_of_le_length (Nat.le_of_lt hlt)]; exact h.plain hd n u e h2 he
  · obtain ⟨rfl, h3⟩ := held_block ha he hge hn
    exact .inl h3

theorem good_plain {d : Bool} {tr : SysTrace} (h : SysGood d tr) {t : Tid} {acc : List SysEv} (ha : ∀ e ∈ acc, isAccess e = true)
    (hp : d = false → ∀ e ∈ acc, Plain e) : SysGood d (tr ++ acc.map (t, ·)) := by
  refine ⟨disc_access h.disc ha, by rw [held_access ha]; exact h.free, fun hd n u e hn he => ?_⟩
  rcases getElem?_two hn with ⟨hlt, h2⟩ | ⟨hge, h2⟩
  · rw [List.take_append_of_le_length (Nat.le_of_lt hlt)]; exact h.plain hd n u e h2 he
  · obtain ⟨e', h3, h4⟩ := List.mem_map.1 (List.mem_of_getElem? h2)
    cases h4
    exact .inr (hp hd e h3)

theorem good_run {d : Bool} {s : St} {tr : SysTrace} (h : SysRun d s tr) : SysGood d tr := by
  induction h with
  | init => exact ⟨.nil, rfl, fun _ n t e hn => by simp at hn⟩
  | next _ he ih =>
    cases he with
    | call t op fuel v sys' acc hi hm hl hc ha => exact good_block ih ha.1
    | failed t op fuel sys' acc hi hm hl hc ha => exact good_block ih ha.1
    | method t op fuel v sys' acc hi hl hd hc ha => exact good_plain ih ha.1 (fun h => by rw [hd] at h; cases h)
    | drop t i fuel v sys' hi hc => simpa using ih
    | configuring t hi => exact good_block ih (by simp)
    | makeGroup t a hi => simpa using ih
    | log t i r hi ha => simpa using ih
    | flush t i hi ha => simpa using ih
    | plain t hi hl => exact good_plain ih (plain_access _) (fun _ => plain_plain _)
    | locked t acc hl ha => exact good_block ih ha.1

/-- under the discipline, `Locked` and `held` are the same -/
theorem held_locked {tr : SysTrace} (hd : Disc tr) {n : Nat} {t : Tid} (hn : n ≤ tr.length) : held .mutex (tr.take n) = some t ↔ Locked tr n t := by
  constructor
  · intro h
    obtain ⟨k, h1, h2, h3⟩ := acquired_of hd h hn
    exact ⟨k, h1, h2, fun m h4 h5 => (h3 m t h4 h5).2⟩
  · rintro ⟨k, h1, h2, h3⟩
    have hk : (tr.take n)[k]? = some (t, .acquire .mutex) := by rw [List.getElem?_take, if_pos h1]; exact h2
    rcases released (disc_take hd n) hk with ⟨h4, _⟩ | ⟨r, h4, h5, _⟩
    · exact h4
    · have hr := lt_of_some h5
      rw [List.length_take] at hr
      have hr : r < n := by omega
      rw [List.getElem?_take, if_pos hr] at h5
      exact absurd h5 (h3 r h4 hr)

/-- a locked access happens before every later acquisition -/
theorem locked_acquire {w : Tid} {tr : SysTrace} (hd : Disc tr) {i k : Nat} {t u : Tid} {a : SysEv} (hi : tr[i]? = some (t, a))
    (hl : held .mutex (tr.take i) = some t) (hik : i < k) (hk : tr[k]? = some (u, .acquire .mutex)) (htu : t ≠ u) : HB w tr i k := by
  obtain ⟨k1, h1, h2, h3⟩ := acquired_of hd hl (Nat.le_of_lt (lt_of_some hi))
  rcases released hd h2 with ⟨h7, h8⟩ | ⟨r, h7, h8, h9⟩
  · exact absurd hk (h8 k u (by omega) (lt_of_some hk)).1
  · have hr : r < k := by
      rcases Nat.lt_trichotomy r k with h | h | h
      · exact h
      · subst h; rw [h8] at hk; cases hk
      · exact absurd hk (h9 k u (by omega) h).1
    have hir : i ≤ r := by
      rcases Nat.lt_or_ge r i with h | h
      · exact absurd h8 (h3 r t h7 h).2
      · exact h
    rcases Nat.lt_or_eq_of_le hir with h | h
    · exact .trans (.thread h hi h8) (release_before hd h8 k u hr hk)
    · subst h; exact release_before hd h8 k u hr hk

/-- happens-before does not leave a thread without a synchronisation -/
theorem hb_same {F L : Type} {w : Tid} {tr : GTrace F L} {n : Nat} (hs : ∀ k t e, n < k → tr[k]? = some (t, e) → (∃ x, e = .read x ∨ e = .write x) ∨ ∃ f, e = .release f)
    {i j : Nat} (h : HB w tr i j) : n ≤ i → ∃ t a b, tr[i]? = some (t, a) ∧ tr[j]? = some (t, b) ∧ i < j := by
  induction h with
  | @thread i j t a b hij hi hj => exact fun _ => ⟨t, a, b, hi, hj, hij⟩
  | flag hij hi hj => exact fun h => by rcases hs _ _ _ (by omega) hj with ⟨x, h | h⟩ | ⟨f, h⟩ <;> cases h
  | destroy hij hi ht hj => exact fun h => by rcases hs _ _ _ (by omega) hj with ⟨x, h | h⟩ | ⟨f, h⟩ <;> cases h
  | join hij hi hj => exact fun h => by rcases hs _ _ _ (by omega) hj with ⟨x, h | h⟩ | ⟨f, h⟩ <;> cases h
  | trans _ _ ih1 ih2 =>
    intro h
    obtain ⟨t, a, b, h1, h2, h3⟩ := ih1 h
    obtain ⟨u, a', b', h4, h5, h6⟩ := ih2 (by omega)
    rw [h2] at h4
    cases h4
    exact ⟨t, a, b', h1, h5, by omega⟩

end Race
end Soralog
