import Verif.Spec.Lifetime
import Verif.Proofs.Whole
import Verif.Proofs.SystemTree
/-!
# Releasing owners
-/
namespace Soralog
namespace Lifetime

/-- the objects destroyed so far had no owner left when they were destroyed -/
def InOrder (mem : Obj → List Obj) (kept living destroyed : List Obj) : Prop :=
  ∀ a x b, destroyed = a ++ x :: b → x ∉ kept ∧ ∀ y ∈ living, x ∈ mem y → y ∈ a

structure RInv (mem : Obj → List Obj) (kept living : List Obj) (W L : List Obj) (m : Mem) : Prop where
  nodup : L.Nodup
  all : ∀ x, x ∈ living ↔ x ∈ L ∨ x ∈ m.destroyed
  apart : ∀ x, x ∈ L → x ∉ m.destroyed
  count : ∀ x, m.count x = (W ++ kept ++ L.flatMap mem).count x
  alive : ∀ x, x ∈ L ↔ 0 < m.count x
  once : m.destroyed.Nodup
  bad : m.bad = false
  order : InOrder mem kept living m.destroyed
  loops : ∀ x, x ∈ living → x ∈ mem x → x ∈ L

theorem count_erase_flatMap {mem : Obj → List Obj} {L : List Obj} {x : Obj} (hx : x ∈ L) (y : Obj) :
    (L.flatMap mem).count y = (mem x).count y + ((L.erase x).flatMap mem).count y := by
  have hp : (L.flatMap mem).Perm ((x :: L.erase x).flatMap mem) := (List.perm_cons_erase hx).flatMap_right mem
  rw [hp.count_eq, List.flatMap_cons, List.count_append]

theorem length_erase_flatMap {mem : Obj → List Obj} {L : List Obj} {x : Obj} (hx : x ∈ L) :
    (L.flatMap mem).length = (mem x).length + ((L.erase x).flatMap mem).length := by
  have hp : (L.flatMap mem).Perm ((x :: L.erase x).flatMap mem) := (List.perm_cons_erase hx).flatMap_right mem
  rw [hp.length_eq, List.flatMap_cons, List.length_append]

theorem inOrder_snoc {mem : Obj → List Obj} {kept living d : List Obj} {x : Obj} (h : InOrder mem kept living d) (h1 : x ∉ kept)
    (h2 : ∀ y ∈ living, x ∈ mem y → y ∈ d) : InOrder mem kept living (d ++ [x]) := by
  intro a z b he
  rcases List.eq_nil_or_concat b with rfl | ⟨b', w, rfl⟩
  · obtain ⟨rfl, hz⟩ := List.append_inj' he rfl
    cases hz
    exact ⟨h1, h2⟩
  · have he' : d ++ [x] = (a ++ z :: b') ++ [w] := by rw [he]; simp
    obtain ⟨rfl, _⟩ := List.append_inj' he' rfl
    exact h a z b' rfl

theorem release_inv {mem : Obj → List Obj} {kept living : List Obj} : ∀ (n : Nat) (W L : List Obj) (m : Mem), RInv mem kept living W L m →
    W.length + (L.flatMap mem).length ≤ n → ∃ m' L', release mem n W m = some m' ∧ RInv mem kept living [] L' m' := by
  intro n
  induction n with
  | zero =>
    intro W L m h hn
    cases W with
    | nil => exact ⟨m, L, rfl, h⟩
    | cons x W => simp at hn
  | succ n ih =>
    intro W L m h hn
    cases W with
    | nil => exact ⟨m, L, rfl, h⟩
    | cons x W =>
      have hcx := h.count x
      have hself : m.count x = (W ++ kept ++ L.flatMap mem).count x + 1 := by rw [hcx]; simp
      have hother : ∀ y, y ≠ x → m.count y = (W ++ kept ++ L.flatMap mem).count y := fun y hy => by
        rw [h.count y]; simp [hy.symm]
      have hxL : x ∈ L := (h.alive x).2 (by omega)
      unfold release
      cases hc : m.count x with
      | zero => omega
      | succ c =>
        cases c with
        | succ c =>
          simp only
          refine ih W L _ ⟨h.nodup, h.all, h.apart, fun y => ?_, fun y => ?_, h.once, h.bad, h.order, h.loops⟩ (by simp only [List.length_cons] at hn; omega)
          · simp only
            split
            · rename_i hy; subst hy; omega
            · rename_i hy; exact hother y hy
          · simp only
            split
            · rename_i hy; subst hy; simp [hxL]
            · exact h.alive y
        | zero =>
          simp only
          have hz : (W ++ kept ++ L.flatMap mem).count x = 0 := by omega
          simp only [List.count_append] at hz
          have hk : x ∉ kept := List.count_eq_zero.1 (by omega)
          have hm : x ∉ L.flatMap mem := List.count_eq_zero.1 (by omega)
          have hmx : x ∉ mem x := fun hx => hm (List.mem_flatMap.2 ⟨x, hxL, hx⟩)
          have hcount : ∀ y, (mem x ++ W ++ kept ++ (L.erase x).flatMap mem).count y = (W ++ kept ++ L.flatMap mem).count y := fun y => by
            have := count_erase_flatMap (mem := mem) hxL y
            simp only [List.count_append] at this ⊢
            omega
          refine ih (mem x ++ W) (L.erase x) _ ⟨h.nodup.erase x, fun y => ?_, fun y hy => ?_, fun y => ?_, fun y => ?_, ?_, h.bad, ?_, ?_⟩ ?_
          · simp only [List.mem_append, List.mem_singleton, h.all y, h.nodup.mem_erase_iff]
            by_cases hy : y = x
            · subst hy; simp [hxL]
            · simp [hy]
          · have hy' := h.nodup.mem_erase_iff.1 hy
            simp only [List.mem_append, List.mem_singleton, not_or]
            exact ⟨h.apart y hy'.2, hy'.1⟩
          · simp only
            rw [hcount y]
            split
            · rename_i hy; subst hy; omega
            · rename_i hy; exact hother y hy
          · simp only
            rw [h.nodup.mem_erase_iff]
            split
            · rename_i hy; subst hy; simp
            · rename_i hy; simp [hy, h.alive y]
          · refine List.nodup_append.2 ⟨h.once, by simp, fun a ha b hb he => ?_⟩
            cases List.mem_singleton.1 hb
            subst he
            exact h.apart a hxL ha
          · refine inOrder_snoc h.order hk fun y hy hyx => ?_
            rcases (h.all y).1 hy with h1 | h1
            · exact absurd (List.mem_flatMap.2 ⟨y, h1, hyx⟩) hm
            · exact h1
          · intro y hy hyy
            refine h.nodup.mem_erase_iff.2 ⟨fun he => ?_, h.loops y hy hyy⟩
            subst he; exact hmx hyy
          · have := length_erase_flatMap (mem := mem) hxL
            simp only [List.length_append, List.length_cons] at hn ⊢
            omega

theorem Owned.trans {mem : Obj → List Obj} {roots : List Obj} {x y : Obj} (h1 : Owned mem roots x) (h2 : Owned mem [x] y) : Owned mem roots y := by
  induction h2 with
  | root h => cases List.mem_singleton.1 h; exact h1
  | member _ hy ih => exact .member ih hy

theorem Owned.mono {mem : Obj → List Obj} {r r' : List Obj} (h : ∀ x ∈ r, x ∈ r') {x : Obj} (ho : Owned mem r x) : Owned mem r' x := by
  induction ho with
  | root hx => exact .root (h _ hx)
  | member _ hy ih => exact .member ih hy

/-- Releasing some of the owners destroys exactly what the others do not own; objects that hold themselves keep themselves, and what they own. -/
theorem release_spec {mem : Obj → List Obj} {roots living gone kept : List Obj} {m : Mem} (hc : Counted mem roots living m)
    (hp : roots.Perm (gone ++ kept)) (rank : Obj → Nat) (B : Nat) (hB : ∀ x ∈ living, rank x ≤ B)
    (hr : ∀ x ∈ living, ∀ y ∈ mem x, y ≠ x → rank y < rank x) {n : Nat} (hn : gone.length + (living.flatMap mem).length ≤ n) :
    ∃ m', release mem n gone m = some m' ∧ m'.bad = false ∧ m'.destroyed.Nodup ∧ InOrder mem kept living m'.destroyed ∧
      ∀ x, x ∈ m'.destroyed ↔ x ∈ living ∧ ¬ Owned mem kept x ∧ ∀ y ∈ living, y ∈ mem y → ¬ Owned mem [y] x := by
  have hroot : ∀ x ∈ roots, x ∈ living := fun x hx => (hc.owned x).2 (.root hx)
  have hmem : ∀ x ∈ living, ∀ y ∈ mem x, y ∈ living := fun x hx y hy => (hc.owned y).2 (.member ((hc.owned x).1 hx) hy)
  have h0 : RInv mem kept living gone living m := by
    refine ⟨hc.nodup, fun x => by simp [hc.fresh.1], fun x _ => by simp [hc.fresh.1], fun x => ?_, fun x => ?_, by rw [hc.fresh.1]; exact List.nodup_nil,
      hc.fresh.2, ?_, fun x hx _ => hx⟩
    · rw [hc.count x, List.count_append, List.count_append, hp.count_eq]
    · rw [hc.count x, List.count_pos_iff, List.mem_append, List.mem_flatMap, hc.owned x]
      constructor
      · intro h
        cases h with
        | root h => exact .inl h
        | member h hy => exact .inr ⟨_, (hc.owned _).2 h, hy⟩
      · rintro (h | ⟨y, hy, hx⟩)
        · exact .root h
        · exact .member ((hc.owned y).1 hy) hx
    · intro a x b he
      rw [hc.fresh.1] at he
      simp at he
  obtain ⟨m', L', h1, h2⟩ := release_inv n gone living m h0 hn
  refine ⟨m', h1, h2.bad, h2.once, h2.order, fun x => ?_⟩
  have hclosed : ∀ x ∈ L', ∀ y ∈ mem x, y ∈ L' := fun x hx y hy => by
    refine (h2.alive y).2 ?_
    rw [h2.count y, List.count_pos_iff]
    exact List.mem_append.2 (.inr (List.mem_flatMap.2 ⟨x, hx, hy⟩))
  have hown : ∀ {r : List Obj} {y : Obj}, (∀ x ∈ r, x ∈ L') → Owned mem r y → y ∈ L' := by
    intro r y hr ho
    induction ho with
    | root h => exact hr _ h
    | member _ hy ih => exact hclosed _ ih _ hy
  have hkept : ∀ x ∈ kept, x ∈ L' := fun x hx => by
    refine (h2.alive x).2 ?_
    rw [h2.count x, List.count_pos_iff]
    simp [hx]
  have hL : ∀ x ∈ L', x ∈ living := fun x hx => (h2.all x).2 (.inl hx)
  have hstay : ∀ d x, x ∈ L' → B - rank x ≤ d → Owned mem kept x ∨ ∃ y ∈ living, y ∈ mem y ∧ Owned mem [y] x := by
    intro d
    induction d with
    | zero =>
      intro x hx hd
      have hpos := (h2.alive x).1 hx
      rw [h2.count x, List.count_pos_iff, List.nil_append, List.mem_append, List.mem_flatMap] at hpos
      rcases hpos with h | ⟨y, hy, hyx⟩
      · exact .inl (.root h)
      · by_cases he : x = y
        · subst he; exact .inr ⟨x, hL x hx, hyx, .root (List.mem_singleton.2 rfl)⟩
        · have := hr y (hL y hy) x hyx he
          have := hB y (hL y hy)
          omega
    | succ d ih =>
      intro x hx hd
      have hpos := (h2.alive x).1 hx
      rw [h2.count x, List.count_pos_iff, List.nil_append, List.mem_append, List.mem_flatMap] at hpos
      rcases hpos with h | ⟨y, hy, hyx⟩
      · exact .inl (.root h)
      · by_cases he : x = y
        · subst he; exact .inr ⟨x, hL x hx, hyx, .root (List.mem_singleton.2 rfl)⟩
        · have := hr y (hL y hy) x hyx he
          have := hB y (hL y hy)
          rcases ih y hy (by omega) with h | ⟨z, hz, hzz, h⟩
          · exact .inl (.member h hyx)
          · exact .inr ⟨z, hz, hzz, .member h hyx⟩
  constructor
  · intro hx
    refine ⟨(h2.all x).2 (.inr hx), fun ho => ?_, fun y hy hyy ho => ?_⟩
    · exact h2.apart x (hown hkept ho) hx
    · refine h2.apart x (hown (fun z hz => ?_) ho) hx
      cases List.mem_singleton.1 hz
      exact h2.loops y hy hyy
  · rintro ⟨h3, h4, h5⟩
    rcases (h2.all x).1 h3 with h | h
    · rcases hstay _ x h (Nat.le_refl _) with h | ⟨y, hy, hyy, h⟩
      · exact absurd h h4
      · exact absurd h (h5 y hy hyy)
    · exact h

/-! ### the objects of a logging system -/

open Classical in
/-- the length of the way up from a group -/
noncomputable def depth (st : Yaml.St) (g : Nat) : Nat :=
  if h : ∃ n, System.Ends st.sys.parent g n then choose h else 0

theorem depth_eq {st : Yaml.St} {g n : Nat} (h : System.Ends st.sys.parent g n) : depth st g = n := by
  have he : ∃ n, System.Ends st.sys.parent g n := ⟨n, h⟩
  unfold depth
  rw [dif_pos he]
  exact (Classical.choose_spec he).det h

noncomputable def rank (st : Yaml.St) : Obj → Nat
  | .sink k => k
  | .group g => st.sys.nsinks + depth st g
  | .logger _ => st.sys.nsinks + st.sys.ngroups

structure Shape (st : Yaml.St) : Prop where
  wf : System.WF st.sys
  ends : System.AllEnd st.sys
  sinks : Yaml.SinksOk st

theorem depth_lt {st : Yaml.St} (h : Shape st) {g : Nat} (hg : g < st.sys.ngroups) : depth st g < st.sys.ngroups := by
  obtain ⟨n, hn⟩ := h.ends g hg
  rw [depth_eq hn]
  exact hn.bound (fun x p hx hp => h.wf.pLt x p hx hp) hg

theorem mem_group {st : Yaml.St} {g : Nat} {y : Obj} : y ∈ members st (.group g) ↔
    (∃ k, y = .sink k ∧ (st.sys.grp g).sink = some k) ∨ ∃ p, y = .group p ∧ (st.sys.grp g).parent = some p := by
  simp only [members, List.mem_append, Option.mem_toList, Option.map_eq_some_iff]
  constructor
  · rintro (⟨k, h1, rfl⟩ | ⟨p, h1, rfl⟩)
    · exact .inl ⟨k, rfl, h1⟩
    · exact .inr ⟨p, rfl, h1⟩
  · rintro (⟨k, rfl, h1⟩ | ⟨p, rfl, h1⟩)
    · exact .inl ⟨k, h1, rfl⟩
    · exact .inr ⟨p, h1, rfl⟩

theorem mem_logger {st : Yaml.St} {i : Nat} {y : Obj} : y ∈ members st (.logger i) ↔
    (∃ k, y = .sink k ∧ (st.sys.lgr i).sink = some k) ∨ y = .group (st.sys.lgr i).group := by
  simp only [members, List.mem_append, Option.mem_toList, Option.map_eq_some_iff, List.mem_singleton]
  constructor
  · rintro (⟨k, h1, rfl⟩ | h)
    · exact .inl ⟨k, rfl, h1⟩
    · exact .inr h
  · rintro (⟨k, rfl, h1⟩ | h)
    · exact .inl ⟨k, h1, rfl⟩
    · exact .inr h

theorem mem_sink {st : Yaml.St} {j : Nat} {y : Obj} : y ∈ members st (.sink j) ↔
    ∃ lv subs k, st.specs j = .multi lv subs ∧ k ∈ subs ∧ y = .sink k := by
  unfold members
  simp only
  split
  · rename_i lv subs h
    rw [List.mem_map]
    constructor
    · rintro ⟨k, h1, rfl⟩; exact ⟨lv, subs, k, h, h1, rfl⟩
    · rintro ⟨lv', subs', k, h1, h2, rfl⟩
      cases h.symm.trans h1
      exact ⟨k, h2, rfl⟩
  · rename_i h
    constructor
    · intro h'; cases h'
    · rintro ⟨lv, subs, k, h1, _⟩; exact absurd h1 (h lv subs)

theorem mem_holds {st : Yaml.St} {x y : Obj} : y ∈ members st x ↔ Holds st x y := by
  cases x with
  | group g =>
    rw [mem_group]
    constructor
    · rintro (⟨k, rfl, h⟩ | ⟨p, rfl, h⟩)
      · exact .groupSink h
      · exact .parent h
    · intro h
      cases h with
      | parent h => exact .inr ⟨_, rfl, h⟩
      | groupSink h => exact .inl ⟨_, rfl, h⟩
  | logger i =>
    rw [mem_logger]
    constructor
    · rintro (⟨k, rfl, h⟩ | rfl)
      · exact .sink h
      · exact .group i
    · intro h
      cases h with
      | group => exact .inr rfl
      | sink h => exact .inl ⟨_, rfl, h⟩
  | sink j =>
    rw [mem_sink]
    constructor
    · rintro ⟨lv, subs, k, h1, h2, rfl⟩; exact .below h1 h2
    · intro h
      cases h with
      | below h hk => exact ⟨_, _, _, h, hk, rfl⟩

theorem owned_leads {st : Yaml.St} {roots : List Obj} {x : Obj} : Owned (members st) roots x ↔ ∃ r ∈ roots, Leads st r x := by
  constructor
  · intro h
    induction h with
    | root h => exact ⟨_, h, .self⟩
    | member _ hy ih =>
      obtain ⟨r, h1, h2⟩ := ih
      exact ⟨r, h1, .next h2 (mem_holds.1 hy)⟩
  · rintro ⟨r, hr, h⟩
    induction h with
    | self => exact .root hr
    | next _ hz ih => exact .member ih (mem_holds.2 hz)

theorem members_exist {st : Yaml.St} (h : Shape st) {x y : Obj} (hx : Exists st x) (hy : y ∈ members st x) : Exists st y := by
  cases x with
  | group g =>
    rcases mem_group.1 hy with ⟨k, rfl, hk⟩ | ⟨p, rfl, hp⟩
    · exact h.wf.gsLt g k hx hk
    · exact h.wf.pLt g p hx hp
  | logger i =>
    rcases mem_logger.1 hy with ⟨k, rfl, hk⟩ | rfl
    · exact h.wf.lsLt i k hx hk
    · exact h.wf.lgLt i hx
  | sink j =>
    obtain ⟨lv, subs, k, h1, h2, rfl⟩ := mem_sink.1 hy
    exact Nat.lt_trans (h.sinks.good j lv subs h1 k h2) hx

theorem rank_lt {st : Yaml.St} (h : Shape st) {x y : Obj} (hx : Exists st x) (hy : y ∈ members st x) (hne : y ≠ x) : rank st y < rank st x := by
  cases x with
  | group g =>
    rcases mem_group.1 hy with ⟨k, rfl, hk⟩ | ⟨p, rfl, hp⟩
    · have := h.wf.gsLt g k hx hk
      show k < st.sys.nsinks + depth st g
      omega
    · obtain ⟨n, hn⟩ := h.ends g hx
      show st.sys.nsinks + depth st p < st.sys.nsinks + depth st g
      rw [depth_eq hn]
      cases hn with
      | root h1 => rw [System.Sys.parent, hp] at h1; cases h1
      | loop h1 =>
        rw [System.Sys.parent, hp] at h1
        cases h1
        exact absurd rfl hne
      | up h1 _ h2 =>
        rw [System.Sys.parent, hp] at h1
        cases h1
        rw [depth_eq h2]
        omega
  | logger i =>
    rcases mem_logger.1 hy with ⟨k, rfl, hk⟩ | rfl
    · have := h.wf.lsLt i k hx hk
      show k < st.sys.nsinks + st.sys.ngroups
      omega
    · have := depth_lt h (h.wf.lgLt i hx)
      show st.sys.nsinks + depth st _ < st.sys.nsinks + st.sys.ngroups
      omega
  | sink j =>
    obtain ⟨lv, subs, k, h1, h2, rfl⟩ := mem_sink.1 hy
    exact h.sinks.good j lv subs h1 k h2

theorem rank_le {st : Yaml.St} (h : Shape st) {x : Obj} (hx : Exists st x) : rank st x ≤ st.sys.nsinks + st.sys.ngroups := by
  cases x with
  | group g => have := depth_lt h hx; show st.sys.nsinks + depth st g ≤ _; omega
  | logger i => exact Nat.le_refl _
  | sink k => have : k < st.sys.nsinks := hx; show k ≤ _; omega

theorem owned_exist {st : Yaml.St} (h : Shape st) {roots : List Obj} (hr : ∀ x ∈ roots, Exists st x) {x : Obj} (ho : Owned (members st) roots x) :
    Exists st x := by
  induction ho with
  | root hx => exact hr _ hx
  | member _ hy ih => exact members_exist h ih hy

theorem system_exist {st : Yaml.St} (h : Shape st) : ∀ x ∈ systemOwns st, Exists st x := by
  intro x hx
  rcases List.mem_append.1 hx with hx | hx
  · obtain ⟨e, he, rfl⟩ := List.mem_map.1 hx
    obtain ⟨n, hn⟩ := (System.Table.mem_values h.wf.gU).1 (List.mem_map_of_mem (f := (·.2)) he)
    exact h.wf.gLt n _ hn
  · obtain ⟨e, he, rfl⟩ := List.mem_map.1 hx
    obtain ⟨n, hn⟩ := (System.Table.mem_values h.wf.kU).1 (List.mem_map_of_mem (f := (·.2)) he)
    exact (h.wf.kLt n _ hn).1

theorem self_member {st : Yaml.St} (h : Shape st) {x : Obj} : x ∈ members st x ↔ OwnParent st x := by
  cases x with
  | group g =>
    rw [mem_group]
    constructor
    · rintro (⟨k, h1, _⟩ | ⟨p, h1, h2⟩)
      · cases h1
      · cases h1; exact ⟨g, rfl, h2⟩
    · rintro ⟨g', h1, h2⟩
      cases h1
      exact .inr ⟨g, rfl, h2⟩
  | logger i =>
    rw [mem_logger]
    constructor
    · rintro (⟨k, h1, _⟩ | h1) <;> cases h1
    · rintro ⟨_, h1, _⟩; cases h1
  | sink j =>
    rw [mem_sink]
    constructor
    · rintro ⟨lv, subs, k, h1, h2, h3⟩
      cases h3
      exact absurd (h.sinks.good j lv subs h1 j h2) (Nat.lt_irrefl _)
    · rintro ⟨_, h1, _⟩; cases h1

end Lifetime
end Soralog
