import Verif.Spec.QueueTerms
import Verif.Proofs.Ring
/-! # Progress of the ring buffer model -/
namespace Soralog
namespace Ring
open Spec (Call Ret Entry Legal Proto Phase Queue.run)

variable {T : Type}

theorem tick_pc_other (s : St T) (t t' : Tid) (h : t' ≠ t) : (tick s t).pc t' = s.pc t' := by
  unfold tick
  split <;> dsimp only <;> (repeat' split) <;> first | rfl | exact upd_ne _ _ _ _ h

/-- number of own steps before a thread in the critical section leaves it -/
def csRank : PC T → Nat
  | .putCheck _ | .getCheck => 5
  | .putCapture _ | .getCapture => 4
  | .putAdvance _ _ | .getAdvance _ => 3
  | .putCount _ _ | .getCount _ | .obsRead _ => 2
  | .putFull _ | .putRetry _ | .putUnlock _ _ | .getEmpty | .getRetry | .getUnlock _ _ | .obsUnlock _ _ => 1
  | _ => 0

theorem csRank_pos {p : PC T} : 0 < csRank p ↔ inCS p = true := by
  cases p <;> simp [csRank, inCS]

theorem csRank_le (p : PC T) : csRank p ≤ 5 := by
  cases p <;> simp [csRank]

theorem csRank_tick {cap : Nat} {s : St T} {q : List T} {base : Nat} (hI : Inv cap s q base) {t : Tid}
    (h : inCS (s.pc t) = true) : csRank ((tick s t).pc t) < csRank (s.pc t) := by
  have hk := hI.pcs t
  have hcap := hI.capEq
  have hbl := hI.baseLt
  have hlen := hI.len
  have hp1 : isPutCount (s.pc t) = false → s.buf.pushIdx = w cap base s.buf.size := hI.pushEq h
  have hp2 : isGetCount (s.pc t) = false → s.buf.popIdx = base := hI.popEq h
  unfold tick
  generalize hpc : s.pc t = p at h hk hp1 hp2
  cases p <;> simp only [inCS] at h <;> try contradiction
  case putCheck v => dsimp only; split <;> simp [csRank]
  case getCheck => dsimp only; split <;> simp [csRank]
  case putCapture v =>
    have hk' : s.buf.size < s.buf.capacity := hk
    have : s.buf.pushIdx < s.buf.capacity := by rw [hp1 rfl, hcap]; exact w_lt hbl (by omega)
    dsimp only; rw [if_neg (by omega)]; split <;> simp [csRank]
  case getCapture =>
    dsimp only; rw [if_neg (by rw [hp2 rfl]; omega)]; split <;> simp [csRank]
  case putAdvance v k => dsimp only; rw [if_neg (by omega)]; simp [csRank]
  case getAdvance k => dsimp only; rw [if_neg (by omega)]; simp [csRank]
  case putCount v k => dsimp only; rw [if_pos hk.2.1]; simp [csRank]
  case getCount k =>
    dsimp only
    have h2 := hk.2.1
    rw [if_neg (by omega), hk.2.2.1]
    cases q with
    | nil => simp at hlen; omega
    | cons v q => simp [csRank]
  all_goals simp [csRank]

/-- run thread `t` alone for `n` steps -/
def solo (s : St T) (t : Tid) : Nat → St T
  | 0 => s
  | n + 1 => solo (tick s t) t n

theorem solo_exec (s : St T) (t : Tid) (n : Nat) : solo s t n = exec s (List.replicate n (.step t)) := by
  induction n generalizing s with
  | zero => rfl
  | succ n ih => rw [solo, ih, List.replicate_succ]; rfl

theorem solo_inv {cap : Nat} {s : St T} {q : List T} {base : Nat} (hI : Inv cap s q base) (t : Tid) (n : Nat) :
    ∃ q' base', Inv cap (solo s t n) q' base' := by
  rw [solo_exec]; exact inv_exec hI _

theorem solo_other (s : St T) (t : Tid) (n : Nat) {t' : Tid} (h : t' ≠ t) : (solo s t n).pc t' = s.pc t' := by
  induction n generalizing s with
  | zero => rfl
  | succ n ih => rw [solo, ih, tick_pc_other _ _ _ h]

/-- The holder of the lock releases it within five of its own steps. -/
theorem release {cap : Nat} {s : St T} {q : List T} {base : Nat} (hI : Inv cap s q base) {t : Tid}
    (h : inCS (s.pc t) = true) : ∃ n, n ≤ 5 ∧ (solo s t n).buf.busy = false := by
  have key : ∀ m (s : St T) q base, Inv cap s q base → inCS (s.pc t) = true → csRank (s.pc t) ≤ m →
      ∃ n, n ≤ m ∧ (solo s t n).buf.busy = false := by
    intro m
    induction m with
    | zero =>
      intro s q base _ hcs hm
      have := csRank_pos.2 hcs; omega
    | succ m ih =>
      intro s q base hI hcs hm
      have hlt := csRank_tick hI hcs
      obtain ⟨q', base', hI'⟩ := inv_tick hI t
      cases e : inCS ((tick s t).pc t)
      · refine ⟨1, by omega, ?_⟩
        show (tick s t).buf.busy = false
        cases hb : (tick s t).buf.busy
        · rfl
        · exfalso
          obtain ⟨t', ht'⟩ := hI'.lock.1 hb
          by_cases ett : t' = t
          · subst ett; rw [e] at ht'; cases ht'
          · rw [tick_pc_other _ _ _ ett, hI.others hcs ett] at ht'; cases ht'
      · obtain ⟨n, hn, hbn⟩ := ih _ _ _ hI' e (by omega)
        exact ⟨n + 1, by omega, hbn⟩
  exact key 5 s q base hI h (csRank_le _)

/-- From every invariant state the lock can be made free by steps of its holder alone. -/
theorem free_lock {cap : Nat} {s : St T} {q : List T} {base : Nat} (hI : Inv cap s q base) :
    ∃ t n, (solo s t n).buf.busy = false := by
  cases hb : s.buf.busy
  · exact ⟨0, 0, hb⟩
  · obtain ⟨t, ht⟩ := hI.lock.1 hb
    obtain ⟨n, _, h⟩ := release hI ht
    exact ⟨t, n, h⟩

/-- steps to finish a call when nothing is in the way -/
def rank : PC T → Nat
  | .putRetry _ | .getRetry => 10
  | .putSpin _ | .getSpin => 9
  | .putCheck _ | .getCheck => 8
  | .putCapture _ | .getCapture => 7
  | .putAdvance _ _ | .getAdvance _ => 6
  | .putCount _ _ | .getCount _ => 5
  | .putUnlock _ _ | .getUnlock _ _ => 4
  | .putInit _ _ | .obsSpin _ => 3
  | .putBuild _ _ | .obsRead _ => 2
  | .putFull _ | .getEmpty | .obsUnlock _ _ => 1
  | .idle => 0

/-- nothing is in the way of thread `t` -/
def Clear (s : St T) (t : Tid) : Prop :=
  (inCS (s.pc t) = true ∨ s.buf.busy = false) ∧
  match s.pc t with
  | .putSpin _ | .putCheck _ => (s.buf.popIdx = s.buf.pushIdx ∧ s.buf.size ≠ 0) ∨ s.buf.nodeBusy s.buf.pushIdx = false
  | .putCapture _ => s.buf.nodeBusy s.buf.pushIdx = false
  | .getSpin | .getCheck => (s.buf.pushIdx = s.buf.popIdx ∧ s.buf.size = 0) ∨ s.buf.nodeBusy s.buf.popIdx = false
  | .getCapture => s.buf.nodeBusy s.buf.popIdx = false
  | .putRetry _ | .getRetry => False
  | _ => True

theorem clear_tick {cap : Nat} {s : St T} {q : List T} {base : Nat} (hI : Inv cap s q base) {t : Tid}
    (h : Clear s t) (hne : s.pc t ≠ .idle) :
    Clear (tick s t) t ∧ rank ((tick s t).pc t) < rank (s.pc t) := by
  have hk := hI.pcs t
  have hcap := hI.capEq
  have hbl := hI.baseLt
  have hlen := hI.len
  have hp1 : inCS (s.pc t) = true → isPutCount (s.pc t) = false → s.buf.pushIdx = w cap base s.buf.size :=
    hI.pushEq
  have hp2 : inCS (s.pc t) = true → isGetCount (s.pc t) = false → s.buf.popIdx = base := hI.popEq
  unfold Clear at h ⊢
  unfold tick
  generalize hpc : s.pc t = p at h hk hp1 hp2 hne
  obtain ⟨hc1, hc2⟩ := h
  cases p <;> simp only [inCS] at hc1 <;> try contradiction
  case putSpin v =>
    have hb : s.buf.busy = false := by simpa using hc1
    dsimp only at hc2 ⊢; rw [if_neg (by simp [hb])]
    refine ⟨⟨by simp [inCS], ?_⟩, by simp [rank]⟩
    simp only [upd_same]; exact hc2
  case getSpin =>
    have hb : s.buf.busy = false := by simpa using hc1
    dsimp only at hc2 ⊢; rw [if_neg (by simp [hb])]
    refine ⟨⟨by simp [inCS], ?_⟩, by simp [rank]⟩
    simp only [upd_same]; exact hc2
  case obsSpin c =>
    have hb : s.buf.busy = false := by simpa using hc1
    dsimp only at hc2 ⊢; rw [if_neg (by simp [hb])]; simp [inCS, rank]
  case putCheck v =>
    dsimp only at hc2 ⊢
    split
    · simp [inCS, rank]
    · rename_i hn
      rcases hc2 with hc2 | hc2
      · exact absurd hc2 hn
      · simp [inCS, rank, hc2]
  case getCheck =>
    dsimp only at hc2 ⊢
    split
    · simp [inCS, rank]
    · rename_i hn
      rcases hc2 with hc2 | hc2
      · exact absurd hc2 hn
      · simp [inCS, rank, hc2]
  case putCapture v =>
    have hk' : s.buf.size < s.buf.capacity := hk
    have : s.buf.pushIdx < s.buf.capacity := by rw [hp1 rfl rfl, hcap]; exact w_lt hbl (by omega)
    dsimp only at hc2 ⊢
    rw [if_neg (by omega), if_neg (by simp [hc2])]; simp [inCS, rank]
  case getCapture =>
    dsimp only at hc2 ⊢
    rw [if_neg (by rw [hp2 rfl rfl]; omega), if_neg (by simp [hc2])]; simp [inCS, rank]
  case putAdvance v k => dsimp only; rw [if_neg (by omega)]; simp [inCS, rank]
  case getAdvance k => dsimp only; rw [if_neg (by omega)]; simp [inCS, rank]
  case putCount v k => dsimp only; rw [if_pos hk.2.1]; simp [inCS, rank]
  case getCount k =>
    dsimp only
    have h2 := hk.2.1
    rw [if_neg (by omega), hk.2.2.1]
    cases q with
    | nil => simp at hlen; omega
    | cons v q => simp [inCS, rank]
  case putInit v k =>
    have hb : s.buf.busy = false := by simpa using hc1
    simp [inCS, rank, hb]
  case putBuild v k =>
    have hb : s.buf.busy = false := by simpa using hc1
    simp [inCS, rank, hb]
  all_goals simp [inCS, rank]

/-- With nothing in the way, a pending call completes within ten of its own steps. -/
theorem clear_finish {cap : Nat} {s : St T} {q : List T} {base : Nat} (hI : Inv cap s q base) {t : Tid}
    (h : Clear s t) : ∃ n, n ≤ 10 ∧ (solo s t n).pc t = .idle := by
  have key : ∀ m (s : St T) q base, Inv cap s q base → Clear s t → rank (s.pc t) ≤ m →
      ∃ n, n ≤ m ∧ (solo s t n).pc t = .idle := by
    intro m
    induction m with
    | zero =>
      intro s q base _ _ hm
      refine ⟨0, by omega, ?_⟩
      show s.pc t = .idle
      generalize s.pc t = p at hm
      cases p <;> simp [rank] at hm; rfl
    | succ m ih =>
      intro s q base hI hc hm
      by_cases e : s.pc t = .idle
      · exact ⟨0, by omega, e⟩
      · obtain ⟨hc', hlt⟩ := clear_tick hI hc e
        obtain ⟨q', base', hI'⟩ := inv_tick hI t
        obtain ⟨n, hn, h⟩ := ih _ _ _ hI' hc' (by omega)
        exact ⟨n + 1, by omega, h⟩
  refine key 10 s q base hI h ?_
  cases s.pc t <;> simp [rank]

theorem drop_pc (s : St T) (i : Nat) : (drop s i).pc = s.pc := by
  unfold drop; split <;> rfl
theorem drop_busy (s : St T) (i : Nat) : (drop s i).buf.busy = s.buf.busy := by
  unfold drop; split <;> rfl
theorem drop_idx (s : St T) (i : Nat) : (drop s i).buf.pushIdx = s.buf.pushIdx ∧
    (drop s i).buf.popIdx = s.buf.popIdx := by
  unfold drop; split <;> exact ⟨rfl, rfl⟩

theorem noCalls_append {as bs : List (Act T)} (h1 : NoCalls as) (h2 : NoCalls bs) : NoCalls (as ++ bs) := by
  intro a ha; rcases List.mem_append.1 ha with h | h
  · exact h1 a h
  · exact h2 a h

theorem noCalls_solo (t : Tid) (n : Nat) : NoCalls (List.replicate n (Act.step t : Act T)) := by
  intro a ha; rw [List.eq_of_mem_replicate ha]; trivial

/-- A busy slot can be made free while the lock is free, by letting its owner finish and release. -/
theorem free_slot {cap : Nat} {s : St T} {q : List T} {base : Nat} (hI : Inv cap s q base)
    (hb : s.buf.busy = false) (k : Nat) {t : Tid} (ht : slotOf (s.pc t) = none) :
    ∃ as, NoCalls as ∧ (exec s as).buf.busy = false ∧ (exec s as).buf.nodeBusy k = false ∧
      (exec s as).pc t = s.pc t ∧ (exec s as).buf.pushIdx = s.buf.pushIdx ∧
      (exec s as).buf.popIdx = s.buf.popIdx := by
  cases e : s.buf.nodeBusy k
  · exact ⟨[], (by intro a ha; cases ha), hb, e, rfl, rfl, rfl⟩
  have dropref : ∀ (s : St T), s.buf.busy = false → (∃ r ∈ s.refs, r.slot = k) →
      ∃ i, (drop s i).buf.nodeBusy k = false := by
    rintro s _ ⟨r, hr, hk⟩
    obtain ⟨i, hi, hri⟩ := List.mem_iff_getElem.1 hr
    refine ⟨i, ?_⟩
    unfold drop
    rw [List.getElem?_eq_getElem hi, hri]
    simp [hk]
  rcases (hI.owned k).1 e with ⟨t', ht'⟩ | hr
  · -- a thread is still constructing the element
    have hne : t ≠ t' := by rintro rfl; rw [ht] at ht'; cases ht'
    have hncs : inCS (s.pc t') = false := by
      cases hc : inCS (s.pc t')
      · rfl
      · have := hI.lock.2 ⟨t', hc⟩; rw [hb] at this; cases this
    have fin1 : ∀ (s : St T) (v : T), s.buf.busy = false → s.pc t' = .putBuild v k →
        (tick s t').buf.busy = false ∧ (∃ r ∈ (tick s t').refs, r.slot = k) ∧
        (tick s t').buf.pushIdx = s.buf.pushIdx ∧ (tick s t').buf.popIdx = s.buf.popIdx := by
      intro s v hb hp
      unfold tick; rw [hp]; dsimp only
      exact ⟨hb, ⟨_, List.mem_append_right _ (List.mem_singleton.2 rfl), rfl⟩, rfl, rfl⟩
    generalize hp : s.pc t' = p at ht' hncs
    cases p <;> simp only [inCS, slotOf] at hncs ht' <;> try contradiction
    case putBuild v k' =>
      cases ht'
      obtain ⟨b1, b2, b3, b4⟩ := fin1 s v hb hp
      obtain ⟨i, hi⟩ := dropref _ b1 b2
      refine ⟨[.step t', .drop i], ?_, ?_, hi, ?_, ?_, ?_⟩
      · intro a ha; simp at ha; rcases ha with rfl | rfl <;> trivial
      · show (drop (tick s t') i).buf.busy = false
        rw [drop_busy]; exact b1
      · show (drop (tick s t') i).pc t = _
        rw [drop_pc, tick_pc_other _ _ _ hne]
      · show (drop (tick s t') i).buf.pushIdx = _
        rw [(drop_idx _ _).1, b3]
      · show (drop (tick s t') i).buf.popIdx = _
        rw [(drop_idx _ _).2, b4]
    case putInit v k' =>
      cases ht'
      have hp' : (tick s t').pc t' = .putBuild v k := by unfold tick; rw [hp]; simp
      have a1 : (tick s t').buf.busy = false := by unfold tick; rw [hp]; exact hb
      have a2 : (tick s t').buf.pushIdx = s.buf.pushIdx := by unfold tick; rw [hp]
      have a3 : (tick s t').buf.popIdx = s.buf.popIdx := by unfold tick; rw [hp]
      obtain ⟨b1, b2, b3, b4⟩ := fin1 _ v a1 hp'
      obtain ⟨i, hi⟩ := dropref _ b1 b2
      refine ⟨[.step t', .step t', .drop i], ?_, ?_, hi, ?_, ?_, ?_⟩
      · intro a ha; simp at ha; rcases ha with rfl | rfl <;> trivial
      · show (drop (tick (tick s t') t') i).buf.busy = false
        rw [drop_busy]; exact b1
      · show (drop (tick (tick s t') t') i).pc t = _
        rw [drop_pc, tick_pc_other _ _ _ hne, tick_pc_other _ _ _ hne]
      · show (drop (tick (tick s t') t') i).buf.pushIdx = _
        rw [(drop_idx _ _).1, b3, a2]
      · show (drop (tick (tick s t') t') i).buf.popIdx = _
        rw [(drop_idx _ _).2, b4, a3]
  · obtain ⟨i, hi⟩ := dropref s hb hr
    refine ⟨[.drop i], ?_, ?_, hi, ?_, ?_, ?_⟩
    · intro a ha; simp at ha; subst ha; trivial
    · show (drop s i).buf.busy = false
      rw [drop_busy]; exact hb
    · show (drop s i).pc t = _
      rw [drop_pc]
    · exact (drop_idx _ _).1
    · exact (drop_idx _ _).2

theorem exec_append (s : St T) (as bs : List (Act T)) : exec s (as ++ bs) = exec (exec s as) bs := by
  unfold exec; exact List.foldl_append

/-- From every invariant state every pending call can complete. -/
theorem can_finish {cap : Nat} {s : St T} {q : List T} {base : Nat} (hI : Inv cap s q base) (t : Tid) :
    ∃ as, NoCalls as ∧ (exec s as).pc t = .idle := by
  obtain ⟨t0, n0, hb0⟩ := free_lock hI
  rw [solo_exec] at hb0
  obtain ⟨q1, base1, hI1⟩ := inv_exec hI (List.replicate n0 (.step t0))
  generalize hs1 : exec s (List.replicate n0 (.step t0)) = s1 at hb0 hI1
  have hncs : inCS (s1.pc t) = false := by
    cases hc : inCS (s1.pc t)
    · rfl
    · have := hI1.lock.2 ⟨t, hc⟩; rw [hb0] at this; cases this
  -- clear the way
  have hclear : ∃ as, NoCalls as ∧ Clear (exec s1 as) t := by
    have nop : ∀ (_ : match s1.pc t with
        | .putSpin _ | .putCheck _ | .putCapture _ => False
        | .getSpin | .getCheck | .getCapture => False
        | .putRetry _ | .getRetry => False
        | _ => True), ∃ as, NoCalls as ∧ Clear (exec s1 as) t := by
      intro h
      refine ⟨[], (by intro a ha; cases ha), Or.inr hb0, ?_⟩
      show match s1.pc t with
        | .putSpin _ | .putCheck _ => (s1.buf.popIdx = s1.buf.pushIdx ∧ s1.buf.size ≠ 0) ∨ s1.buf.nodeBusy s1.buf.pushIdx = false
        | .putCapture _ => s1.buf.nodeBusy s1.buf.pushIdx = false
        | .getSpin | .getCheck => (s1.buf.pushIdx = s1.buf.popIdx ∧ s1.buf.size = 0) ∨ s1.buf.nodeBusy s1.buf.popIdx = false
        | .getCapture => s1.buf.nodeBusy s1.buf.popIdx = false
        | .putRetry _ | .getRetry => False
        | _ => True
      generalize s1.pc t = p at h
      cases p <;> first | trivial | exact h.elim
    generalize hp : s1.pc t = p at hncs nop
    cases p <;> simp only [inCS] at hncs <;> try contradiction
    case putSpin v =>
      obtain ⟨as, h1, h2, h3, h4, h5, h6⟩ := free_slot hI1 hb0 s1.buf.pushIdx (t := t) (by rw [hp]; rfl)
      refine ⟨as, h1, Or.inr h2, ?_⟩
      rw [h4, hp, h5]; exact Or.inr h3
    case getSpin =>
      obtain ⟨as, h1, h2, h3, h4, h5, h6⟩ := free_slot hI1 hb0 s1.buf.popIdx (t := t) (by rw [hp]; rfl)
      refine ⟨as, h1, Or.inr h2, ?_⟩
      rw [h4, hp, h6]; exact Or.inr h3
    all_goals exact nop trivial
  obtain ⟨as, hn, hc⟩ := hclear
  obtain ⟨q2, base2, hI2⟩ := inv_exec hI1 as
  obtain ⟨n, _, hfin⟩ := clear_finish hI2 hc
  refine ⟨List.replicate n0 (.step t0) ++ (as ++ List.replicate n (.step t)),
    noCalls_append (noCalls_solo _ _) (noCalls_append hn (noCalls_solo _ _)), ?_⟩
  rw [exec_append, exec_append, hs1, ← solo_exec]
  exact hfin

/-- A thread about to construct its element needs nobody else. -/
theorem idle_not_holding {cap : Nat} {s : St T} {q : List T} {base : Nat} (hI : Inv cap s q base)
    (h : ∀ t, s.pc t = .idle) : s.buf.busy = false := by
  cases hb : s.buf.busy
  · rfl
  · obtain ⟨t, ht⟩ := hI.lock.1 hb
    rw [h t] at ht; cases ht

end Ring
end Soralog
