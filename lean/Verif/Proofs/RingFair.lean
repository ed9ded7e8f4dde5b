import Verif.Spec.Fair
import Verif.Proofs.RingProgress
/-! # Endless fair executions of the queue -/
namespace Soralog
namespace Ring
open Spec (Call Ret Entry)
variable {T : Type}

theorem run_inv {cap : Nat} (hc : 0 < cap) (σ : Nat → Act T) (n : Nat) : ∃ q base, Inv cap (runFor (init T cap) σ n) q base := by
  induction n with
  | zero => exact ⟨[], 0, inv_init hc⟩
  | succ n ih => obtain ⟨q, base, h⟩ := ih; exact inv_act h (σ n)

/-- no action but a step of `t` moves a thread `t` that is inside a call -/
theorem act_pc_same {s : St T} {t : Tid} (h : s.pc t ≠ .idle) {a : Act T} (ha : a ≠ .step t) : (act s a).pc t = s.pc t := by
  cases a with
  | step u => exact tick_pc_other _ _ _ (fun e => ha (by rw [e]))
  | drop i => show (drop s i).pc t = _; rw [drop_pc]
  | call u c =>
    show (call s u c).pc t = _
    unfold call
    split
    · rename_i hu
      exact upd_ne _ _ _ _ (fun e => h (by rw [e]; exact hu))
    · rfl

theorem first_step {s : St T} {σ : Nat → Act T} (hf : FairRun s σ) {n : Nat} {t : Tid} (h : (runFor s σ n).pc t ≠ .idle) :
    ∃ m, n ≤ m ∧ σ m = .step t ∧ (runFor s σ m).pc t = (runFor s σ n).pc t := by
  obtain ⟨m, hm, hs⟩ := hf.runs n t h
  have key : ∀ d n, (runFor s σ n).pc t ≠ .idle → σ (n + d) = .step t →
      ∃ m, n ≤ m ∧ σ m = .step t ∧ (runFor s σ m).pc t = (runFor s σ n).pc t := by
    intro d
    induction d with
    | zero => intro n _ hs; exact ⟨n, Nat.le_refl _, hs, rfl⟩
    | succ d ih =>
      intro n hn hs
      by_cases e : σ n = .step t
      · exact ⟨n, Nat.le_refl _, e, rfl⟩
      · have h1 : (runFor s σ (n + 1)).pc t = (runFor s σ n).pc t := act_pc_same hn e
        obtain ⟨m, h2, h3, h4⟩ := ih (n + 1) (by rw [h1]; exact hn) (by rw [← hs]; congr 1; omega)
        exact ⟨m, by omega, h3, h4.trans h1⟩
  exact key (m - n) n h (by rw [show n + (m - n) = m by omega]; exact hs)

/-- nothing can keep the call from returning any more -/
def past : PC T → Bool
  | .putFull _ | .putAdvance _ _ | .putCount _ _ | .putUnlock _ _ | .putInit _ _ | .putBuild _ _ => true
  | .getEmpty | .getAdvance _ | .getCount _ | .getUnlock _ _ | .obsRead _ | .obsUnlock _ _ => true
  | _ => false

theorem tick_past {cap : Nat} {s : St T} {q : List T} {base : Nat} (hI : Inv cap s q base) {t : Tid} (h : past (s.pc t) = true) :
    (∃ r, (tick s t).log = s.log ++ [.ret t r]) ∨ (past ((tick s t).pc t) = true ∧ rank ((tick s t).pc t) < rank (s.pc t)) := by
  have hk := hI.pcs t
  have hcap := hI.capEq
  have hbl := hI.baseLt
  have hlen := hI.len
  unfold tick
  generalize hpc : s.pc t = p at h hk
  cases p <;> simp only [past] at h <;> try contradiction
  case putAdvance v k => dsimp only; rw [if_neg (by omega)]; exact .inr (by simp [past, rank])
  case getAdvance k => dsimp only; rw [if_neg (by omega)]; exact .inr (by simp [past, rank])
  case putCount v k => dsimp only; rw [if_pos hk.2.1]; exact .inr (by simp [past, rank])
  case getCount k =>
    dsimp only
    have h2 := hk.2.1
    rw [if_neg (by omega), hk.2.2.1]
    cases q with
    | nil => simp at hlen; omega
    | cons v q => exact .inr (by simp [past, rank])
  all_goals first | exact .inl ⟨_, rfl⟩ | exact .inr (by simp [past, rank])

theorem tick_idle {s : St T} {t : Tid} (h : s.pc t ≠ .idle) (h' : (tick s t).pc t = .idle) : ∃ r, (tick s t).log = s.log ++ [.ret t r] := by
  unfold tick at h' ⊢
  generalize hpc : s.pc t = p at h h'
  cases p <;> dsimp only at h' ⊢ <;> (repeat' split at h') <;> simp_all

theorem act_idle {s : St T} {t : Tid} (h : s.pc t ≠ .idle) {a : Act T} (h' : (act s a).pc t = .idle) :
    a = .step t ∧ ∃ r, (act s a).log = s.log ++ [.ret t r] := by
  by_cases ha : a = .step t
  · subst ha; exact ⟨rfl, tick_idle h h'⟩
  · exact absurd ((act_pc_same h ha).symm.trans h') h

/-- references only come from calls that return -/
theorem act_refs {s : St T} (a : Act T) : (∃ t r, (act s a).log = s.log ++ [.ret t r]) ∨ (act s a).refs.length ≤ s.refs.length := by
  cases a with
  | call u c => right; show (call s u c).refs.length ≤ _; unfold call; split <;> exact Nat.le_refl _
  | drop i =>
    right; show (drop s i).refs.length ≤ _; unfold drop; split
    · exact Nat.le_refl _
    · exact List.length_eraseIdx_le _ _
  | step t =>
    show (∃ u r, (tick s t).log = _) ∨ (tick s t).refs.length ≤ _
    unfold tick
    generalize hpc : s.pc t = p
    cases p <;> dsimp only <;> (repeat' split) <;> first | exact .inr (Nat.le_refl _) | exact .inl ⟨_, _, rfl⟩

theorem drop_shrinks {s : St T} {i : Nat} (h : i < s.refs.length) : (drop s i).refs.length < s.refs.length := by
  unfold drop
  rw [List.getElem?_eq_getElem h]
  dsimp only
  rw [List.length_eraseIdx_of_lt h]
  omega

/-- inside the critical section before the slot is captured, not giving up -/
def mid : PC T → Bool
  | .putCheck _ | .getCheck | .putCapture _ | .getCapture => true
  | _ => false

theorem tick_mid {cap : Nat} {s : St T} {q : List T} {base : Nat} (hI : Inv cap s q base) (hn : ∀ k, s.buf.nodeBusy k = false) {t : Tid}
    (h : mid (s.pc t) = true) : past ((tick s t).pc t) = true ∨ (mid ((tick s t).pc t) = true ∧ rank ((tick s t).pc t) < rank (s.pc t)) := by
  have hk := hI.pcs t
  have hcap := hI.capEq
  have hbl := hI.baseLt
  have hcs : inCS (s.pc t) = true := by
    generalize s.pc t = p at h; cases p <;> simp [mid] at h <;> rfl
  have hp1 : isPutCount (s.pc t) = false → s.buf.pushIdx = w cap base s.buf.size := hI.pushEq hcs
  have hp2 : isGetCount (s.pc t) = false → s.buf.popIdx = base := hI.popEq hcs
  unfold tick
  generalize hpc : s.pc t = p at h hk hp1 hp2
  cases p <;> simp only [mid] at h <;> try contradiction
  case putCheck v => dsimp only; split <;> simp [past, mid, rank]
  case getCheck => dsimp only; split <;> simp [past, mid, rank]
  case putCapture v =>
    have hk' : s.buf.size < s.buf.capacity := hk
    have : s.buf.pushIdx < s.buf.capacity := by rw [hp1 rfl, hcap]; exact w_lt hbl (by omega)
    dsimp only; rw [if_neg (by omega), hn, if_neg (by simp)]; simp [past]
  case getCapture =>
    dsimp only; rw [if_neg (by rw [hp2 rfl]; omega), hn, if_neg (by simp)]; simp [past]

/-- at the lock -/
def spinning : PC T → Bool
  | .putSpin _ | .getSpin | .obsSpin _ => true
  | _ => false

/-- about to release the lock and try again -/
def retrying : PC T → Bool
  | .putRetry _ | .getRetry => true
  | _ => false

theorem pc_cases {p : PC T} (h : p ≠ .idle) : past p = true ∨ mid p = true ∨ spinning p = true ∨ retrying p = true := by
  cases p <;> simp [past, mid, spinning, retrying] at h ⊢

theorem tick_spin {s : St T} {t : Tid} (h : spinning (s.pc t) = true) (hb : s.buf.busy = false) :
    past ((tick s t).pc t) = true ∨ mid ((tick s t).pc t) = true := by
  unfold tick
  generalize hpc : s.pc t = p at h
  cases p <;> simp only [spinning] at h <;> try contradiction
  all_goals dsimp only; rw [hb, if_neg (by simp)]; simp [past, mid]

theorem tick_retry {s : St T} {t : Tid} (h : retrying (s.pc t) = true) : (tick s t).buf.busy = false := by
  unfold tick
  generalize hpc : s.pc t = p at h
  cases p <;> simp only [retrying] at h <;> try contradiction
  all_goals rfl

theorem act_busy {cap : Nat} {s : St T} {q : List T} {base : Nat} (hI : Inv cap s q base) (hb : s.buf.busy = false) (a : Act T) :
    (act s a).buf.busy = false ∨ ∃ t, a = .step t ∧ spinning (s.pc t) = true := by
  cases a with
  | call u c => left; show (call s u c).buf.busy = _; unfold call; split <;> exact hb
  | drop i => left; show (drop s i).buf.busy = _; rw [drop_busy]; exact hb
  | step t =>
    have hn : inCS (s.pc t) = false := by
      cases e : inCS (s.pc t)
      · rfl
      · exact absurd (hI.lock.2 ⟨t, e⟩) (by rw [hb]; simp)
    show (tick s t).buf.busy = false ∨ _
    cases e : spinning (s.pc t)
    · left
      unfold tick
      generalize hpc : s.pc t = p at e hn
      cases p <;> simp [spinning, inCS] at e hn <;> exact hb
    · exact .inr ⟨t, rfl, e⟩

/-- As long as a call is pending, some call returns. -/
theorem fair_progress {cap : Nat} (hc : 0 < cap) {σ : Nat → Act T} (hf : FairRun (init T cap) σ) {n : Nat} {t : Tid}
    (ht : (runFor (init T cap) σ n).pc t ≠ .idle) : ∃ m, n ≤ m ∧ ∃ u, ReturnsAt (init T cap) σ m u := by
  refine Classical.byContradiction fun hno => ?_
  have hno' : ∀ m, n ≤ m → ¬ ∃ u r, (runFor (init T cap) σ (m + 1)).log = (runFor (init T cap) σ m).log ++ [.ret u r] :=
    fun m hm h => hno ⟨m, hm, h⟩
  generalize hs : runFor (init T cap) σ = R at *
  have hsucc : ∀ m, R (m + 1) = act (R m) (σ m) := fun m => by rw [← hs]; rfl
  have hinv : ∀ m, ∃ q base, Inv cap (R m) q base := fun m => by rw [← hs]; exact run_inv hc σ m
  have hfirst : ∀ {m u}, (R m).pc u ≠ .idle → ∃ m', m ≤ m' ∧ σ m' = .step u ∧ (R m').pc u = (R m).pc u := by
    intro m u h; have := first_step (s := init T cap) hf (n := m) (t := u) (by rw [hs]; exact h); rw [hs] at this; exact this
  -- nobody is past the point of no return
  have hpast : ∀ k m u, n ≤ m → past ((R m).pc u) = true → rank ((R m).pc u) ≤ k → False := by
    intro k
    induction k with
    | zero =>
      intro m u hm hp hr
      generalize (R m).pc u = p at hp hr
      cases p <;> simp [past, rank] at hp hr
    | succ k ih =>
      intro m u hm hp hr
      obtain ⟨m', h1, h2, h3⟩ := hfirst (m := m) (u := u) (by intro e; rw [e] at hp; cases hp)
      obtain ⟨q, base, hI⟩ := hinv m'
      have h4 : R (m' + 1) = tick (R m') u := by rw [hsucc, h2]; rfl
      rcases tick_past hI (t := u) (by rw [h3]; exact hp) with ⟨r, h5⟩ | ⟨h5, h6⟩
      · exact hno' m' (by omega) ⟨u, r, by rw [h4]; exact h5⟩
      · exact ih (m' + 1) u (by omega) (by rw [h4]; exact h5) (by rw [h4]; rw [h3] at h6; omega)
  have hnp : ∀ m u, n ≤ m → past ((R m).pc u) = false := fun m u hm => by
    cases e : past ((R m).pc u)
    · rfl
    · exact (hpast _ m u hm e (Nat.le_refl _)).elim
  have hslot : ∀ m u, n ≤ m → slotOf ((R m).pc u) = none := fun m u hm => by
    have := hnp m u hm
    generalize (R m).pc u = p at this
    cases p <;> simp [past] at this <;> rfl
  -- references run out
  have hrefs : ∀ m, n ≤ m → (R (m + 1)).refs.length ≤ (R m).refs.length := fun m hm => by
    rcases act_refs (s := R m) (σ m) with ⟨u, r, h⟩ | h
    · exact absurd ⟨u, r, by rw [hsucc]; exact h⟩ (hno' m hm)
    · rw [hsucc]; exact h
  have hmono : ∀ m d, n ≤ m → (R (m + d)).refs.length ≤ (R m).refs.length := by
    intro m d hm
    induction d with
    | zero => exact Nat.le_refl _
    | succ d ih => exact Nat.le_trans (hrefs (m + d) (by omega)) ih
  have hempty : ∃ N, n ≤ N ∧ (R N).refs = [] := by
    have key : ∀ k m, n ≤ m → (R m).refs.length ≤ k → ∃ N, n ≤ N ∧ (R N).refs = [] := by
      intro k
      induction k with
      | zero => intro m hm h; exact ⟨m, hm, List.length_eq_zero_iff.1 (by omega)⟩
      | succ k ih =>
        intro m hm h
        by_cases e : (R m).refs = []
        · exact ⟨m, hm, e⟩
        · obtain ⟨m', i, h1, h2, h3⟩ := hf.released m (by rw [hs]; exact e)
          rw [hs] at h3
          refine ih (m' + 1) (by omega) ?_
          rw [hsucc, h2]
          have h4 := drop_shrinks h3
          have h5 := hmono m (m' - m) hm
          rw [show m + (m' - m) = m' by omega] at h5
          show (drop (R m') i).refs.length ≤ k
          omega
    exact key _ n (Nat.le_refl _) (Nat.le_refl _)
  obtain ⟨N, hN, hNe⟩ := hempty
  have hE : ∀ m, N ≤ m → (R m).refs = [] := fun m hm => by
    have := hmono N (m - N) hN
    rw [show N + (m - N) = m by omega, hNe] at this
    exact List.length_eq_zero_iff.1 (by simpa using this)
  have hfree : ∀ m, N ≤ m → ∀ k, (R m).buf.nodeBusy k = false := fun m hm k => by
    obtain ⟨q, base, hI⟩ := hinv m
    cases e : (R m).buf.nodeBusy k
    · rfl
    · rcases (hI.owned k).1 e with ⟨u, hu⟩ | ⟨r, hr, _⟩
      · rw [hslot m u (by omega)] at hu; cases hu
      · rw [hE m hm] at hr; cases hr
  -- nobody gets through the lock
  have hmid : ∀ k m u, N ≤ m → mid ((R m).pc u) = true → rank ((R m).pc u) ≤ k → False := by
    intro k
    induction k with
    | zero =>
      intro m u hm hp hr
      generalize (R m).pc u = p at hp hr
      cases p <;> simp [mid, rank] at hp hr
    | succ k ih =>
      intro m u hm hp hr
      obtain ⟨m', h1, h2, h3⟩ := hfirst (m := m) (u := u) (by intro e; rw [e] at hp; cases hp)
      obtain ⟨q, base, hI⟩ := hinv m'
      have h4 : R (m' + 1) = tick (R m') u := by rw [hsucc, h2]; rfl
      rcases tick_mid hI (hfree m' (by omega)) (t := u) (by rw [h3]; exact hp) with h5 | ⟨h5, h6⟩
      · have := hnp (m' + 1) u (by omega); rw [h4, h5] at this; cases this
      · exact ih (m' + 1) u (by omega) (by rw [h4]; exact h5) (by rw [h4]; rw [h3] at h6; omega)
  have hacq : ∀ m u, N ≤ m → (past ((R m).pc u) = true ∨ mid ((R m).pc u) = true) → False := fun m u hm h => by
    rcases h with h | h
    · have := hnp m u (by omega); rw [h] at this; cases this
    · exact hmid _ m u hm h (Nat.le_refl _)
  -- the lock becomes free
  have hunl : ∃ M, N ≤ M ∧ (R M).buf.busy = false := by
    cases e : (R N).buf.busy
    · exact ⟨N, Nat.le_refl _, e⟩
    · obtain ⟨q, base, hI⟩ := hinv N
      obtain ⟨u, hu⟩ := hI.lock.1 e
      have hne : (R N).pc u ≠ .idle := by intro e; rw [e] at hu; cases hu
      have hrt : retrying ((R N).pc u) = true := by
        rcases pc_cases hne with h | h | h | h
        · exact (hacq N u (Nat.le_refl _) (.inl h)).elim
        · exact (hacq N u (Nat.le_refl _) (.inr h)).elim
        · generalize (R N).pc u = p at h hu; cases p <;> simp [spinning, inCS] at h hu
        · exact h
      obtain ⟨m', h1, h2, h3⟩ := hfirst hne
      refine ⟨m' + 1, by omega, ?_⟩
      rw [hsucc, h2]
      exact tick_retry (by rw [h3]; exact hrt)
  obtain ⟨M, hM, hMb⟩ := hunl
  have hB : ∀ d, (R (M + d)).buf.busy = false := by
    intro d
    induction d with
    | zero => exact hMb
    | succ d ih =>
      obtain ⟨q, base, hI⟩ := hinv (M + d)
      have h4 := hsucc (M + d)
      rcases act_busy hI ih (σ (M + d)) with h | ⟨u, h1, h2⟩
      · show (R (M + d + 1)).buf.busy = false; rw [h4]; exact h
      · have := tick_spin h2 ih
        rw [h1] at h4
        exact (hacq (M + d + 1) u (by omega) (by rw [h4]; exact this)).elim
  -- the pending call is still pending
  have hpend : ∀ d, (R (n + d)).pc t ≠ .idle := by
    intro d
    induction d with
    | zero => exact ht
    | succ d ih =>
      intro h
      have h' : (act (R (n + d)) (σ (n + d))).pc t = .idle := by rw [← hsucc]; exact h
      obtain ⟨_, r, hr⟩ := act_idle ih h'
      exact hno' (n + d) (by omega) ⟨t, r, by rw [hsucc]; exact hr⟩
  have hp := hpend (M - n)
  rw [show n + (M - n) = M by omega] at hp
  have hsp : spinning ((R M).pc t) = true := by
    rcases pc_cases hp with h | h | h | h
    · exact (hacq M t hM (.inl h)).elim
    · exact (hacq M t hM (.inr h)).elim
    · exact h
    · obtain ⟨q, base, hI⟩ := hinv M
      have := hI.lock.2 ⟨t, by generalize (R M).pc t = p at h; cases p <;> simp [retrying] at h <;> rfl⟩
      rw [hMb] at this; cases this
  obtain ⟨m', h1, h2, h3⟩ := hfirst hp
  have hb' := hB (m' - M)
  rw [show M + (m' - M) = m' by omega] at hb'
  have := tick_spin (s := R m') (t := t) (by rw [h3]; exact hsp) hb'
  exact hacq (m' + 1) t (by omega) (by rw [hsucc, h2]; exact this)

/-- the threads inside a call -/
def Pending (s : St T) (l : List Tid) : Prop := ∀ t, s.pc t ≠ .idle → t ∈ l

theorem pending_act {s : St T} {l : List Tid} (h : Pending s l) (a : Act T) : ∃ l', Pending (act s a) l' := by
  cases a with
  | call u c =>
    refine ⟨u :: l, fun t ht => ?_⟩
    by_cases e : t = u
    · subst e; exact List.mem_cons_self
    · refine List.mem_cons_of_mem _ (h t fun e' => ht ?_)
      show (call s u c).pc t = _
      unfold call
      split
      · exact (upd_ne _ _ _ _ e).trans e'
      · exact e'
  | drop i => exact ⟨l, fun t ht => h t (by have : (drop s i).pc t ≠ .idle := ht; rw [drop_pc] at this; exact this)⟩
  | step u =>
    refine ⟨l, fun t ht => h t fun e => ht ?_⟩
    by_cases e' : t = u
    · subst e'
      show (tick s t).pc t = _
      unfold tick; rw [e]; exact e
    · show (tick s u).pc t = _
      rw [tick_pc_other _ _ _ e']; exact e

theorem act_no_call {s : St T} {a : Act T} (ha : ∀ t c, a ≠ .call t c) {t : Tid} (h : s.pc t = .idle) : (act s a).pc t = .idle := by
  cases a with
  | call u c => exact absurd rfl (ha u c)
  | drop i => show (drop s i).pc t = _; rw [drop_pc]; exact h
  | step u =>
    show (tick s u).pc t = _
    by_cases e : t = u
    · subst e; unfold tick; rw [h]; exact h
    · rw [tick_pc_other _ _ _ e]; exact h

/-- an action that makes a thread return makes it idle, and it was not -/
theorem act_ret {s : St T} {a : Act T} {t : Tid} {r : Ret T} (h : (act s a).log = s.log ++ [.ret t r]) :
    s.pc t ≠ .idle ∧ (act s a).pc t = .idle := by
  have hne : ∀ {e : Entry T}, s.log ++ [e] = s.log ++ [.ret t r] → e = .ret t r := fun h => by simpa using h
  have hnn : s.log ≠ s.log ++ [Entry.ret t r] := fun h => by simpa using congrArg List.length h
  cases a with
  | call u c =>
    exfalso
    have h : (call s u c).log = s.log ++ [.ret t r] := h
    unfold call at h
    split at h
    · exact nomatch hne h
    · exact hnn h
  | drop i =>
    exfalso
    have h : (drop s i).log = s.log ++ [.ret t r] := h
    unfold drop at h
    split at h <;> exact hnn h
  | step u =>
    have h : (tick s u).log = s.log ++ [.ret t r] := h
    show _ ∧ (tick s u).pc t = _
    unfold tick at h ⊢
    generalize hpc : s.pc u = p at h
    cases p <;> dsimp only at h ⊢ <;> (repeat' split at h) <;>
      first
      | exact absurd h hnn
      | (have := hne h; cases this; exact ⟨by rw [hpc]; simp, by simp⟩)
      | exact nomatch (hne h)

theorem run_pending {cap : Nat} (σ : Nat → Act T) (n : Nat) : ∃ l, Pending (runFor (init T cap) σ n) l := by
  induction n with
  | zero => exact ⟨[], fun t h => absurd rfl h⟩
  | succ n ih => obtain ⟨l, h⟩ := ih; exact pending_act h (σ n)

/-- If from some moment on no new calls are made, every call returns. -/
theorem fair_all_return {cap : Nat} (hc : 0 < cap) {σ : Nat → Act T} (hf : FairRun (init T cap) σ) {N : Nat}
    (hN : ∀ n, N ≤ n → ∀ t c, σ n ≠ .call t c) {n : Nat} {t : Tid} : ∃ m, n ≤ m ∧ (runFor (init T cap) σ m).pc t = .idle := by
  have key : ∀ k n (l : List Tid), N ≤ n → l.length ≤ k → Pending (runFor (init T cap) σ n) l →
      ∃ m, n ≤ m ∧ ∀ t, (runFor (init T cap) σ m).pc t = .idle := by
    intro k
    induction k with
    | zero =>
      intro n l _ hl hp
      refine ⟨n, Nat.le_refl _, fun t => Classical.byContradiction fun h => ?_⟩
      have := hp t h
      rw [List.length_eq_zero_iff.1 (by omega : l.length = 0)] at this
      cases this
    | succ k ih =>
      intro n l hn hl hp
      by_cases he : ∀ t, (runFor (init T cap) σ n).pc t = .idle
      · exact ⟨n, Nat.le_refl _, he⟩
      · obtain ⟨u, hu⟩ := Classical.not_forall.1 he
        obtain ⟨m, hm, v, r, hr⟩ := fair_progress hc hf hu
        have hkeep : ∀ d, Pending (runFor (init T cap) σ (n + d)) l := by
          intro d
          induction d with
          | zero => exact hp
          | succ d ihd => exact fun t ht => ihd t fun e => ht (act_no_call (hN (n + d) (by omega)) e)
        have hpm := hkeep (m - n)
        rw [show n + (m - n) = m by omega] at hpm
        obtain ⟨h1, h2⟩ := act_ret (a := σ m) hr
        have hv := hpm v h1
        obtain ⟨m', h3, h4⟩ := ih (m + 1) (l.filter (· ≠ v)) (by omega) (by
            have : (l.filter (· ≠ v)).length < l.length := by
              refine Nat.lt_of_le_of_ne (List.length_filter_le _ _) fun e => ?_
              have := (List.length_filter_eq_length_iff.1 e) v hv
              simp at this
            omega) (fun t ht => by
            have hne : t ≠ v := fun e => ht (by rw [e]; exact h2)
            have : t ∈ l := hpm t fun e => ht (act_no_call (hN m (by omega)) e)
            simpa using ⟨this, hne⟩)
        exact ⟨m', by omega, h4⟩
  by_cases h : N ≤ n
  · obtain ⟨l, hl⟩ := run_pending (cap := cap) σ n
    obtain ⟨m, h1, h2⟩ := key _ n l h (Nat.le_refl _) hl
    exact ⟨m, h1, h2 t⟩
  · obtain ⟨l, hl⟩ := run_pending (cap := cap) σ N
    obtain ⟨m, h1, h2⟩ := key _ N l (Nat.le_refl _) (Nat.le_refl _) hl
    exact ⟨m, by omega, h2 t⟩

end Ring
end Soralog
