import Verif.Spec.Rotate
import Verif.Proofs.SinkFullDeliver
import Verif.Proofs.FlushRequest
/-! # A requested rotation is made -/
namespace Soralog
namespace SinkConc

/-- only a thread that has found the request takes it away -/
theorem does_rotate_cleared {c : Cfg} {s s' : St} {d : Deed} (h : Does c s d s') (h1 : s.needRotate = true) (h2 : s'.needRotate = false) :
    ∃ t k, s'.pc t = .reopen k := by
  cases d with
  | rest => rw [show s' = s from h, h1] at h2; cases h2
  | call t k => obtain ⟨_, _, _, h4⟩ := h; rw [h4, show (setPc s t (firstPC k)).needRotate = s.needRotate from rfl, h1] at h2; cases h2
  | destroy t =>
    obtain ⟨_, _, _, h4⟩ := h
    rw [h4] at h2
    rw [show (setPc { s with owner := some t } t PC.dStart).needRotate = s.needRotate from rfl, h1] at h2; cases h2
  | step t ch =>
    rw [show s' = step c s t ch from h] at h2 ⊢
    cases hp : s.pc t
    case casRotate k =>
      refine ⟨t, k, ?_⟩
      unfold step at h2 ⊢; simp only [hp] at h2 ⊢
      split
      · simp [setPc, upd]
      · rename_i h5; rw [if_neg h5] at h2; rw [show (setPc s t (PC.leave k)).needRotate = s.needRotate from rfl, h1] at h2; cases h2
    case write k e => exfalso; cases e <;> (unfold step at h2; simp only [hp] at h2; (repeat' split at h2) <;> (simp [setPc, h1] at h2))
    all_goals
      exfalso
      unfold step at h2; simp only [hp] at h2
      (repeat' split at h2) <;> (simp [setPc, h1] at h2)

/-- steps left to the exchange of `need_to_rotate_`, after the queue has answered -/
def PC.toRotate : PC → Option Nat
  | .uncount _ _ => some 5
  | .unref _ _ => some 4
  | .write _ (some _) => some 3
  | .casFlush _ => some 2
  | .sync _ => some 1
  | .write _ none => some 1
  | .casRotate _ => some 0
  | _ => none

theorem step_toRotate {c : Cfg} {s : St} {t : Tid} {ch : Ch} {n : Nat} (h : (s.pc t).toRotate = some (n + 1)) :
    ∃ m, m ≤ n ∧ ((step c s t ch).pc t).toRotate = some m := by
  cases hp : s.pc t <;> simp [hp, PC.toRotate] at h
  case write k e =>
    cases e with
    | none => cases h; refine ⟨0, Nat.zero_le _, ?_⟩; unfold step; simp only [hp]; simp [setPc, upd, PC.toRotate]
    | some e =>
      cases h
      refine ⟨2, Nat.le_refl _, ?_⟩; unfold step; simp only [hp]; split <;> simp [setPc, upd, PC.toRotate]
  case uncount k e => subst h; refine ⟨4, Nat.le_refl _, ?_⟩; unfold step; simp only [hp]; simp [setPc, upd, PC.toRotate]
  case unref k e => subst h; refine ⟨3, Nat.le_refl _, ?_⟩; unfold step; simp only [hp]; simp [setPc, upd, PC.toRotate]
  case casFlush k =>
    subst h
    unfold step; simp only [hp]
    split
    · exact ⟨1, Nat.le_refl _, by simp [setPc, upd, PC.toRotate]⟩
    · exact ⟨0, Nat.zero_le _, by simp [setPc, upd, PC.toRotate]⟩
  case sync k => subst h; refine ⟨0, Nat.le_refl _, ?_⟩; unfold step; simp only [hp]; simp [setPc, upd, PC.toRotate]

/-- nobody re-opens the file from `n` on -/
def NoReopen (R : Nat → St) (n : Nat) : Prop := ∀ m t k, n ≤ m → (R m).pc t ≠ .reopen k

section
variable {c : Cfg} {o : Bool} {σ : Nat → Deed} {R : Nat → St}

theorem Endless.request_stays (h : Endless c o σ R) {n : Nat} (hn : (R n).needRotate = true) (hno : NoReopen R n) {m : Nat} (hm : n ≤ m) :
    (R m).needRotate = true := by
  obtain ⟨d, rfl⟩ : ∃ d, m = n + d := ⟨m - n, by omega⟩
  clear hm
  induction d with
  | zero => exact hn
  | succ d ih =>
    cases e : (R (n + (d + 1))).needRotate
    · obtain ⟨t, k, h1⟩ := does_rotate_cleared (h.next (n + d)) ih e
      exact absurd h1 (hno _ t k (by omega))
    · rfl

/-- then nobody comes to the exchange -/
theorem Endless.none_rotates (h : Endless c o σ R) (hf : c.isFile = true) (hc : ∀ n t ch, σ n = .step t ch → ch.casOk = true) {n : Nat}
    (hn : (R n).needRotate = true) (hno : NoReopen R n) {m : Nat} (hm : n ≤ m) (t : Tid) : ((R m).pc t).toRotate = none := by
  have key : ∀ g m, n ≤ m → ∀ j, j ≤ g → ((R m).pc t).toRotate ≠ some j := by
    intro g
    induction g with
    | zero =>
      intro m hm j hj e
      have hj : j = 0 := by omega
      subst hj
      have hp : ∃ k, (R m).pc t = .casRotate k := by
        generalize (R m).pc t = p at e
        cases p <;> simp [PC.toRotate] at e
        case write k e' => cases e' <;> simp at e
        case casRotate k => exact ⟨k, rfl⟩
      obtain ⟨k, hp⟩ := hp
      obtain ⟨m', ch, h3, h4, h5, h6⟩ := h.first_deed (n := m) (t := t) (by rw [hp]; exact ⟨by simp, by simp, by simp⟩)
      rw [hp] at h5
      refine hno (m' + 1) t k (by omega) ?_
      rw [h4]; unfold step; simp only [h5]
      rw [if_pos (by rw [hf, h.request_stays hn hno (by omega), hc _ _ _ h6]; rfl)]
      simp [setPc, upd]
    | succ g ih =>
      intro m hm j hj e
      cases j with
      | zero => exact ih m hm 0 (Nat.zero_le _) e
      | succ j =>
        obtain ⟨m', ch, h3, h4, h5⟩ := h.first (n := m) (t := t) (by
          generalize (R m).pc t = p at e
          refine ⟨?_, ?_, ?_⟩ <;> (intro e'; subst e'; simp [PC.toRotate] at e))
        obtain ⟨i, h6, h7⟩ := step_toRotate (c := c) (ch := ch) (s := R m') (t := t) (by rw [h5]; exact e)
        rw [← h4] at h7
        exact ih (m' + 1) (by omega) i (by omega) h7
  cases e : ((R m).pc t).toRotate with
  | none => rfl
  | some j => exact absurd e (key j m hm j (Nat.le_refl _))

/-- and nobody asks the queue -/
theorem Endless.none_asks (h : Endless c o σ R) (hf : c.isFile = true) (hc : ∀ n t ch, σ n = .step t ch → ch.casOk = true) {n : Nat}
    (hn : (R n).needRotate = true) (hno : NoReopen R n) {m : Nat} (hm : n ≤ m) (t : Tid) (k : Ret) : (R m).pc t ≠ .get k := by
  intro hp
  have hs : c.isSyslog = false := by
    unfold Cfg.isFile at hf; unfold Cfg.isSyslog
    rw [of_decide_eq_true hf]; rfl
  have hnr := fun m hm u => h.none_rotates hf hc hn hno (m := m) hm u
  have hkeep : ∀ d, (R (m + d)).pc t = .get k ∧ (R (m + d)).taken = (R m).taken := by
    intro d
    induction d with
    | zero => exact ⟨hp, rfl⟩
    | succ d ih =>
      have hd := h.next (m + d)
      cases hσ : σ (m + d) with
      | rest => rw [hσ] at hd; rw [show m + (d + 1) = m + d + 1 by omega, show R (m + d + 1) = R (m + d) from hd]; exact ih
      | call u q =>
        rw [hσ] at hd
        obtain ⟨_, h2, _, h4⟩ := hd
        rw [show m + (d + 1) = m + d + 1 by omega, h4]
        refine ⟨?_, ih.2⟩
        show upd _ _ _ _ = _
        rw [upd, if_neg (fun e => by rw [← e, ih.1] at h2; cases h2)]; exact ih.1
      | destroy u =>
        rw [hσ] at hd
        obtain ⟨h1, _, h3, h4⟩ := hd
        rw [show m + (d + 1) = m + d + 1 by omega, h4]
        refine ⟨?_, ih.2⟩
        show upd _ _ _ _ = _
        rw [upd, if_neg (fun e => by
          have := h3 t (by rw [e]; exact h1)
          rw [ih.1] at this; cases this)]; exact ih.1
      | step u ch =>
        rw [hσ] at hd
        have hd : R (m + d + 1) = step c (R (m + d)) u ch := hd
        rw [show m + (d + 1) = m + d + 1 by omega]
        have htk : (R (m + d + 1)).taken = (R (m + d)).taken := by
          rw [hd]
          rcases step_queue c (R (m + d)) u ch with ⟨_, h2, _⟩ | ⟨e, _, _, h2⟩ | ⟨q, _, h2⟩ | ⟨q, _, h2⟩ | ⟨q, e, _, _, _, h2⟩
          · exact h2
          · rw [h2]; rfl
          · rw [h2]; rfl
          · rw [h2]; rfl
          · exfalso
            have := hnr (m + d + 1) (by omega) u
            rw [hd, h2] at this
            simp [setPc, upd, taking, hs, PC.toRotate] at this
        refine ⟨?_, htk.trans ih.2⟩
        by_cases e : u = t
        · subst e
          have h0 := hnr (m + d + 1) (by omega) u
          rw [hd] at h0 ⊢
          unfold step at h0 ⊢; simp only [ih.1] at h0 ⊢
          revert h0
          split
          · intro h0; simp [setPc, upd, nothing, hs, PC.toRotate] at h0
          · split
            · intro h0; simp [setPc, upd, taking, hs, PC.toRotate] at h0
            · intro _; exact ih.1
        · rw [hd, step_pc_other c _ u ch t (Ne.symm e)]; exact ih.1
  have hget : ∀ m', m ≤ m' → (R m').pc t = .get k ∧ (R m').taken = (R m).taken := fun m' h' => by
    have := hkeep (m' - m)
    rwa [show m + (m' - m) = m' by omega] at this
  obtain ⟨m1, ch1, h1, h2, h3⟩ := h.first (n := m) (t := t) (by rw [hp]; exact ⟨by simp, by simp, by simp⟩)
  have hlen : (R m1).taken < (R m1).put.length := by
    refine Nat.lt_of_not_le fun hle => ?_
    have h0 := hnr (m1 + 1) (by omega) t
    rw [h2] at h0
    unfold step at h0; simp only [(hget m1 h1).1, List.getElem?_eq_none hle] at h0
    simp [setPc, upd, nothing, hs, PC.toRotate] at h0
  obtain ⟨M, hM, hrdy⟩ := h.gets_ready hlen
  obtain ⟨m2, ch2, h4, h5, _⟩ := h.first (n := M) (t := t) (by rw [(hget M (by omega)).1]; exact ⟨by simp, by simp, by simp⟩)
  have h0 := hnr (m2 + 1) (by omega) t
  have htk : (R m2).taken = (R m1).taken := by rw [(hget m2 (by omega)).2, (hget m1 h1).2]
  have hl2 : (R m1).taken < (R m2).put.length := Nat.lt_of_lt_of_le hlen (h.put_mono (n := m1) (m := m2) (by omega)).length_le
  rw [h5] at h0
  unfold step at h0; simp only [(hget m2 (by omega)).1] at h0
  rw [htk, List.getElem?_eq_getElem hl2] at h0
  dsimp only at h0
  rw [if_pos (h.ready_stays (by omega) hrdy)] at h0
  simp [setPc, upd, taking, hs, PC.toRotate] at h0

/-- a thread comes to `flush` when nobody is inside: the file is re-opened -/
theorem Endless.enter_reopens (h : Endless c o σ R) (hf : c.isFile = true) (hc : ∀ n t ch, σ n = .step t ch → ch.casOk = true) {n : Nat}
    (hn : (R n).needRotate = true) (hfl : (R n).flag = false) {m : Nat} (hm : n ≤ m) {t : Tid} {k : SinkConc.Ret} (hp : (R m).pc t = .enter k) :
    ∃ m t k, n ≤ m ∧ (R m).pc t = .reopen k := by
  refine Classical.byContradiction fun hne => ?_
  have hno : NoReopen R n := fun m t k hm e => hne ⟨m, t, k, hm, e⟩
  have hask := fun m hm u q => h.none_asks hf hc hn hno (m := m) hm u q
  have hfree : ∀ d, (R (n + d)).flag = false := by
    intro d
    induction d with
    | zero => exact hfl
    | succ d ih =>
      rcases does_flag (h.next (n + d)) ih with h1 | ⟨u, q, h1⟩
      · exact h1
      · exact absurd h1 (hask (n + d + 1) (by omega) u q)
  obtain ⟨m', ch, h3, h4, h5⟩ := h.first (n := m) (t := t) (by rw [hp]; exact ⟨by simp, by simp, by simp⟩)
  rw [hp] at h5
  refine hask (m' + 1) (by omega) t k ?_
  have := hfree (m' - n)
  rw [show n + (m' - n) = m' by omega] at this
  rw [h4]; unfold step; simp only [h5]; rw [this]; simp [setPc, upd]
end

/-- with a worker: the file is re-opened -/
theorem Endless.worker_reopens {c : Cfg} {σ : Nat → Deed} {R : Nat → St} (h : Endless c true σ R) (hf : c.isFile = true) (hl : c.latency0 = false)
    (hc : ∀ n t ch, σ n = .step t ch → ch.casOk = true) (hw : ∀ n, (R n).pc workerTid = .wWait → ∃ m, n ≤ m ∧ (R m).pc workerTid ≠ .wWait)
    (ho : ∀ n, (R n).owner = none) {n : Nat} (hn : (R n).needRotate = true) : ∃ m t k, n ≤ m ∧ (R m).pc t = .reopen k := by
  refine Classical.byContradiction fun hne => ?_
  have hno : NoReopen R n := fun m t k hm e => hne ⟨m, t, k, hm, e⟩
  have hask := fun m hm u q => h.none_asks hf hc hn hno (m := m) hm u q
  have hout : ∃ M, n ≤ M ∧ (R M).flag = false := by
    cases hfl : (R n).flag
    · exact ⟨n, Nat.le_refl _, hfl⟩
    · obtain ⟨t, ht⟩ := (excl_reach (h.reach n)).free hfl
      obtain ⟨k, hk⟩ := inBody_ret ht
      obtain ⟨m', h1, _, h2⟩ := h.leaves_body (fun m t k hm => hask m hm t k) (Nat.le_refl _) hk
      exact ⟨m' + 1, by omega, h2⟩
  obtain ⟨M, hM, hfl⟩ := hout
  have hfin : ∀ m, (R m).needFinalize = false := by
    intro m
    cases e : (R m).needFinalize
    · rfl
    · obtain ⟨d, hd⟩ := (final_reach (h.reach m)).fin e
      rw [ho m] at hd; cases hd
  have hent : ∀ m t k, M ≤ m → (R m).pc t ≠ .enter k := fun m t k hm hp => by
    obtain ⟨m2, u, q, h1, h2⟩ := h.enter_reopens hf hc (h.request_stays hn hno hM) hfl hm hp
    exact hno m2 u q (by omega) h2
  have hwait : ∀ m, M ≤ m → (R m).pc workerTid ≠ .wWait := by
    intro m hm hp
    obtain ⟨m', ch, h1, h2, h3, h4, _⟩ := h.first_worker hw (n := m) (by rw [hp]; exact ⟨by simp, by simp, by simp⟩)
    rw [hp] at h3
    refine hent (m' + 1) workerTid .worker (by omega) ?_
    rw [h2]; unfold step; simp only [h3]; rw [if_pos (h4 h3)]; simp [setPc, upd]
  have hrole := (roles_reach (h.reach M)).worker
  have hbody : ((R M).pc workerTid).inBody = false := by
    cases e : ((R M).pc workerTid).inBody
    · rfl
    · have := (excl_reach (h.reach M)).flag _ e
      rw [hfl] at this; cases this
  cases hp : (R M).pc workerTid with
  | wWait => exact hwait M (Nat.le_refl _) hp
  | wCheck =>
    obtain ⟨m', ch, h3, h4, h5⟩ := h.first (n := M) (t := workerTid) (by rw [hp]; exact ⟨by simp, by simp, by simp⟩)
    rw [hp] at h5
    refine hwait (m' + 1) (by omega) ?_
    rw [h4]; unfold step; simp only [h5]; rw [hfin m']; simp [setPc, upd]
  | wSize =>
    have := (final_reach (h.reach M)).checked hp
    rw [hfin M] at this; cases this
  | enter k => exact hent M workerTid k (Nat.le_refl _) hp
  | wExit =>
    rcases (final_reach (h.reach M)).exit hp with e | e | ⟨e, _⟩
    · rw [hl] at e; cases e
    · cases e
    · rw [hfin M] at e; cases e
  | _ => rw [hp] at hrole hbody; first | (cases hbody; done) | (cases hrole; done) | cases hrole

end SinkConc

namespace SinkFull
open SinkConc (Cfg Ch workerTid)

theorem reopen_counts {c : Cfg} {o : Bool} {σ : Nat → Deed} {A : Nat → SinkConc.St} (h : SinkConc.Endless c o σ A)
    (hc : ∀ n t ch, σ n = .step t ch → ch.openOk = true) {m : Nat} {t : Tid} {k : SinkConc.Ret} (hp : (A m).pc t = .reopen k) :
    ∃ m', m ≤ m' ∧ (A m').gens.length < (A (m' + 1)).gens.length := by
  obtain ⟨m', ch, h3, h4, h5, h6⟩ := h.first_deed (n := m) (t := t) (by rw [hp]; exact ⟨by simp, by simp, by simp⟩)
  rw [hp] at h5
  refine ⟨m', h3, ?_⟩
  rw [h4]; unfold SinkConc.step; simp only [h5]; rw [if_pos (hc _ _ _ h6)]
  simp [SinkConc.setPc]

theorem does_gens {c : Cfg} {s s' : SinkConc.St} {d : Deed} (h : SinkConc.Does c s d s') : s.gens.length ≤ s'.gens.length := by
  cases d with
  | rest => rw [show s' = s from h]; exact Nat.le_refl _
  | call t k => obtain ⟨_, _, _, h4⟩ := h; rw [h4]; exact Nat.le_refl _
  | destroy t => obtain ⟨_, _, _, h4⟩ := h; rw [h4]; exact Nat.le_refl _
  | step t ch =>
    rw [show s' = SinkConc.step c s t ch from h]
    cases hp : s.pc t
    case write k e => cases e <;> (unfold SinkConc.step; simp only [hp]; (repeat' split) <;> simp [SinkConc.setPc])
    all_goals
      unfold SinkConc.step; simp only [hp]
      (repeat' split) <;> simp [SinkConc.setPc]

theorem gens_mono {c : Cfg} {o : Bool} {σ : Nat → Deed} {A : Nat → SinkConc.St} (h : SinkConc.Endless c o σ A) {n m : Nat} (hm : n ≤ m) :
    (A n).gens.length ≤ (A m).gens.length := by
  obtain ⟨d, rfl⟩ : ∃ d, m = n + d := ⟨m - n, by omega⟩
  clear hm
  induction d with
  | zero => exact Nat.le_refl _
  | succ d ih => exact Nat.le_trans ih (does_gens (h.next (n + d)))

theorem reopens_of {c : Cfg} {o : Bool} {σ : Nat → Deed} {A : Nat → SinkConc.St} {R : Nat → St} (h : SinkConc.Endless c o σ A)
    (hR : ∀ n, Rel c (R n) (A n)) (hc : ∀ n t ch, σ n = .step t ch → ch.openOk = true) {n m : Nat} {t : Tid} {k : SinkConc.Ret} (hm : n ≤ m)
    (hp : (A m).pc t = .reopen k) : ∃ m', n < m' ∧ reopened (R n) < reopened (R m') := by
  obtain ⟨m', h1, h2⟩ := reopen_counts h hc hp
  refine ⟨m' + 1, by omega, ?_⟩
  have e : ∀ j, (A j).gens = (R j).gens := fun j => by rw [(hR j).1]; rfl
  have := gens_mono h (n := n) (m := m') (by omega)
  unfold reopened
  rw [← e, ← e]; omega

/-- with a worker, a requested rotation is made -/
theorem Endless.worker_rotates {c : Cfg} {σ : Nat → Deed} {R : Nat → St} (h : Endless c true σ R) (hcap : 0 < c.capacity)
    (hl : NobodyStarves R) (hl0 : c.latency0 = false) (hw : WaitsEnd R) (hc : NoSpuriousFailure σ) (hop : CanReopen σ) (hf : c.isFile = true)
    (ho : ∀ n, (R n).owner = none) {n : Nat} (hn : (R n).needRotate = true) : ∃ m, n < m ∧ reopened (R n) < reopened (R m) := by
  obtain ⟨σ', A, hA, hR, hs⟩ := h.lift hcap hl
  obtain ⟨m, t, k, h1, h2⟩ := hA.worker_reopens hf hl0 (fun n t ch e => hc n t ch (hs n t ch e)) (fun n hp => h.waits_end hR hw hp)
    (fun n => by rw [(hR n).1]; exact ho n) (n := n) (by rw [(hR n).1]; exact hn)
  exact reopens_of hA hR (fun n t ch e => hop n t ch (hs n t ch e)) h1 h2

/-- a thread that calls `flush()` while nobody is inside makes it -/
theorem Endless.flush_rotates {c : Cfg} {o : Bool} {σ : Nat → Deed} {R : Nat → St} (h : Endless c o σ R) (hcap : 0 < c.capacity)
    (hl : NobodyStarves R) (hc : NoSpuriousFailure σ) (hop : CanReopen σ) (hf : c.isFile = true)
    {n : Nat} (hn : (R n).needRotate = true) (hfl : (R n).flag = false) {m : Nat} (hm : n ≤ m) {t : Tid} {k : SinkConc.Ret} (hp : (R m).pc t = .enter k) :
    ∃ m, n < m ∧ reopened (R n) < reopened (R m) := by
  obtain ⟨σ', A, hA, hR, hs⟩ := h.lift hcap hl
  obtain ⟨m, t, k, h1, h2⟩ := hA.enter_reopens hf (fun n t ch e => hc n t ch (hs n t ch e)) (n := n) (by rw [(hR n).1]; exact hn)
    (by rw [(hR n).1]; exact hfl) hm (rel_simple_pc (hR m) (by rw [hp]; rfl))
  exact reopens_of hA hR (fun n t ch e => hop n t ch (hs n t ch e)) h1 h2

end SinkFull
end Soralog
