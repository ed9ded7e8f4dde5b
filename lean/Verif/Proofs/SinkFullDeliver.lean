import Verif.Spec.Deliver
import Verif.Proofs.SinkDeliver
import Verif.Proofs.SinkFullFair
/-! # What has been accepted is written in the end: the queue that is written -/
namespace Soralog
namespace SinkFull
open SinkConc (Cfg Ret Ch workerTid)

theorem rel_wWait {c : Cfg} {f : St} {a : SinkConc.St} (h : Rel c f a) {t : Tid} (ha : a.pc t = .wWait) :
    f.pc t = .wWait ∨ (f.pc t = .sizeIn ∧ ∃ n, f.ring.pc t = .obsUnlock .size n) := by
  obtain ⟨_, base, hR⟩ := h
  have hpc := hR.pcs t
  rw [ha] at hpc
  cases hx : f.pc t <;> rw [hx] at hpc <;> first
    | exact .inl rfl
    | (have := (hpc.of_simple rfl).2.2; cases this; done)
    | (obtain ⟨_, ⟨_, h2⟩ | ⟨_, h2⟩ | ⟨_, _, _, h2, _⟩⟩ := hpc <;> cases h2; done)
    | (obtain ⟨_, r, n, _, _, h3, _⟩ := hpc; cases h3; done)
    | (obtain ⟨_, r, _, _, h3⟩ := hpc; cases h3; done)
    | (obtain ⟨_, ⟨_, h2⟩ | ⟨n, h1, h2⟩⟩ := hpc
       · cases h2
       · exact .inr ⟨rfl, n, h1⟩)
    | (obtain ⟨_, ⟨_, h2⟩ | ⟨_, h2⟩ | ⟨_, _, _, h2⟩⟩ := hpc
       · cases h2
       · unfold SinkConc.nothing at h2; split at h2 <;> cases h2
       · unfold SinkConc.taking at h2; split at h2 <;> cases h2)

theorem rel_simple_pc {c : Cfg} {f : St} {a : SinkConc.St} (h : Rel c f a) {t : Tid} {q : SinkConc.PC} (hs : simple (f.pc t) = some q) : a.pc t = q := by
  obtain ⟨_, base, hR⟩ := h
  exact ((hR.pcs t).of_simple hs).2.2

theorem Endless.waits_end {c : Cfg} {o : Bool} {σ : Nat → Deed} {R : Nat → St} (h : Endless c o σ R) {A : Nat → SinkConc.St}
    (hA : ∀ n, Rel c (R n) (A n)) (hw : WaitsEnd R) {n : Nat} (hp : (A n).pc workerTid = .wWait) :
    ∃ m, n ≤ m ∧ (A m).pc workerTid ≠ .wWait := by
  refine Classical.byContradiction fun hne => ?_
  have hall : ∀ m, n ≤ m → (A m).pc workerTid = .wWait := fun m hm => Classical.byContradiction fun e => hne ⟨m, hm, e⟩
  have hwait : ∀ m, n ≤ m → (R m).pc workerTid = .wWait → False := by
    intro m hm hr
    obtain ⟨m1, h1, h2⟩ := hw m hr
    have key : ∀ d m, n ≤ m → (R m).pc workerTid = .wWait → (R (m + d)).pc workerTid ≠ .wWait → False := by
      intro d
      induction d with
      | zero => intro m _ h1 h2; exact h2 h1
      | succ d ih =>
        intro m hm h1 h2
        by_cases e : (R (m + 1)).pc workerTid = .wWait
        · exact ih (m + 1) (by omega) e (by rw [show m + 1 + d = m + (d + 1) by omega]; exact h2)
        · by_cases e2 : ∃ ch, σ m = .step workerTid ch
          · obtain ⟨ch, e2⟩ := e2
            have hn := h.next m
            rw [e2] at hn
            have h3 : (R (m + 1)).pc workerTid = .enter .worker := by
              rw [show R (m + 1) = step c (R m) workerTid ch from hn] at e ⊢
              unfold step at e ⊢; simp only [h1] at e ⊢
              split
              · simp [setPc, upd]
              · rename_i h5; rw [if_neg h5] at e; exact absurd h1 e
            have h4 := rel_simple_pc (hA (m + 1)) (t := workerTid) (by rw [h3]; rfl)
            rw [hall (m + 1) (by omega)] at h4; cases h4
          · exact absurd ((does_pc_same (h.next m) (by rw [h1]; simp) (fun ch e' => e2 ⟨ch, e'⟩)).trans h1) e
    exact key (m1 - m) m hm hr (by rw [show m + (m1 - m) = m1 by omega]; exact h2)
  rcases rel_wWait (hA n) hp with hr | ⟨hr, k, hk⟩
  · exact hwait n (Nat.le_refl _) hr
  · obtain ⟨m, ch, h1, _, h3, h4, h5⟩ := h.first (n := n) (t := workerTid) (by rw [hr]; exact ⟨by simp, by simp, by simp⟩)
    rw [hr] at h4
    rw [hk] at h5
    have h6 : (R (m + 1)).pc workerTid = if k = 0 then .wExit else .wWait := by
      rw [h3]; unfold step; simp only [h4, h5]; simp [setPc, upd]
    by_cases e : k = 0
    · rw [if_pos e] at h6
      have := rel_simple_pc (hA (m + 1)) (t := workerTid) (by rw [h6]; rfl)
      rw [hall (m + 1) (by omega)] at this; cases this
    · rw [if_neg e] at h6
      exact hwait (m + 1) (by omega) h6

theorem Endless.destructor_ends_from {c : Cfg} {o : Bool} {σ : Nat → Deed} {R : Nat → St} (h : Endless c o σ R) (hcap : 0 < c.capacity)
    (hw : WaitsEnd R) {N : Nat} (hv : ∀ n, N ≤ n → ∀ t ch, σ n = .step t ch → ch.newest = true) {d : Tid} (ho : (R N).owner = some d) :
    ∃ m, N ≤ m ∧ (R m).pc d = .dead := by
  have hown : ∀ k, (R (N + k)).owner = some d := by
    intro k
    induction k with
    | zero => exact ho
    | succ k ih =>
      rcases does_owner (h.next (N + k)) with h1 | ⟨h1, _⟩
      · exact h1.trans ih
      · rw [ih] at h1; cases h1
  have hs := h.shift N
  have hl : NobodyStarves (fun n => R (N + n)) := by
    intro n t hp
    have hp' : Ring.spinning ((R (N + n)).ring.pc t) = true := atLock_iff.1 hp
    obtain ⟨a, hr, hrel⟩ := rel_refines hcap (h.reach (N + n))
    have hne : (R (N + n)).ring.pc t ≠ .idle := fun e => by rw [e] at hp'; cases hp'
    have hq : inQueue ((R (N + n)).pc t) = true := by
      cases e : inQueue ((R (N + n)).pc t)
      · obtain ⟨_, base, hR⟩ := hrel
        exact absurd (not_inQueue (hR.pcs t) e) hne
      · rfl
    obtain ⟨m, ch, h1, h2, h3, h4, h5⟩ := h.first (n := N + n) (t := t) (by
      generalize (R (N + n)).pc t = p at hq
      refine ⟨?_, ?_, ?_⟩ <;> (intro e; subst e; cases hq))
    refine ⟨m + 1 - N, by omega, ?_⟩
    show ¬AtLock ((R (N + (m + 1 - N))).ring.pc t)
    rw [show N + (m + 1 - N) = m + 1 by omega, atLock_iff, h3, step_ring ch (by rw [h4]; exact hq)]
    have hm : (R m).owner = some d := by have := hown (m - N); rwa [show N + (m - N) = m by omega] at this
    obtain ⟨a2, hr2, hrel2⟩ := rel_refines hcap (h.reach m)
    have hfree : (R m).ring.buf.busy = false := by
      cases hb : (R m).ring.buf.busy
      · rfl
      · obtain ⟨_, base, hR⟩ := hrel2
        obtain ⟨u, hu⟩ := hR.inv.lock.1 hb
        have := destroy_alone hcap (h.reach m) hm (t := t) (u := u) (by rw [h5]; exact hne) (fun e => by rw [e] at hu; cases hu)
        subst this
        rw [h5] at hu
        generalize (R (N + n)).ring.pc t = p at hu hp'
        cases p <;> first | (cases hu; done) | cases hp'
    intro hsp
    rcases Ring.tick_spin (by rw [h5]; exact hp') hfree with e | e
    · generalize (Ring.tick (R m).ring t).pc t = p at hsp e
      cases p <;> first | (cases hsp; done) | cases e
    · generalize (Ring.tick (R m).ring t).pc t = p at hsp e
      cases p <;> first | (cases hsp; done) | cases e
  obtain ⟨σ', A, hA, hR, hsame⟩ := hs.lift hcap hl
  obtain ⟨m, _, h2⟩ := hA.destructor_ends_from (fun n => hs.waits_end hR (fun n hp => by
    obtain ⟨m, h1, h2⟩ := hw (N + n) hp
    exact ⟨m - N, by omega, by show (R (N + (m - N))).pc workerTid ≠ _; rw [show N + (m - N) = m by omega]; exact h2⟩)) (N := 0) (fun n _ t ch e => hv (N + n) (by omega) t ch (hsame n t ch e)) (d := d) (by rw [(hR 0).1]; exact ho)
  exact ⟨N + m, by omega, rel_dead_back (hR m) h2⟩

/-- A started destructor finishes, whatever the lock does, if the waits of the worker end and stores become visible. -/
theorem Endless.destructor_ends {c : Cfg} {o : Bool} {σ : Nat → Deed} {R : Nat → St} (h : Endless c o σ R) (hcap : 0 < c.capacity)
    (hw : WaitsEnd R) (hv : StoresSeen σ) {N : Nat} {d : Tid} (ho : (R N).owner = some d) : ∃ m, N ≤ m ∧ (R m).pc d = .dead := by
  obtain ⟨K, hv⟩ := hv
  have hown : ∀ k, (R (N + k)).owner = some d := by
    intro k
    induction k with
    | zero => exact ho
    | succ k ih =>
      rcases does_owner (h.next (N + k)) with h1 | ⟨h1, _⟩
      · exact h1.trans ih
      · rw [ih] at h1; cases h1
  obtain ⟨m, h1, h2⟩ := h.destructor_ends_from hcap hw (N := N + K) (fun n hn => hv n (by omega)) (hown K)
  exact ⟨m, by omega, h2⟩

theorem rel_log {c : Cfg} {f : St} {a : SinkConc.St} (h : Rel c f a) : a.put = Spec.putsOf none f.ring.log ∧ a.written = f.written := by
  obtain ⟨he, base, hR⟩ := h
  exact ⟨hR.log, by rw [he]; rfl⟩

theorem Endless.worker_delivers {c : Cfg} {σ : Nat → Deed} {R : Nat → St} (h : Endless c true σ R) (hcap : 0 < c.capacity)
    (hl : NobodyStarves R) (hl0 : c.latency0 = false) (hw : WaitsEnd R) (n : Nat) :
    ∃ m, n ≤ m ∧ Spec.putsOf none (R n).ring.log <+: (R m).written := by
  obtain ⟨σ', A, hA, hR, _⟩ := h.lift hcap hl
  obtain ⟨m, h1, h2⟩ := hA.delivers (hA.worker_visits hl0 (fun n hp => h.waits_end hR hw hp)) (n := n)
  rw [(rel_log (hR n)).1, (rel_log (hR m)).2] at h2
  exact ⟨m, h1, h2⟩

theorem Endless.use_delivers {c : Cfg} {σ : Nat → Deed} {R : Nat → St} (h : Endless c true σ R) (hcap : 0 < c.capacity)
    (hl : NobodyStarves R) (hl0 : c.latency0 = true) (hw : KeepsBeingUsed σ) (n : Nat) :
    ∃ m, n ≤ m ∧ Spec.putsOf none (R n).ring.log <+: (R m).written := by
  obtain ⟨σ', A, hA, hR, _⟩ := h.lift hcap hl
  obtain ⟨m, h1, h2⟩ := hA.delivers (hA.calls_visit hl0 (fun n => by
    obtain ⟨m, t, k, h1, h2, h3⟩ := hw n
    have hd := h.next m
    rw [h2] at hd
    obtain ⟨_, _, _, h4⟩ := hd
    have hpc : (R (m + 1)).pc t = startPC k := by rw [h4]; simp [setPc, upd]
    refine ⟨m + 1, t, by omega, ?_⟩
    cases k with
    | push e => exact .inl ⟨e, rel_simple_pc (hR (m + 1)) (by rw [hpc]; rfl)⟩
    | flush => exact .inr (.inl (rel_simple_pc (hR (m + 1)) (by rw [hpc]; rfl)))
    | asyncFlush => exact .inr (.inr (rel_simple_pc (hR (m + 1)) (by rw [hpc]; rfl)))
    | rotate => exact absurd rfl h3)) (n := n)
  rw [(rel_log (hR n)).1, (rel_log (hR m)).2] at h2
  exact ⟨m, h1, h2⟩

end SinkFull
end Soralog
