import Verif.Proofs.ManyFair
/-!
# Proofs: the log of a program that has come to rest gets complete
-/
namespace Soralog
namespace Many
namespace Lock
open Spec
open SinkConc (workerTid)
open SinkFull (accepted acceptedFrom)

/-- while all clients are outside of a sink, it accepts nothing -/
theorem put_stays {c : SinkConc.Cfg} {o : Bool} {σ : Nat → Soralog.Deed} {R : Nat → SinkFull.St} (h : SinkFull.Endless c o σ R) (hcap : 0 < c.capacity)
    (hl : SinkFull.NobodyStarves R) (hq : ∀ n t, t ≠ workerTid → quiet ((R n).pc t)) (n : Nat) : accepted (R n) = accepted (R 0) := by
  obtain ⟨σ', A, hA, hR, _⟩ := h.lift hcap hl
  have hput : ∀ n, (A n).put = (A 0).put := by
    intro n
    induction n with
    | zero => rfl
    | succ n ih =>
      rcases SinkConc.does_queue (hA.next n) with ⟨e, _⟩ | ⟨_, _, t, e, k, hp, _⟩
      · exact e.trans ih
      · exfalso
        by_cases ht : t = workerTid
        · have := (SinkConc.roles_reach (hA.reach n)).worker
          rw [← ht, hp] at this
          cases this
        · rcases hq n t ht with hi | hi
          · rw [SinkFull.rel_simple_pc (hR n) (t := t) (q := .idle) (by rw [hi]; rfl)] at hp; cases hp
          · rw [SinkFull.rel_simple_pc (hR n) (t := t) (q := .dead) (by rw [hi]; rfl)] at hp; cases hp
  have h1 := (SinkFull.rel_log (hR n)).1
  have h0 := (SinkFull.rel_log (hR 0)).1
  rw [hput n, h0] at h1
  exact h1.symm

/-- what is written stays written -/
theorem written_grows {c : SinkConc.Cfg} {s s' : SinkFull.St} {d : Soralog.Deed} (h : SinkFull.Does c s d s') : s.written <+: s'.written := by
  cases d with
  | rest => rw [show s' = s from h]; exact List.prefix_refl _
  | call t k => obtain ⟨_, _, _, h4⟩ := h; rw [h4]; exact List.prefix_refl _
  | destroy t => obtain ⟨_, _, _, h4⟩ := h; rw [h4]; exact List.prefix_refl _
  | step t ch =>
    rw [show s' = SinkFull.step c s t ch from h]
    unfold SinkFull.step
    (repeat' split) <;> (try dsimp only) <;> (repeat' split)
    all_goals first
      | exact List.prefix_refl _
      | exact List.prefix_append _ _

/-- only clients say something -/
theorem said_thread {S : Setup} {s : Many.St} (h : Many.Reach S s) : ∀ x ∈ s.said, x.thread ≠ workerTid := by
  induction h with
  | init debug ord ho => intro x hx; cases hx
  | @next s s' h he ih =>
    cases he with
    | leaf j t ch => exact ih
    | enter t j q rest call ht hd hf hi ho hs => exact ih
    | destroy t j ht hf hi ho hc hn => exact ih
    | direct t k d ht hf hi =>
      intro x hx
      rcases List.mem_append.1 hx with hx | hx
      · exact ih x hx
      · cases d with
        | push m => simp [Direct.said] at hx; subst hx; exact ht
        | _ => cases hx
    | system t sys' ht hf hm =>
      obtain ⟨xs, h1, h2, _⟩ := new_said (S := S) hm
      rw [h1]
      intro x hx
      rcases List.mem_append.1 hx with hx | hx
      · exact ih x hx
      · rw [h2 x hx]; exact ht

theorem worker_says_nothing {S : Setup} {s : Many.St} (h : Many.Reach S s) (i : Nat) : addressed S workerTid i s.said = [] := by
  unfold addressed
  rw [List.filter_eq_nil_iff.2 (fun x hx => by simp [said_thread h x hx])]
  rfl

/-- everybody is at rest: what a sink has accepted is what was addressed to it, the worker included (it says nothing) -/
theorem accepted_all {S : Setup} (hS : S.Sound) {s : Many.St} (h : Many.Reach S s) (hf : ∀ t, t ≠ workerTid → Free s t) (i : Nat) (t : Tid) :
    Matches (EventOf (S.leaf i)) (ofThread t (acceptedBy (s.leaf i))) (addressed S t i s.said) := by
  unfold ofThread
  rw [acceptedBy_filter]
  by_cases ht : t = workerTid
  · subst ht
    obtain ⟨done, h1, h2⟩ := track hS h workerTid i
    rw [worker_says_nothing h] at h1 ⊢
    have hd : done = [] := (List.append_eq_nil_iff.1 h1.symm).1
    subst hd
    have : brought s workerTid i = [] := by
      generalize brought s workerTid i = l at h2
      cases h2; rfl
    have : acceptedFrom workerTid (s.leaf i) = [] := (List.append_eq_nil_iff.1 this).1
    rw [this]; exact .nil
  · exact C89_delivered_once_in_order S hS s h t (hf t ht) i

theorem Last.complete {S : Setup} (hS : S.Sound) {σ : Nat → Deed} {R : Nat → St} (h : Last S σ R) (hl : NobodyStarves R) (hw : WaitsEnd R)
    (hq : ∀ n t, t ≠ workerTid → AtRest (R n) t) {i : Nat} (ho : (S.leaf i).opened = true) (hl0 : (S.leaf i).conc.latency0 = false) :
    ∃ M, ∀ m, M ≤ m → ((R m).prog.leaf i).written = accepted ((R m).prog.leaf i) := by
  obtain ⟨σ', hE, _⟩ := h.leafRun i
  rw [ho] at hE
  obtain ⟨M, _, hM⟩ := hE.worker_delivers (hS.room i) (hl i) hl0 (hw i) 0
  have hput := put_stays hE (hS.room i) (hl i) fun n t ht => (hq n t ht).2.1.2 i
  refine ⟨M, fun m hm => ?_⟩
  have hgrow : ∀ k, ((R M).prog.leaf i).written <+: ((R (M + k)).prog.leaf i).written := by
    intro k
    induction k with
    | zero => exact List.prefix_refl _
    | succ k ih => exact ih.trans (written_grows (hE.next (M + k)))
  have h1 := hgrow (m - M)
  rw [show M + (m - M) = m by omega] at h1
  have h2 := (SinkFull.C72_exactly_once_in_order _ (hS.room i) _ (hE.reach m)).1
  have h3 : accepted ((R 0).prog.leaf i) <+: ((R m).prog.leaf i).written := List.IsPrefix.trans hM h1
  rw [← hput m] at h3
  exact List.IsPrefix.eq_of_length h2 (Nat.le_antisymm h2.length_le h3.length_le)

end Lock
end Many
end Soralog
