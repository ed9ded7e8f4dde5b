import Verif.Proofs.Rotate
import Verif.Props.ManyFair
/-! # A rotation requested through any sink reaches every file below it -/
namespace Soralog
namespace SinkFull
open SinkConc (Cfg Ch)

theorem does_gens_full {c : Cfg} {s s' : St} {d : Deed} (h : Does c s d s') : s.gens.length ≤ s'.gens.length := by
  cases d with
  | rest => rw [show s' = s from h]; exact Nat.le_refl _
  | call t k => obtain ⟨_, _, _, h4⟩ := h; rw [h4]; exact Nat.le_refl _
  | destroy t => obtain ⟨_, _, _, h4⟩ := h; rw [h4]; exact Nat.le_refl _
  | step t ch =>
    rw [show s' = step c s t ch from h]
    cases hp : s.pc t
    case write k e => cases e <;> (unfold step; simp only [hp]; (repeat' split) <;> simp [setPc])
    all_goals
      unfold step; simp only [hp]
      (repeat' split) <;> simp [setPc]

theorem Endless.gens_mono {c : Cfg} {o : Bool} {σ : Nat → Deed} {R : Nat → St} (h : Endless c o σ R) {n m : Nat} (hm : n ≤ m) :
    reopened (R n) ≤ reopened (R m) := by
  obtain ⟨d, rfl⟩ : ∃ d, m = n + d := ⟨m - n, by omega⟩
  clear hm
  induction d with
  | zero => exact Nat.le_refl _
  | succ d ih => exact Nat.le_trans ih (does_gens_full (h.next (n + d)))

end SinkFull

namespace Many

theorem rotatePlanAll_sub {x : Nat × Req} {s : Sink.Snk} {ss : List Sink.Snk} (hs : s ∈ ss) (hx : x ∈ rotatePlan s) : x ∈ rotatePlanAll ss := by
  induction ss with
  | nil => cases hs
  | cons y ys ih =>
    rw [rotatePlanAll]
    rcases List.mem_cons.1 hs with e | e
    · subst e; exact List.mem_append_left _ hx
    · exact List.mem_append_right _ (ih e)

theorem rotatePlan_mem {i : Nat} {s : Sink.Snk} (h : Under i s) : (i, Req.rotate) ∈ rotatePlan s := by
  induction h with
  | self => rw [rotatePlan]; exact List.mem_singleton.2 rfl
  | sub hs _ ih => rw [rotatePlan]; exact rotatePlanAll_sub hs ih

namespace Lock
open Spec
open SinkConc (workerTid)

/-- a request in a thread's list stays there until the thread enters that sink -/
theorem Does.request {S : Setup} {s s' : St} {d : Deed} (h : Does S s d s') (hd : d ≠ .start) {t : Tid} {i : Nat} (hq : (i, Req.rotate) ∈ s.prog.todo t) :
    (i, Req.rotate) ∈ s'.prog.todo t ∨ (s'.prog.leaf i).pc t = .rotate := by
  cases d with
  | step u =>
    obtain ⟨_, h2, _, _, _, rfl⟩ := h
    refine .inl ?_
    show _ ∈ upd s.prog.todo u _ t
    rw [System.upd_other _ _ (fun e => by rw [e, h2.1] at hq; cases hq)]; exact hq
  | unlock u => obtain ⟨_, _, rfl⟩ := h; exact .inl hq
  | configured u => obtain ⟨_, _, _, _, rfl⟩ := h; exact .inl hq
  | enter u =>
    obtain ⟨j, q, rest, call, _, h2, _, _, _, h6, rfl⟩ := h
    by_cases e : t = u
    · subst e
      rw [h2] at hq
      rcases List.mem_cons.1 hq with e | e
      · cases e
        refine .inr ?_
        show ((upd s.prog.leaf i _ i).pc t) = _
        rw [System.upd_same]
        cases h6
        show upd _ _ _ _ = _
        rw [System.upd_same]; rfl
      · refine .inl ?_
        show _ ∈ upd s.prog.todo t rest t
        rw [System.upd_same]; exact e
    · refine .inl ?_
      show _ ∈ upd s.prog.todo u rest t
      rw [System.upd_other _ _ e]; exact hq
  | leaf j u ch => rw [show s' = _ from h]; exact .inl hq
  | start => exact absurd rfl hd
  | rest => rw [show s' = _ from h]; exact .inl hq

theorem Last.enters_rotate {S : Setup} (hS : ∀ i, 0 < (S.leaf i).conc.capacity) {σ : Nat → Deed} {R : Nat → St} (h : Last S σ R)
    (hl : NobodyStarves R) (hw : WaitsEnd R) (hv : StoresSeen σ) {t : Tid} (ht : t ≠ workerTid) {i : Nat} (hq : (i, Req.rotate) ∈ (R 0).prog.todo t) :
    ∃ n, ((R n).prog.leaf i).pc t = .rotate := by
  refine Classical.byContradiction fun hne => ?_
  have hall : ∀ n, (i, Req.rotate) ∈ (R n).prog.todo t := by
    intro n
    induction n with
    | zero => exact hq
    | succ n ih => exact ((h.run.next n).request (h.nostart n) ih).resolve_right fun e => hne ⟨_, e⟩
  obtain ⟨M, hM⟩ := h.to_rest hS hl hw hv
  have := hall M
  rw [(hM M (Nat.le_refl _) t ht).2.1.1] at this; cases this

/-- an outstanding request is carried out -/
theorem Last.rotates {S : Setup} (hS : ∀ i, 0 < (S.leaf i).conc.capacity) {σ : Nat → Deed} {R : Nat → St} (h : Last S σ R)
    (hl : NobodyStarves R) (hw : WaitsEnd R) (hv : StoresSeen σ) (hc : NoSpuriousFailure σ) (hr : CanReopen σ) {t : Tid} (ht : t ≠ workerTid) {i : Nat}
    (hq : (i, Req.rotate) ∈ (R 0).prog.todo t) (ho : (S.leaf i).opened = true) (hl0 : (S.leaf i).conc.latency0 = false)
    (hf : (S.leaf i).conc.isFile = true) :
    ∃ m, SinkFull.reopened ((R 0).prog.leaf i) < SinkFull.reopened ((R m).prog.leaf i) := by
  obtain ⟨n, hn⟩ := h.enters_rotate hS hl hw hv ht hq
  obtain ⟨σ', h1, h2, h3, h4⟩ := h.leafRun i
  rw [ho] at h1
  obtain ⟨m, ch, h5, _, h6, h7, _⟩ := h1.first (n := n) (t := t) (by rw [hn]; exact ⟨by simp, by simp, by simp⟩)
  rw [hn] at h7
  have hown : ∀ n, ((R n).prog.leaf i).owner = none := fun n => (h.owner_stays i n).trans (h.kept t i (.inl ⟨_, hq, rfl⟩))
  obtain ⟨k, h8, h9⟩ := h1.worker_rotates (hS i) (hl i) hl0 (hw i) (fun n t ch e => hc n i t ch (h2 n t ch e)) (fun n t ch e => hr n i t ch (h2 n t ch e))
    hf hown (n := m + 1) (by rw [h6]; unfold SinkFull.step; simp only [h7]; rw [if_pos hf]; rfl)
  exact ⟨k, Nat.lt_of_le_of_lt (h1.gens_mono (Nat.zero_le (m + 1))) h9⟩

end Lock
end Many
end Soralog
