import Verif.Spec.FailingStream
import Verif.Proofs.SinkFull
import Verif.Proofs.RaceSink
/-!
# Invariants for C106
-/
namespace Soralog
namespace FailingStream

open SinkConc (Cfg Ch Call)
open Many (Matches)

theorem matches_snoc {α β : Type} {R : α → β → Prop} {as : List α} {bs : List β} {a : α} {b : β} (h : Matches R as bs) (hab : R a b) :
    Matches R (as ++ [a]) (bs ++ [b]) := by
  induction h with
  | nil => exact .cons hab .nil
  | cons h1 _ ih => exact .cons h1 ih

theorem matches_map {α β γ : Type} {R : α → γ → Prop} {g : β → γ} {as : List α} {ps : List β} (h : Matches R as (ps.map g)) :
    Matches (fun a p => R a (g p)) as ps := by
  generalize hb : ps.map g = bs at h
  induction h generalizing ps with
  | nil =>
    cases ps with
    | nil => exact .nil
    | cons _ _ => cases hb
  | cons h1 _ ih =>
    cases ps with
    | nil => cases hb
    | cons p ps =>
      simp only [List.map_cons, List.cons.injEq] at hb
      exact .cons (by rw [hb.1]; exact h1) (ih hb.2)

/-- pcs whose step touches the stream -/
def onStream : SinkFull.PC → Bool
  | .write _ (some _) | .sync _ | .reopen _ | .dEnd => true
  | _ => false

theorem outStep_other {c : Cfg} {s : SinkFull.St} {t : Tid} {ch : Ch} {io : Io} {x : Out} (h : onStream (s.pc t) = false) :
    outStep c s t ch io x = x := by
  unfold outStep
  split <;> rename_i hp <;> first | rfl | (rw [hp] at h; cases h)

theorem step_other {c : Cfg} {s : SinkFull.St} {t : Tid} {ch : Ch} (h : onStream (s.pc t) = false) :
    (SinkFull.step c s t ch).dev = s.dev ∧ (SinkFull.step c s t ch).sbuf = s.sbuf ∧ (SinkFull.step c s t ch).gens = s.gens ∧
      (SinkFull.step c s t ch).isOpen = s.isOpen := by
  unfold SinkFull.step
  split <;> rename_i hp <;> (try (rw [hp] at h; cases h)) <;> (try dsimp only) <;> (repeat' split) <;> exact ⟨rfl, rfl, rfl, rfl⟩

structure Inv (s : St) : Prop where
  closed : Matches Keeps s.out.closed s.sink.gens
  good : s.out.now.failed = false → s.out.now.data = s.sink.dev ∧ s.out.pend = s.sink.sbuf ∧ s.out.now.again = []
  data : s.out.now.data <+: s.sink.dev ++ s.sink.sbuf
  pend : s.out.pend <:+: s.sink.dev ++ s.sink.sbuf
  again : s.out.now.again <:+: s.sink.dev ++ s.sink.sbuf
  once : s.out.now.again = [] ∨ s.out.pend = []
  opened : s.sink.isOpen = false → s.out.now.failed = true

theorem inv_init (c : Cfg) (o : Bool) : Inv (init c o) where
  closed := .nil
  good := fun _ => ⟨rfl, rfl, rfl⟩
  data := List.prefix_rfl
  pend := List.infix_rfl
  again := List.infix_rfl
  once := .inl rfl
  opened := fun h => by
    have : o = false := h
    subst this; rfl

/-- what closing makes of the present file -/
theorem close_keeps {s : St} (h : Inv s) (io : Io) : Keeps (s.out.close io).now (s.sink.dev ++ s.sink.sbuf) := by
  unfold Out.close
  cases hf : s.out.now.failed with
  | true =>
    dsimp only
    rw [if_pos rfl]
    refine ⟨h.data, ?_, (fun hc => by dsimp only at hc; rw [hf] at hc; cases hc)⟩
    dsimp only
    have hsent : (if io.fails = true then s.out.pend.take io.passed else s.out.pend) <:+: s.sink.dev ++ s.sink.sbuf := by
      split
      · exact (List.take_prefix _ _).isInfix.trans h.pend
      · exact h.pend
    rcases h.once with h1 | h1
    · rw [h1]; exact hsent
    · rw [h1]; simp only [List.take_nil, ite_self, List.append_nil]; exact h.again
  | false =>
    obtain ⟨g1, g2, g3⟩ := h.good hf
    dsimp only
    rw [if_neg (by simp)]
    refine ⟨?_, ?_, fun hc => ⟨?_, g3⟩⟩
    · dsimp only; rw [g1, g2]
      split
      · exact (List.prefix_append_right_inj _).2 (List.take_prefix _ _)
      · exact List.prefix_rfl
    · dsimp only; rw [g3]; exact List.nil_infix
    · dsimp only at hc ⊢; rw [g1, g2, hc]; rfl

theorem inv_step {c : Cfg} {s : St} (h : Inv s) (t : Tid) (ch : Ch) (io : Io) :
    Inv ⟨SinkFull.step c s.sink t ch, outStep c s.sink t ch io s.out⟩ := by
  by_cases hs : onStream (s.sink.pc t) = false
  · obtain ⟨h1, h2, h3, h4⟩ := step_other (c := c) (ch := ch) hs
    rw [outStep_other hs]
    exact ⟨by rw [h3]; exact h.closed, by rw [h1, h2]; exact h.good, by rw [h1, h2]; exact h.data, by rw [h1, h2]; exact h.pend,
      by rw [h1, h2]; exact h.again, h.once, by rw [h4]; exact h.opened⟩
  · have hs' : onStream (s.sink.pc t) = true := by simpa using hs
    unfold onStream at hs'
    split at hs'
    · rename_i k e hp
      unfold outStep SinkFull.step
      simp only [hp]
      by_cases ho : s.sink.isOpen = true
      · rw [if_pos ho]
        unfold Out.write
        dsimp only [SinkFull.setPc]
        cases hf : s.out.now.failed with
        | true =>
          rw [if_pos rfl]
          have hall : s.sink.dev ++ (s.sink.sbuf ++ c.render e).take ch.spill ++ (s.sink.sbuf ++ c.render e).drop ch.spill =
              s.sink.dev ++ s.sink.sbuf ++ c.render e := by simp
          refine ⟨h.closed, (fun hc => by first | cases hc | (rw [hf] at hc; cases hc)), ?_, ?_, ?_, h.once, (fun hc => by rw [ho] at hc; cases hc)⟩
          · dsimp only; rw [hall]; exact h.data.trans (List.prefix_append _ _)
          · dsimp only; rw [hall]; exact h.pend.trans (List.prefix_append _ _).isInfix
          · dsimp only; rw [hall]; exact h.again.trans (List.prefix_append _ _).isInfix
        | false =>
          obtain ⟨g1, g2, g3⟩ := h.good hf
          have hall : s.sink.dev ++ (s.sink.sbuf ++ c.render e).take ch.spill ++ (s.sink.sbuf ++ c.render e).drop ch.spill =
              s.sink.dev ++ (s.sink.sbuf ++ c.render e) := by simp
          rw [if_neg (by simp)]
          cases hio : io.fails with
          | true =>
            rw [if_pos rfl]
            refine ⟨h.closed, (fun hc => by cases hc), ?_, ?_, ?_, .inl g3, (fun _ => rfl)⟩
            · dsimp only; rw [hall, g1, g2]; exact (List.prefix_append_right_inj _).2 (List.take_prefix _ _)
            · dsimp only; rw [hall, g2]
              exact (List.drop_suffix _ _).isInfix.trans (List.suffix_append _ _).isInfix
            · dsimp only; rw [g3]; exact List.nil_infix
          | false =>
            rw [if_neg (by simp)]
            refine ⟨h.closed, fun _ => ⟨by dsimp only; rw [g1, g2], by dsimp only; rw [g2], g3⟩, ?_, ?_, ?_, .inl g3, (fun hc => by rw [ho] at hc; cases hc)⟩
            · dsimp only; rw [g1, g2]; exact List.prefix_append _ _
            · dsimp only; rw [g2]; exact (List.suffix_append _ _).isInfix
            · dsimp only; rw [g3]; exact List.nil_infix
      · have ho' : s.sink.isOpen = false := by simpa using ho
        rw [if_neg ho]
        have hf := h.opened ho'
        unfold Out.write
        dsimp only [SinkFull.setPc]
        rw [if_pos hf]
        exact ⟨h.closed, h.good, h.data, h.pend, h.again, h.once, h.opened⟩
    · rename_i k hp
      unfold outStep SinkFull.step
      simp only [hp]
      unfold Out.sync
      dsimp only [SinkFull.setPc]
      cases hf : s.out.now.failed with
      | true =>
        rw [if_pos rfl]
        refine ⟨h.closed, (fun hc => by first | cases hc | (rw [hf] at hc; cases hc)), ?_, ?_, ?_, h.once, fun _ => hf⟩
        all_goals (dsimp only; rw [List.append_nil])
        · exact h.data
        · exact h.pend
        · exact h.again
      | false =>
        obtain ⟨g1, g2, g3⟩ := h.good hf
        have hop : s.sink.isOpen = false → False := fun hc => by rw [h.opened hc] at hf; cases hf
        rw [if_neg (by simp)]
        cases hio : io.fails with
        | true =>
          rw [if_pos rfl]
          refine ⟨h.closed, (fun hc => by cases hc), ?_, ?_, ?_, .inl g3, fun hc => (hop hc).elim⟩
          · dsimp only; rw [List.append_nil, g1, g2]; exact (List.prefix_append_right_inj _).2 (List.take_prefix _ _)
          · dsimp only; rw [List.append_nil, g2]
            exact (List.drop_suffix _ _).isInfix.trans (List.suffix_append _ _).isInfix
          · dsimp only; rw [g3]; exact List.nil_infix
        | false =>
          rw [if_neg (by simp)]
          refine ⟨h.closed, fun _ => ⟨by dsimp only; rw [g1, g2], rfl, g3⟩, ?_, ?_, ?_, .inl g3, fun hc => (hop hc).elim⟩
          · dsimp only; rw [List.append_nil, g1, g2]; exact List.prefix_rfl
          · exact List.nil_infix
          · dsimp only; rw [g3]; exact List.nil_infix
    · rename_i k hp
      unfold outStep SinkFull.step
      simp only [hp]
      by_cases hopen : ch.openOk = true
      · rw [if_pos hopen, if_pos hopen]
        exact ⟨matches_snoc h.closed (close_keeps h io), fun _ => ⟨rfl, rfl, rfl⟩, List.nil_prefix, List.nil_infix, List.nil_infix, .inl rfl,
          (fun hc => by cases hc)⟩
      · rw [if_neg hopen, if_neg hopen]
        exact ⟨h.closed, h.good, h.data, h.pend, h.again, h.once, h.opened⟩
    · rename_i hp
      unfold outStep SinkFull.step
      simp only [hp]
      by_cases hfile : c.isFile = true
      · rw [if_pos hfile, if_pos hfile]
        have hk := close_keeps h io
        refine ⟨h.closed, fun hc => ⟨?_, rfl, (hk.complete hc).2⟩, ?_, List.nil_infix, ?_, .inr rfl, fun hc => ?_⟩
        · exact (hk.complete hc).1
        · dsimp only [SinkFull.setPc]; rw [List.append_nil]; exact hk.beginning
        · dsimp only [SinkFull.setPc]; rw [List.append_nil]; exact hk.again
        · have := h.opened hc
          dsimp only [Out.close]
          rw [if_pos this]; exact this
      · rw [if_neg hfile, if_neg hfile]
        exact ⟨h.closed, h.good, h.data, h.pend, h.again, h.once, h.opened⟩
    · cases hs'

theorem inv_reach {c : Cfg} {o : Bool} {s : St} (h : Reach c o s) : Inv s := by
  induction h with
  | init => exact inv_init c o
  | @next s s' hr he ih =>
    cases he with
    | call t ht hi hd call => exact ⟨ih.closed, ih.good, ih.data, ih.pend, ih.again, ih.once, ih.opened⟩
    | step t ch io => exact inv_step ih t ch io
    | destroy t ht hd hi => exact ⟨ih.closed, ih.good, ih.data, ih.pend, ih.again, ih.once, ih.opened⟩

theorem exec_sink {c : Cfg} {s s' : St} (h : Exec c s s') : SinkFull.Exec c s.sink s'.sink := by
  cases h with
  | call t ht hi hd call => exact .call _ t ht hi hd call
  | step t ch io => exact .step _ t ch
  | destroy t ht hd hi => exact .destroy _ t ht hd hi

theorem sink_reach {c : Cfg} {o : Bool} {s : St} (h : Reach c o s) : SinkFull.Reach c o s.sink := by
  induction h with
  | init => exact .init
  | next _ he ih => exact .next ih (exec_sink he)

/-- only files are re-opened -/
theorem reopen_file {c : Cfg} {o : Bool} {s : SinkFull.St} (h : SinkFull.Reach c o s) :
    ∀ t k, s.pc t = .reopen k → c.isFile = true := by
  induction h with
  | init =>
    intro t k hp
    simp only [SinkFull.init] at hp
    (repeat' split at hp) <;> cases hp
  | @next s s' hr he ih =>
    intro t k hp
    cases he with
    | call u hu hi hd call =>
      simp only [SinkFull.setPc, upd] at hp
      split at hp
      · cases call <;> cases hp
      · exact ih t k hp
    | destroy u hu hd hi =>
      simp only [SinkFull.setPc, upd] at hp
      split at hp
      · cases hp
      · exact ih t k hp
    | step u ch =>
      by_cases htu : t = u
      · subst htu
        by_cases hc : ∃ k', s.pc t = .casRotate k'
        · obtain ⟨k', hc⟩ := hc
          unfold SinkFull.step at hp
          simp only [hc] at hp
          split at hp
          · rename_i hf
            cases hfile : c.isFile with
            | true => rfl
            | false => rw [hfile] at hf; simp at hf
          · simp [SinkFull.setPc, upd] at hp
        · exfalso
          unfold SinkFull.step at hp
          split at hp <;> rename_i hq <;> (try (exact hc ⟨_, hq⟩)) <;> (try dsimp only at hp) <;> (repeat' split at hp) <;>
            simp_all [SinkFull.setPc, upd, SinkFull.afterFlush, SinkFull.taking, SinkFull.nothing] <;> (repeat' split at hp) <;> simp_all
      · rw [Race.step_pc_other c s u ch t htu] at hp
        exact ih t k hp

end FailingStream
end Soralog
