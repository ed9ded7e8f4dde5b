import Verif.Proofs.SinkStuck
import Verif.Props.SinkFull
/-! # The order of log calls and of their times -/
namespace Soralog
namespace SinkFull
open Spec
open SinkConc (Cfg Ret Ch Call)

theorem later_reach {c : Cfg} {o : Bool} {f f' : St} (hf : Reach c o f) (h : Later c f f') : Reach c o f' := by
  induction h with
  | refl => exact hf
  | next _ he ih => exact .next ih he

theorem ring_call_puts (u : Option Tid) (s : Ring.St Event) (t : Tid) (x : Spec.Call Event) : putsOf u (Ring.call s t x).log = putsOf u s.log := by
  unfold Ring.call
  split
  · dsimp only; rw [putsOf_append]; simp [putsOf]
  · rfl

theorem ring_drop_log (s : Ring.St Event) (i : Nat) : (Ring.drop s i).log = s.log := by
  unfold Ring.drop; split <;> rfl

/-- what one action appends to the accepted events -/
theorem exec_accepted {c : Cfg} {o : Bool} (hcap : 0 < c.capacity) {f f' : St} (hf : Reach c o f) (he : Exec c f f') :
    ∃ l, accepted f' = accepted f ++ l ∧ ∀ u, ∃ lu, acceptedFrom u f' = acceptedFrom u f ++ lu ∧ lu.Sublist l := by
  have nop : ∀ g : St, (∀ u, putsOf u g.ring.log = putsOf u f.ring.log) →
      ∃ l, accepted g = accepted f ++ l ∧ ∀ u, ∃ lu, acceptedFrom u g = acceptedFrom u f ++ lu ∧ lu.Sublist l := fun g hg =>
    ⟨[], by rw [List.append_nil]; exact hg none, fun u => ⟨[], by rw [List.append_nil]; exact hg (some u), .slnil⟩⟩
  cases he with
  | call t _ _ _ x => exact nop _ fun _ => rfl
  | destroy t _ _ _ => exact nop _ fun _ => rfl
  | step t ch =>
    rcases step_ring_cases c f t ch with h | ⟨x, h⟩ | ⟨i, h⟩ | ⟨_, h⟩
    · exact nop _ fun u => by rw [h]
    · exact nop _ fun u => by rw [h, ring_call_puts]
    · exact nop _ fun u => by rw [h, ring_drop_log]
    · obtain ⟨a, _, _, base, hR⟩ := rel_refines hcap hf
      refine ⟨newPuts (f.ring.pc t), by unfold accepted; rw [h, tick_puts hR.inv], fun u =>
        ⟨_, by unfold acceptedFrom; rw [h, tick_putsOf hR.inv], ?_⟩⟩
      split
      · exact List.Sublist.refl _
      · exact List.nil_sublist _

theorem later_accepted {c : Cfg} {o : Bool} (hcap : 0 < c.capacity) {f f' : St} (hf : Reach c o f) (h : Later c f f') :
    ∃ l, accepted f' = accepted f ++ l ∧ ∀ u, ∃ lu, acceptedFrom u f' = acceptedFrom u f ++ lu ∧ lu.Sublist l := by
  induction h with
  | refl => exact ⟨[], (List.append_nil _).symm, fun u => ⟨[], (List.append_nil _).symm, .slnil⟩⟩
  | next hl he ih =>
    obtain ⟨l, h1, h2⟩ := ih
    obtain ⟨l', h3, h4⟩ := exec_accepted hcap (later_reach hf hl) he
    refine ⟨l ++ l', by rw [h3, h1, List.append_assoc], fun u => ?_⟩
    obtain ⟨a, h5, h6⟩ := h2 u
    obtain ⟨b, h7, h8⟩ := h4 u
    exact ⟨a ++ b, by rw [h7, h5, List.append_assoc], h6.append h8⟩

theorem from_sublist (t : Tid) (l : List (Entry Event)) : (putsOf (some t) l).Sublist (putsOf none l) := by
  induction l with
  | nil => exact .slnil
  | cons x l ih =>
    have h1 : ∀ u, putsOf u (x :: l) = putsOf u [x] ++ putsOf u l := fun u => putsOf_append u [x] l
    rw [h1, h1]
    refine List.Sublist.append ?_ ih
    unfold putsOf
    cases x with
    | inv t' c => exact .slnil
    | ret t' r => exact .slnil
    | lin t' c r =>
      cases c <;> cases r <;> first | exact .slnil | skip
      by_cases h : t = t'
      · simp [h]
      · simp [h]

theorem idle_ring {c : Cfg} {o : Bool} (hcap : 0 < c.capacity) {f : St} (hf : Reach c o f) {t : Tid} (h : f.pc t = .idle) :
    f.ring.pc t = .idle := by
  obtain ⟨a, _, _, base, hR⟩ := rel_refines hcap hf
  have := hR.pcs t
  rw [h] at this
  exact (this.of_simple rfl).1

end SinkFull

namespace SinkClock
open Spec
open SinkConc (Cfg Ret Ch Call)
open SinkFull (accepted acceptedFrom)

theorem reach_sink {c : Cfg} {o : Bool} {st : Int} {s : St} (h : Reach c o st s) : SinkFull.Reach c o s.sink := by
  induction h with
  | init => exact .init
  | next _ he ih =>
    cases he with
    | wait now h => exact ih
    | call t h1 h2 h3 x => exact .next ih (.call _ t h1 h2 h3 x)
    | step t ch _ => exact .next ih (.step _ t ch)
    | destroy t h1 h2 h3 => exact .next ih (.destroy _ t h1 h2 h3)

theorem later_sink {c : Cfg} {s s' : St} (h : Later c s s') : SinkFull.Later c s.sink s'.sink := by
  induction h with
  | refl => exact .refl
  | next _ he ih =>
    cases he with
    | wait now h => exact ih
    | call t h1 h2 h3 x => exact .next ih (.call _ t h1 h2 h3 x)
    | step t ch _ => exact .next ih (.step _ t ch)
    | destroy t h1 h2 h3 => exact .next ih (.destroy _ t h1 h2 h3)

theorem later_reach {c : Cfg} {o : Bool} {st : Int} {s s' : St} (hr : Reach c o st s) (h : Later c s s') : Reach c o st s' := by
  induction h with
  | refl => exact hr
  | next _ he ih => exact .next ih he

/-- accepted, but the clock not yet read -/
def pend : Ring.PC Event → List Event
  | .putUnlock e _ | .putInit e _ => [e]
  | _ => []

/-- the events of `u` after `base`: times in order, between `lo` and now -/
def Timely (lo : Int) (base : List Event) (u : Tid) (s : St) : Prop :=
  ∃ d, acceptedFrom u s.sink = base ++ d ++ pend (s.sink.ring.pc u) ∧ d.Pairwise (fun a b => a.timestamp ≤ b.timestamp) ∧
    ∀ e ∈ d, lo ≤ e.timestamp ∧ e.timestamp ≤ s.now

theorem timely_exec {c : Cfg} {o : Bool} {st : Int} (hcap : 0 < c.capacity) {lo : Int} {base : List Event} {u : Tid} {s s' : St}
    (hr : Reach c o st s) (hlo : lo ≤ s.now) (h : Timely lo base u s) (he : Exec c s s') : Timely lo base u s' ∧ lo ≤ s'.now := by
  obtain ⟨d, h1, h2, h3⟩ := h
  have keep : ∀ g : SinkFull.St, acceptedFrom u g = acceptedFrom u s.sink → pend (g.ring.pc u) = pend (s.sink.ring.pc u) →
      Timely lo base u { s with sink := g } := fun g h4 h5 => ⟨d, by show acceptedFrom u g = base ++ d ++ pend (g.ring.pc u); rw [h4, h5]; exact h1, h2, h3⟩
  cases he with
  | wait now hn =>
    exact ⟨⟨d, h1, h2, fun e he => ⟨(h3 e he).1, Int.le_trans (h3 e he).2 hn⟩⟩, Int.le_trans hlo hn⟩
  | call t _ _ _ x => exact ⟨keep _ rfl rfl, hlo⟩
  | destroy t _ _ _ => exact ⟨keep _ rfl rfl, hlo⟩
  | step t ch hts =>
    refine ⟨?_, hlo⟩
    have hrs := reach_sink hr
    rcases SinkFull.step_ring_cases c s.sink t ch with h | ⟨x, h⟩ | ⟨i, h⟩ | ⟨_, h⟩
    · exact keep _ (by unfold acceptedFrom; rw [h]) (by rw [h])
    · refine keep _ (by unfold acceptedFrom; rw [h, SinkFull.ring_call_puts]) ?_
      rw [h]
      by_cases hut : u = t
      · subst hut
        unfold Ring.call
        cases hp : s.sink.ring.pc u <;> dsimp only <;> first | rw [hp] | skip
        show pend (upd _ _ _ _) = _
        rw [upd, if_pos rfl]
        cases x <;> rfl
      · rw [SinkFull.call_other _ _ hut]
    · refine keep _ (by unfold acceptedFrom; rw [h, SinkFull.ring_drop_log]) ?_
      rw [h, Ring.drop_pc]
    · obtain ⟨a, _, _, b0, hR⟩ := SinkFull.rel_refines hcap hrs
      have hacc := SinkFull.tick_putsOf hR.inv t u
      by_cases hut : u = t
      · subst hut
        rw [if_pos rfl] at hacc
        have hpk := hR.inv.pcs u
        have hgoal : ∀ d', acceptedFrom u s.sink ++ SinkFull.newPuts (s.sink.ring.pc u) = base ++ d' ++ pend ((Ring.tick s.sink.ring u).pc u) →
            d'.Pairwise (fun a b => a.timestamp ≤ b.timestamp) → (∀ e ∈ d', lo ≤ e.timestamp ∧ e.timestamp ≤ s.now) →
            Timely lo base u { s with sink := SinkFull.step c s.sink u ch } := by
          intro d' e1 e2 e3
          refine ⟨d', ?_, e2, e3⟩
          show acceptedFrom u (SinkFull.step c s.sink u ch) = base ++ d' ++ pend ((SinkFull.step c s.sink u ch).ring.pc u)
          rw [h, ← e1]
          unfold acceptedFrom
          rw [h]; exact hacc
        cases hp : s.sink.ring.pc u with
        | putCount v k =>
          rw [hp] at hpk h1
          refine hgoal d ?_ h2 h3
          have ht : (Ring.tick s.sink.ring u).pc u = .putUnlock v k := by
            unfold Ring.tick; simp only [hp]; rw [if_pos hpk.2.1]; simp [upd]
          rw [ht, h1, hp]
          simp [pend, SinkFull.newPuts]
        | putUnlock v k =>
          refine hgoal d ?_ h2 h3
          have ht : (Ring.tick s.sink.ring u).pc u = .putInit v k := by unfold Ring.tick; simp only [hp]; simp [upd]
          rw [ht, h1, hp]
          simp [pend, SinkFull.newPuts]
        | putInit v k =>
          have hv := hts v k hp
          refine hgoal (d ++ [v]) ?_ ?_ ?_
          · have ht : (Ring.tick s.sink.ring u).pc u = .putBuild v k := by unfold Ring.tick; simp only [hp]; simp [upd]
            rw [ht, h1, hp]
            simp [pend, SinkFull.newPuts]
          · refine List.pairwise_append.2 ⟨h2, List.pairwise_singleton _ _, fun a ha b hb => ?_⟩
            rw [List.mem_singleton.1 hb, hv]; exact (h3 a ha).2
          · intro e he
            rcases List.mem_append.1 he with he | he
            · exact h3 e he
            · rw [List.mem_singleton.1 he, hv]; exact ⟨hlo, Int.le_refl _⟩
        | _ =>
          refine hgoal d ?_ h2 h3
          rw [h1, hp]
          unfold Ring.tick
          simp only [hp]
          (repeat' split) <;> simp [pend, SinkFull.newPuts, upd, hp]
      · rw [if_neg hut, List.append_nil] at hacc
        refine keep _ (by unfold acceptedFrom; rw [h]; exact hacc) ?_
        rw [h, SinkFull.tick_other _ hut]

theorem timely_later {c : Cfg} {o : Bool} {st : Int} (hcap : 0 < c.capacity) {lo : Int} {base : List Event} {u : Tid} {s s' : St}
    (hr : Reach c o st s) (hlo : lo ≤ s.now) (h : Timely lo base u s) (hs : Later c s s') : Timely lo base u s' ∧ lo ≤ s'.now := by
  induction hs with
  | refl => exact ⟨h, hlo⟩
  | next hl he ih => exact timely_exec hcap (later_reach hr hl) ih.2 ih.1 he

theorem timely_reach {c : Cfg} {o : Bool} {st : Int} (hcap : 0 < c.capacity) {s : St} (hr : Reach c o st s) (u : Tid) :
    Timely st [] u s ∧ st ≤ s.now := by
  induction hr with
  | init => exact ⟨⟨[], rfl, .nil, fun e he => (by cases he)⟩, Int.le_refl _⟩
  | next hl he ih => exact timely_exec hcap hl ih.2 ih.1 he

end SinkClock
end Soralog
