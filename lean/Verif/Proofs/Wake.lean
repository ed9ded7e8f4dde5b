import Verif.Spec.Wake
import Verif.Proofs.SinkFullDeliver
/-! # The worker's condition variable -/
namespace Soralog

/-! ### the last lap of the worker -/
namespace SinkConc

/-- The destructor has asked the worker to finish, and the worker is on its last lap. -/
def LastLap (c : Cfg) (s : St) : Prop :=
  match s.pc workerTid with
  | .enter _ | .get _ => c.isSyslog = true ∨ s.queued ≤ 1
  | .sCall _ _ | .sUncount _ _ | .sUnref _ _ => c.isSyslog = true
  | .wExit => True
  | .wWait => False
  | _ => s.queued = 0

theorem lastLap_step {c : Cfg} {s : St} (ch : Ch) (ht : s.taken ≤ s.put.length) (hrole : (s.pc workerTid).role = 1) (hfin : s.needFinalize = true)
    (hnew : ch.newest = true) (hflag : s.pc workerTid = .enter .worker → s.flag = false) (h : LastLap c s) : LastLap c (step c s workerTid ch) := by
  have hset : ∀ {s' : St} {p : PC}, (setPc s' workerTid p).pc workerTid = p := fun {s' p} => by simp [setPc, upd]
  unfold LastLap at h
  cases hp : s.pc workerTid with
  | wExit => unfold step; simp only [hp]; unfold LastLap; simp only [hp]
  | wWait => simp only [hp] at h
  | get k =>
    simp only [hp] at h
    unfold step; simp only [hp]
    split
    · rename_i he
      have hq : s.queued = 0 := by
        unfold St.queued; have := List.getElem?_eq_none_iff.1 he; omega
      unfold LastLap nothing
      cases c.isSyslog <;> simp only [Bool.false_eq_true, if_false, if_true, hset] <;> exact hq
    · rename_i e he
      have hlt : s.taken < s.put.length := (List.getElem?_eq_some_iff.1 he).1
      split
      · unfold LastLap taking
        cases hs : c.isSyslog
        · rw [hs] at h
          simp only [Bool.false_eq_true, if_false, hset]
          rcases h with h | h
          · cases h
          · unfold St.queued at h ⊢; show s.put.length - (s.taken + 1) = 0; omega
        · simp only [if_true, hset]
      · unfold LastLap; simp only [hp]; exact h
  | wSize =>
    simp only [hp] at h
    unfold step; simp only [hp]
    rw [if_pos h]
    unfold LastLap; simp only [hset]
  | enter k =>
    have hk : k = .worker := by rw [hp] at hrole; cases k <;> first | rfl | cases hrole
    subst hk
    simp only [hp] at h
    unfold step; simp only [hp]; rw [hflag hp, if_neg (by simp)]
    unfold LastLap; simp only [hset]; exact h
  | leave k =>
    have hk : k = .worker := by rw [hp] at hrole; cases k <;> first | rfl | cases hrole
    subst hk
    simp only [hp] at h
    unfold step; simp only [hp]
    unfold LastLap; simp only [hset, afterFlush]; exact h
  | wCheck =>
    simp only [hp] at h
    unfold step; simp only [hp]; rw [if_pos (by rw [hfin, hnew]; rfl)]
    unfold LastLap; simp only [hset]; exact h
  | sUnref k e =>
    simp only [hp] at h
    unfold step; simp only [hp]
    unfold LastLap; simp only [hset]; exact .inl h
  | sCall k e =>
    simp only [hp] at h
    unfold step; simp only [hp]
    unfold LastLap; simp only [hset]; exact h
  | sUncount k e =>
    simp only [hp] at h
    unfold step; simp only [hp]
    unfold LastLap; simp only [hset]; exact h
  | write k e =>
    simp only [hp] at h
    cases e <;> (unfold step; simp only [hp]; (repeat' split) <;> (unfold LastLap; simp only [hset]; exact h))
  | idle => rw [hp] at hrole; cases hrole
  | put e => rw [hp] at hrole; cases hrole
  | count n => rw [hp] at hrole; cases hrole
  | release n => rw [hp] at hrole; cases hrole
  | decide => rw [hp] at hrole; cases hrole
  | async => rw [hp] at hrole; cases hrole
  | rotate => rw [hp] at hrole; cases hrole
  | dStart => rw [hp] at hrole; cases hrole
  | dAsync => rw [hp] at hrole; cases hrole
  | dJoin => rw [hp] at hrole; cases hrole
  | dEnd => rw [hp] at hrole; cases hrole
  | dead => rw [hp] at hrole; cases hrole
  | _ =>
    simp only [hp] at h
    unfold step; simp only [hp]; (repeat' split) <;> (unfold LastLap; simp only [hset]; exact h)

structure Ending (c : Cfg) (d : Tid) (s : St) : Prop where
  owner : s.owner = some d
  fin : s.needFinalize = true
  pc : (s.pc d).finishing
  lap : LastLap c s

theorem ending_does {c : Cfg} {o : Bool} {s s' : St} {d : Tid} {x : Deed} (hr : Reach c o s) (h : Ending c d s) (hd : Does c s x s')
    (hv : ∀ t ch, x = .step t ch → ch.newest = true) : Ending c d s' := by
  obtain ⟨h1, h2, h3, h4⟩ := h
  obtain ⟨r1, r2, r3⟩ := (roles_reach hr).owner d h1
  cases x with
  | rest => rw [show s' = s from hd]; exact ⟨h1, h2, h3, h4⟩
  | call t k => obtain ⟨_, _, e, _⟩ := hd; rw [h1] at e; cases e
  | destroy t => obtain ⟨_, e, _⟩ := hd; rw [h1] at e; cases e
  | step t ch =>
    rw [show s' = step c s t ch from hd]
    by_cases ht : t = workerTid
    · subst ht
      refine ⟨(step_owner c s _ ch).trans h1, step_fin_mono c s _ ch h2, by rw [step_pc_other c s _ ch d r1]; exact h3, ?_⟩
      refine lastLap_step ch (tick_reach hr).taken (roles_reach hr).worker h2 (hv _ _ rfl) (fun hp => ?_) h4
      cases e : s.flag
      · rfl
      · obtain ⟨u, hu⟩ := (excl_reach hr).free e
        by_cases e1 : u = workerTid
        · subst e1; rw [hp] at hu; cases hu
        · by_cases e2 : u = d
          · subst e2; rcases h3 with e | e | e | e <;> rw [e] at hu <;> cases hu
          · rw [r3 u e1 e2] at hu; cases hu
    · by_cases htd : t = d
      · subst htd
        have hw : (step c s t ch).pc workerTid = s.pc workerTid := step_pc_other c s t ch _ (fun e => ht e.symm)
        have hq : (step c s t ch).put = s.put ∧ (step c s t ch).taken = s.taken := by
          rcases h3 with e | e | e | e <;> (unfold step; simp only [e]; (repeat' split) <;> first | exact ⟨rfl, rfl⟩ | exact ⟨trivial, trivial⟩)
        refine ⟨(step_owner c s _ ch).trans h1, step_fin_mono c s _ ch h2, step_finishing c s t ch h3, ?_⟩
        unfold LastLap St.queued at *
        rw [hw, hq.1, hq.2]; exact h4
      · have : step c s t ch = s := by unfold step; simp only [r3 t ht htd]
        rw [this]; exact ⟨h1, h2, h3, h4⟩

end SinkConc

namespace SinkFull
open SinkConc (Cfg Ret Ch workerTid)

/-- Once the worker, asked to finish, has started a flush that empties the queue, it does not wait again. -/
theorem Endless.never_waits {c : Cfg} {o : Bool} {σ : Nat → Deed} {R : Nat → St} (h : Endless c o σ R) (hcap : 0 < c.capacity)
    {d : Tid} (ho : (R 0).owner = some d) (hf : (R 0).needFinalize = true) (hw : (R 0).pc workerTid = .enter .worker)
    (hd : (R 0).pc d = .dJoin) (hv : ∀ n t ch, σ n = .step t ch → ch.newest = true) (hq : c.isSyslog = true ∨ (R 0).ring.buf.size ≤ 1) (n : Nat) : (R n).pc workerTid ≠ .wWait := by
  obtain ⟨a0, hr0, h0⟩ := rel_refines hcap h.start
  have key : ∀ n, SinkConc.Ending c d (absRun c σ R a0 n) := by
    intro n
    induction n with
    | zero =>
      show SinkConc.Ending c d a0
      have e1 := rel_simple_pc h0 (t := workerTid) (by rw [hw]; rfl)
      have e2 := rel_simple_pc h0 (t := d) (by rw [hd]; rfl)
      obtain ⟨he, base, hR⟩ := h0
      refine ⟨by rw [he]; exact ho, by rw [he]; exact hf, by rw [e2]; exact .inr (.inl rfl), ?_⟩
      unfold SinkConc.LastLap
      rw [e1]
      refine hq.imp id fun hq => ?_
      have hlen := hR.inv.len
      unfold SinkConc.St.queued
      rw [List.length_drop] at hlen
      omega
    | succ n ih => exact SinkConc.ending_does (h.rel hr0 h0 n).2 ih (does_rel (h.next n) (h.rel hr0 h0 n).1 (h.rel hr0 h0 n).2).2 (fun t ch e => hv n t ch (by
        cases hs : σ n with
        | step u ch' =>
          rw [hs] at e
          unfold absDeed at e
          dsimp only at e
          split at e
          · exact e
          · cases e
        | call u k => rw [hs] at e; cases e
        | destroy u => rw [hs] at e; cases e
        | rest => rw [hs] at e; cases e))
  intro e
  have h1 := rel_simple_pc (h.rel hr0 h0 n).1 (t := workerTid) (by rw [e]; rfl)
  have h2 := (key n).lap
  unfold SinkConc.LastLap at h2
  rw [h1] at h2
  exact h2

end SinkFull
namespace Wake
open SinkConc (Cfg Ret Ch workerTid)

/-- what an action is for the sink -/
def sinkDeed (s : St) : Deed → Soralog.Deed
  | .call t k => .call t k
  | .destroy t => .destroy t
  | .rest => .rest
  | .step t ch sp =>
    if s.notifying t then .rest
    else if t = workerTid ∧ s.sink.pc t = .wWait then
      if s.asleep then
        if ch.timeout then .step t ch
        else if s.roused || sp then
          if (s.sink.needFlush || s.sink.needFinalize) && ch.newest then .step t { ch with timeout := true } else .step t ch
        else .step t ch
      else .step t { ch with timeout := false }
    else .step t ch

theorem sinkDeed_newest {s : St} {d : Deed} {t : Tid} {ch : Ch} (h : sinkDeed s d = .step t ch) :
    ∃ ch' sp, d = .step t ch' sp ∧ ch.newest = ch'.newest := by
  cases d with
  | step u ch' sp =>
    refine ⟨ch', sp, ?_⟩
    unfold sinkDeed at h
    dsimp only at h
    (repeat' split at h) <;> first | (cases h; done) | (injection h with h1 h2; subst h1; subst h2; exact ⟨rfl, rfl⟩)
  | call u k => cases h
  | destroy u => cases h
  | rest => cases h

theorem wait_stays {c : Cfg} {s : SinkFull.St} {t : Tid} {ch : Ch} (hp : s.pc t = .wWait) (hc : ch.timeout = false) : SinkFull.step c s t ch = s := by
  unfold SinkFull.step; simp only [hp]; rw [hc, if_neg (by simp)]

theorem does_sink {c : Cfg} {s s' : St} {d : Deed} (h : Does c s d s') : SinkFull.Does c s.sink (sinkDeed s d) s'.sink := by
  cases d with
  | call t k => obtain ⟨h1, h2, _, h3, h4⟩ := h; rw [h4]; exact ⟨h1, h2, h3, rfl⟩
  | destroy t => obtain ⟨h1, h2, h3, h4⟩ := h; rw [h4]; exact ⟨h1, h2, fun u hu => (h3 u hu).1, rfl⟩
  | rest => rw [show s' = s from h]; rfl
  | step t ch sp =>
    rw [show s' = step c s t ch sp from h]
    unfold step sinkDeed
    by_cases h1 : s.notifying t = true
    · rw [if_pos h1]; simp only [h1, if_true]; rfl
    · rw [if_neg h1]; simp only [h1]
      by_cases h2 : t = workerTid ∧ s.sink.pc t = .wWait
      · rw [if_pos h2, if_pos h2]
        by_cases h3 : s.asleep = true
        · rw [if_pos h3, if_pos h3]
          by_cases h4 : ch.timeout = true
          · rw [if_pos h4, if_pos h4]; rfl
          · rw [if_neg h4, if_neg h4]
            have h4' : ch.timeout = false := by simpa using h4
            by_cases h5 : (s.roused || sp) = true
            · rw [if_pos h5, if_pos h5]
              by_cases h6 : ((s.sink.needFlush || s.sink.needFinalize) && ch.newest) = true
              · rw [if_pos h6, if_pos h6]; rfl
              · rw [if_neg h6, if_neg h6]; exact (wait_stays h2.2 h4').symm
            · rw [if_neg h5, if_neg h5]; exact (wait_stays h2.2 h4').symm
        · rw [if_neg h3, if_neg h3]; exact (wait_stays h2.2 rfl).symm
      · rw [if_neg h2, if_neg h2]; rfl

theorem does_exec {c : Cfg} {s s' : SinkFull.St} {d : Soralog.Deed} (h : SinkFull.Does c s d s') : s' = s ∨ SinkFull.Exec c s s' := by
  cases d with
  | rest => exact .inl h
  | call t k => obtain ⟨h1, h2, h3, h4⟩ := h; rw [h4]; exact .inr (.call s t h1 h2 h3 k)
  | destroy t => obtain ⟨h1, h2, h3, h4⟩ := h; rw [h4]; exact .inr (.destroy s t h1 h2 h3)
  | step t ch => rw [show s' = _ from h]; exact .inr (.step s t ch)

theorem reach_sink {c : Cfg} {o : Bool} {s : St} (h : Reach c o s) : SinkFull.Reach c o s.sink := by
  induction h with
  | init => exact .init
  | next d _ hd ih =>
    rcases does_exec (does_sink hd) with e | e
    · rw [e]; exact ih
    · exact .next ih e

theorem step_notifying_other {c : Cfg} {s : St} {t u : Tid} {ch : Ch} {sp : Bool} (h : u ≠ t) :
    (step c s t ch sp).notifying u = s.notifying u ∧ (step c s t ch sp).sink.pc u = s.sink.pc u := by
  unfold step
  (repeat' split) <;> refine ⟨?_, ?_⟩ <;> first | rfl | exact Race.step_pc_other _ _ _ _ _ h | exact if_neg h

/-- the worker sends no notifications -/
theorem worker_silent {c : Cfg} {o : Bool} (hcap : 0 < c.capacity) {s : St} (h : Reach c o s) : s.notifying workerTid = false := by
  induction h with
  | init => rfl
  | @next s s' d hr hd ih =>
    cases d with
    | call t k => obtain ⟨_, _, _, _, h4⟩ := hd; rw [h4]; exact ih
    | destroy t => obtain ⟨_, _, _, h4⟩ := hd; rw [h4]; exact ih
    | rest => rw [show s' = s from hd]; exact ih
    | step t ch sp =>
      rw [show s' = step c s t ch sp from hd]
      by_cases ht : workerTid = t
      · subst ht
        have hrole : requests c s.sink workerTid = false := by
          obtain ⟨a, har, hrel⟩ := SinkFull.rel_refines hcap (reach_sink hr)
          have := (SinkConc.roles_reach har).worker
          unfold requests
          split
          · rename_i e
            rw [SinkFull.rel_simple_pc hrel (t := workerTid) (by rw [e]; rfl)] at this; cases this
          · rename_i e
            rw [SinkFull.rel_simple_pc hrel (t := workerTid) (by rw [e]; rfl)] at this; cases this
          · rfl
        unfold step
        rw [hrole, ih]
        (repeat' split) <;> first | exact ih | (rename_i e; cases e)
      · rw [(step_notifying_other ht).1]; exact ih

/-- what a thread does not do itself leaves it as it is -/
theorem does_same {c : Cfg} {s s' : St} {d : Deed} (h : Does c s d s') {t : Tid} (hw : s.sink.pc t ≠ .idle) (hd : ∀ ch sp, d ≠ .step t ch sp) :
    s'.sink.pc t = s.sink.pc t ∧ s'.notifying t = s.notifying t := by
  cases d with
  | rest => rw [show s' = s from h]; exact ⟨rfl, rfl⟩
  | call u k =>
    obtain ⟨h1, h2, _, h3, h4⟩ := h
    rw [h4]
    refine ⟨?_, rfl⟩
    show upd _ _ _ _ = _; rw [upd, if_neg (by intro e; subst e; exact hw h2)]
  | destroy u =>
    obtain ⟨h1, h2, h3, h4⟩ := h
    rw [h4]
    refine ⟨?_, rfl⟩
    by_cases e : t = u
    · subst e; exact absurd (h3 t h1).1 hw
    · show upd _ _ _ _ = _; rw [upd, if_neg e]
  | step u ch sp =>
    rw [show s' = step c s u ch sp from h]
    by_cases e : t = u
    · subst e; exact absurd rfl (hd ch sp)
    · exact ⟨(step_notifying_other e).2, (step_notifying_other e).1⟩

theorem Endless.reach {c : Cfg} {o : Bool} {σ : Nat → Deed} {R : Nat → St} (h : Endless c o σ R) (n : Nat) : Reach c o (R n) := by
  induction n with
  | zero => exact h.start
  | succ n ih => exact .next _ ih (h.next n)

/-- the next step of a thread -/
theorem Endless.first {c : Cfg} {o : Bool} {σ : Nat → Deed} {R : Nat → St} (h : Endless c o σ R) {n : Nat} {t : Tid}
    (hi : (R n).sink.pc t ≠ .idle) (hr : SinkFull.Running ((R n).sink.pc t) ∨ (R n).notifying t = true) :
    ∃ m ch sp, n ≤ m ∧ σ m = .step t ch sp ∧ (R m).sink.pc t = (R n).sink.pc t ∧ (R m).notifying t = (R n).notifying t := by
  obtain ⟨m, ch, sp, hm, hs⟩ := h.fair n t hr
  have key : ∀ d n, (R n).sink.pc t ≠ .idle → σ (n + d) = .step t ch sp →
      ∃ m ch sp, n ≤ m ∧ σ m = .step t ch sp ∧ (R m).sink.pc t = (R n).sink.pc t ∧ (R m).notifying t = (R n).notifying t := by
    intro d
    induction d with
    | zero => intro n _ h1; exact ⟨n, ch, sp, Nat.le_refl _, h1, rfl, rfl⟩
    | succ d ih =>
      intro n hi h1
      by_cases e : ∃ ch sp, σ n = .step t ch sp
      · obtain ⟨ch, sp, e⟩ := e; exact ⟨n, ch, sp, Nat.le_refl _, e, rfl, rfl⟩
      · have h2 := does_same (h.next n) hi (fun ch sp e' => e ⟨ch, sp, e'⟩)
        obtain ⟨m, ch', sp', h3, h4, h5, h6⟩ := ih (n + 1) (by rw [h2.1]; exact hi) (by rw [show n + 1 + d = n + (d + 1) by omega]; exact h1)
        exact ⟨m, ch', sp', by omega, h4, h5.trans h2.1, h6.trans h2.2⟩
  exact key (m - n) n hi (by rw [show n + (m - n) = m by omega]; exact hs)

theorem Endless.sink {c : Cfg} {o : Bool} {σ : Nat → Deed} {R : Nat → St} (h : Endless c o σ R) :
    SinkFull.Endless c o (fun n => sinkDeed (R n) (σ n)) (fun n => (R n).sink) := by
  refine ⟨reach_sink h.start, fun n => does_sink (h.next n), fun n t hr => ?_⟩
  have quiet : ∀ {m ch sp}, (R m).notifying t = false → σ m = .step t ch sp → ∃ ch', sinkDeed (R m) (σ m) = .step t ch' := by
    intro m ch sp h1 h2
    rw [h2]
    unfold sinkDeed
    dsimp only
    rw [h1, if_neg (by simp)]
    (repeat' split) <;> exact ⟨_, rfl⟩
  obtain ⟨m, ch, sp, h1, h2, h3, h4⟩ := h.first hr.1 (.inl hr)
  cases hn : (R m).notifying t
  · obtain ⟨ch', e⟩ := quiet hn h2
    exact ⟨m, ch', h1, e⟩
  · have hs := h.next m
    rw [h2] at hs
    have hs : R (m + 1) = step c (R m) t ch sp := hs
    have e1 : (R (m + 1)).notifying t = false ∧ (R (m + 1)).sink.pc t = (R n).sink.pc t := by
      rw [hs]; unfold step; rw [if_pos hn]; exact ⟨if_pos rfl, h3⟩
    obtain ⟨m', ch', sp', h5, h6, h7, h8⟩ := h.first (n := m + 1) (t := t) (by rw [e1.2]; exact hr.1) (.inl (by rw [e1.2]; exact hr))
    obtain ⟨ch2, e⟩ := quiet (h8.trans e1.1) h6
    exact ⟨m', ch2, by omega, e⟩

theorem Endless.shift {c : Cfg} {o : Bool} {σ : Nat → Deed} {R : Nat → St} (h : Endless c o σ R) (N : Nat) :
    Endless c o (fun n => σ (N + n)) (fun n => R (N + n)) := by
  refine ⟨h.reach N, fun n => h.next (N + n), fun n t hr => ?_⟩
  obtain ⟨m, ch, sp, h1, h2⟩ := h.fair (N + n) t hr
  exact ⟨m - N, ch, sp, by omega, by rw [show N + (m - N) = m by omega]; exact h2⟩

/-- The waits of the worker end if deadlines pass. -/
theorem Endless.waits_end {c : Cfg} {o : Bool} {σ : Nat → Deed} {R : Nat → St} (h : Endless c o σ R) (hcap : 0 < c.capacity)
    (hd : DeadlinesPass σ R) : SinkFull.WaitsEnd (fun n => (R n).sink) := by
  intro n hn
  refine Classical.byContradiction fun hno => ?_
  have hall : ∀ m, n ≤ m → (R m).sink.pc workerTid = .wWait := fun m hm => Classical.byContradiction fun e => hno ⟨m, hm, e⟩
  obtain ⟨m, ch, sp, h1, h2, h3, h4⟩ := hd n hall
  have hs := h.next m
  rw [h3] at hs
  have hs : R (m + 1) = step c (R m) workerTid ch sp := hs
  have := hall (m + 1) (by omega)
  rw [hs] at this
  unfold step at this
  rw [worker_silent hcap (h.reach m), if_neg (by simp), if_pos ⟨rfl, hall m h1⟩, if_pos h2, if_pos h4] at this
  revert this
  show (SinkFull.step c (R m).sink workerTid ch).pc workerTid = .wWait → False
  unfold SinkFull.step
  simp only [hall m h1]
  rw [if_pos h4]
  simp [SinkFull.setPc, upd]

/-- If every action that leaves `P` leads to `Q`, and the thread that is scheduled leaves `P`, then `Q` is reached. -/
theorem Endless.advance {c : Cfg} {o : Bool} {σ : Nat → Deed} {R : Nat → St} (h : Endless c o σ R) {P Q : St → Prop} (t : Tid)
    (hrun : ∀ s, P s → SinkFull.Running (s.sink.pc t) ∨ s.notifying t = true)
    (hstep : ∀ n, P (R n) → P (R (n + 1)) ∨ Q (R (n + 1)))
    (hgo : ∀ n ch sp, σ n = .step t ch sp → P (R n) → Q (R (n + 1))) {n : Nat} (hP : P (R n)) : ∃ m, n ≤ m ∧ Q (R m) := by
  obtain ⟨m, ch, sp, hm, hs⟩ := h.fair n t (hrun _ hP)
  have key : ∀ d n, P (R n) → σ (n + d) = .step t ch sp → ∃ m, n ≤ m ∧ Q (R m) := by
    intro d
    induction d with
    | zero => intro n h1 h2; exact ⟨n + 1, by omega, hgo n ch sp h2 h1⟩
    | succ d ih =>
      intro n h1 h2
      rcases hstep n h1 with h3 | h3
      · obtain ⟨m, h4, h5⟩ := ih (n + 1) h3 (by rw [show n + 1 + d = n + (d + 1) by omega]; exact h2)
        exact ⟨m, by omega, h5⟩
      · exact ⟨n + 1, by omega, h3⟩
  exact key (m - n) n hP (by rw [show n + (m - n) = m by omega]; exact hs)

end Wake
end Soralog
