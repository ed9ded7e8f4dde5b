import Verif.Model.TimedEnd
import Verif.Props.Timed
/-!
# C97: how long does a destructor take?
-/
namespace Soralog
namespace TimedEnd
open Timed (Cfg)

/-- how many waits have ended before their deadline -/
def wakes : List Act → Nat
  | [] => 0
  | .wake _ :: as => wakes as + 1
  | _ :: as => wakes as

theorem flush_file {c : Cfg} (hc : c.syslog = false) (cas : Bool) (b : Timed.St) :
    (Timed.flush c cas b).now = b.now ∧ (Timed.flush c cas b).queue = b.queue.tail ∧
    (b.queue ≠ [] → (Timed.flush c cas b).next = b.now + c.latency) := by
  unfold Timed.flush
  rw [hc, if_neg (by simp)]
  cases hq : b.queue with
  | nil => dsimp only; split <;> exact ⟨rfl, by simp [hq], fun h => absurd rfl h⟩
  | cons e q => exact ⟨rfl, rfl, fun _ => rfl⟩

theorem flush_syslog {c : Cfg} (hc : c.syslog = true) (cas : Bool) (b : Timed.St) : (Timed.flush c cas b).queue = [] := by
  unfold Timed.flush
  rw [hc, if_pos rfl]

/-- time is on the side of the destructor -/
structure Upper (c : Cfg) (B : Nat) (s : St) : Prop where
  now : s.base.now ≤ max s.base.deadline s.base.since + c.slack
  bound : max s.base.deadline s.base.since + c.slack + (max s.base.queue.length 1 - 1) * (c.latency + c.slack) ≤ B

theorem upper_lap {c : Cfg} (hc : c.syslog = false) {B : Nat} {b : Timed.St} (cas : Bool) (h : Upper c B ⟨b, false⟩)
    (he : (lap c cas b).ended = false) : Upper c B (lap c cas b) := by
  obtain ⟨h1, h2, h3⟩ := flush_file hc cas b
  obtain ⟨u1, u2⟩ := h
  dsimp only at u1 u2
  unfold lap at he ⊢
  dsimp only at he ⊢
  rw [h2] at he ⊢
  match hq : b.queue with
  | [] => rw [hq] at he; cases he
  | [e] => rw [hq] at he; cases he
  | e :: e' :: q =>
    rw [hq] at u2
    have h3 := h3 (by rw [hq]; simp)
    rw [if_neg (by simp)]
    refine ⟨?_, ?_⟩
    · show (Timed.flush c cas b).now ≤ max (Timed.flush c cas b).next (Timed.flush c cas b).now + c.slack
      omega
    · show max (Timed.flush c cas b).next (Timed.flush c cas b).now + c.slack + (max (Timed.flush c cas b).queue.length 1 - 1) * (c.latency + c.slack) ≤ B
      rw [h3, h1, h2, hq]
      have e1 : max (e :: e' :: q).length 1 - 1 = q.length + 1 := by simp only [List.length_cons]; omega
      have e2 : max (e :: e' :: q).tail.length 1 - 1 = q.length := by simp only [List.tail_cons, List.length_cons]; omega
      rw [e1, Nat.succ_mul] at u2
      rw [e2]
      omega

theorem upper_run {c : Cfg} (hc : c.syslog = false) {B : Nat} : ∀ {as : List Act} {s s' : St}, Upper c B s → s.ended = false → run c as s = some s' →
    (s'.ended = false → Upper c B s') ∧ s'.base.now ≤ B := by
  intro as
  induction as with
  | nil =>
    intro s s' h he hr
    cases hr
    exact ⟨fun _ => h, by have := h.now; have := h.bound; omega⟩
  | cons a as ih =>
    intro s s' h he hr
    have hlap : ∀ cas, (lap c cas s.base).base.now = s.base.now := by
      intro cas
      unfold lap; dsimp only; split <;> exact (flush_file hc cas s.base).1
    have key : ∀ cas, run c as (lap c cas s.base) = some s' → (s'.ended = false → Upper c B s') ∧ s'.base.now ≤ B := by
      intro cas hr
      have hs : Upper c B ⟨s.base, false⟩ := ⟨h.now, h.bound⟩
      cases hl : (lap c cas s.base).ended
      · exact ih (upper_lap hc cas hs hl) hl hr
      · cases as with
        | nil =>
          cases hr
          exact ⟨fun e => absurd e (by rw [hl]; simp), by rw [hlap]; have := h.now; have := h.bound; omega⟩
        | cons a' as' =>
          exfalso
          simp only [run, step, hl, if_true] at hr
          cases hr
    unfold run step at hr
    rw [he, if_neg (by simp)] at hr
    cases a with
    | tick d =>
      dsimp only at hr
      split at hr
      · rename_i ht
        exact ih (s := ⟨{ s.base with now := s.base.now + d }, false⟩) ⟨ht, h.bound⟩ rfl hr
      · cases hr
    | wake cas =>
      dsimp only at hr
      split at hr
      · exact key cas hr
      · cases hr
    | timeout cas =>
      dsimp only at hr
      split at hr
      · exact key cas hr
      · cases hr

/-- **C97**, console and file sinks: the destructor, started when `n` events are queued, returns at most `max n 1` times latency and delay
later (while it has not, and when it does, the time is within this bound). -/
theorem C97_within_partial {c : Cfg} (hc : c.syslog = false) {b : Timed.St} (h : Timed.Reach c b) {as : List Act} {s : St}
    (hr : run c as (start b) = some s) : s.base.now ≤ b.now + max b.queue.length 1 * (c.latency + c.slack) := by
  have hi := Timed.reach_inv hc h
  refine (upper_run hc (s := start b) ⟨hi.late, ?_⟩ rfl hr).2
  show max b.deadline b.since + c.slack + (max b.queue.length 1 - 1) * (c.latency + c.slack) ≤ _
  have h1 := hi.deadline
  have h2 := hi.since
  obtain ⟨k, hk⟩ : ∃ k, max b.queue.length 1 = k + 1 := ⟨max b.queue.length 1 - 1, by omega⟩
  rw [hk, Nat.succ_mul, Nat.add_sub_cancel]
  omega

/-- **C97** as it is stated, for console and file sinks with at most one queued event: the destructor returns within latency and delay. -/
theorem C97_one_event_partial {c : Cfg} (hc : c.syslog = false) {b : Timed.St} (h : Timed.Reach c b) (hq : b.queue.length ≤ 1) {as : List Act}
    {s : St} (hr : run c as (start b) = some s) : s.base.now ≤ b.now + (c.latency + c.slack) := by
  have := C97_within_partial hc h hr
  rwa [show max b.queue.length 1 = 1 by omega, Nat.one_mul] at this

/-- **C97** for syslog sinks: the destructor returns as soon as the worker gets to run. -/
theorem C97_syslog_partial {c : Cfg} (hc : c.syslog = true) {b : Timed.St} (h : Timed.Reach c b) {as : List Act} {s : St}
    (hr : run c as (start b) = some s) : s.base.now ≤ b.now + c.slack := by
  have hi := Timed.sys_reach hc h
  have key : ∀ {as : List Act} {s s' : St}, s.ended = false → s.base.now ≤ b.now + c.slack → s.base.deadline ≤ b.now → s.base.since ≤ b.now →
      run c as s = some s' → s'.base.now ≤ b.now + c.slack := by
    intro as
    induction as with
    | nil => intro s s' _ h1 _ _ hr; cases hr; exact h1
    | cons a as ih =>
      intro s s' he h1 h2 h3 hr
      have hlap : ∀ cas, run c as (lap c cas s.base) = some s' → s'.base.now ≤ b.now + c.slack := by
        intro cas hr
        have hl : lap c cas s.base = ⟨Timed.flush c cas s.base, true⟩ := by
          unfold lap; dsimp only; rw [flush_syslog hc]; rfl
        rw [hl] at hr
        cases as with
        | nil => cases hr; rw [show (Timed.flush c cas s.base).now = s.base.now by unfold Timed.flush; rw [hc, if_pos rfl]]; exact h1
        | cons a' as' => simp only [run, step, if_true] at hr; cases hr
      unfold run step at hr
      rw [he, if_neg (by simp)] at hr
      cases a with
      | tick d =>
        dsimp only at hr
        split at hr
        · rename_i ht
          exact ih (s := ⟨{ s.base with now := s.base.now + d }, false⟩) rfl (by show s.base.now + d ≤ _; omega) h2 h3 hr
        · cases hr
      | wake cas =>
        dsimp only at hr
        split at hr
        · exact hlap cas hr
        · cases hr
      | timeout cas =>
        dsimp only at hr
        split at hr
        · exact hlap cas hr
        · cases hr
  exact key (s := start b) rfl (Nat.le_add_right _ _) (Nat.le_trans hi.deadline hi.since) hi.since hr

/-! ### and it does take that long -/

/-- `n` events at the start, at time `T`, `k` early wake-ups so far -/
def Lower (c : Cfg) (T n k : Nat) (s : St) : Prop :=
  T ≤ s.base.now ∧
  if s.ended then T + (n - 1 - k) * c.latency ≤ s.base.now
  else s.base.queue.length = n ∨ (s.base.queue.length < n ∧ s.base.queue.length ≠ 0 ∧ T + (n - s.base.queue.length - 1 - k) * c.latency ≤ s.base.since ∧
    s.base.deadline = s.base.since + c.latency ∧ s.base.since ≤ s.base.now)

theorem lower_lap {c : Cfg} (hc : c.syslog = false) {T n k k' : Nat} {b : Timed.St} (cas : Bool) (h : Lower c T n k ⟨b, false⟩)
    (hk : (k' = k ∧ b.deadline ≤ b.now) ∨ k' = k + 1) : Lower c T n k' (lap c cas b) := by
  obtain ⟨h1, h2, h3⟩ := flush_file hc cas b
  obtain ⟨ht, hl⟩ := h
  dsimp only at ht hl
  rw [if_neg (by simp)] at hl
  -- the moment of this lap
  have hnow : T + (n - b.queue.length - k') * c.latency ≤ b.now := by
    rcases hl with hl | ⟨hl, hl0, h4, h5, h6⟩
    · rw [hl]; simp; exact ht
    · rcases hk with ⟨e, hd⟩ | e
      · have : (n - b.queue.length - k') ≤ (n - b.queue.length - 1 - k) + 1 := by omega
        have := Nat.mul_le_mul_right c.latency this
        rw [Nat.succ_mul] at this
        omega
      · rw [show n - b.queue.length - k' = n - b.queue.length - 1 - k by omega]; omega
  unfold lap
  dsimp only
  rw [h2]
  match hq : b.queue with
  | [] =>
    rw [if_pos (by rfl)]
    refine ⟨by show T ≤ (Timed.flush c cas b).now; omega, ?_⟩
    dsimp only
    rw [if_pos rfl, h1]
    rcases hl with hl | ⟨_, hl0, _⟩
    · rw [hq] at hl; have : n = 0 := hl.symm; subst this; simp; exact ht
    · rw [hq] at hl0; exact absurd rfl hl0
  | [e] =>
    rw [if_pos (by rfl)]
    refine ⟨by show T ≤ (Timed.flush c cas b).now; omega, ?_⟩
    dsimp only
    rw [if_pos rfl, h1]
    rw [hq] at hnow
    exact hnow
  | e :: e' :: q =>
    rw [if_neg (by simp)]
    refine ⟨by show T ≤ (Timed.flush c cas b).now; omega, ?_⟩
    rw [if_neg (by show ¬ (false = true); simp)]
    right
    have hlen : (Timed.waitAgain (Timed.flush c cas b)).queue.length = b.queue.length - 1 := by
      show (Timed.flush c cas b).queue.length = _
      rw [h2, List.length_tail]
    have h3 := h3 (by rw [hq]; simp)
    have hle : b.queue.length ≤ n := by rcases hl with hl | ⟨hl, _⟩ <;> omega
    have hge : 2 ≤ b.queue.length := by rw [hq]; simp
    refine ⟨by rw [hlen]; omega, by rw [hlen]; omega, ?_, ?_, Nat.le_refl _⟩
    · show T + (n - (Timed.waitAgain (Timed.flush c cas b)).queue.length - 1 - k') * c.latency ≤ (Timed.flush c cas b).now
      rw [hlen, h1, show n - (b.queue.length - 1) - 1 - k' = n - b.queue.length - k' by omega]
      exact hnow
    · show (Timed.flush c cas b).next = (Timed.flush c cas b).now + c.latency
      rw [h3, h1]

theorem lower_run {c : Cfg} (hc : c.syslog = false) {T n : Nat} : ∀ {as : List Act} {k : Nat} {s s' : St}, Lower c T n k s → run c as s = some s' →
    Lower c T n (k + wakes as) s' := by
  intro as
  induction as with
  | nil => intro k s s' h hr; cases hr; exact h
  | cons a as ih =>
    intro k s s' h hr
    cases he : s.ended
    · unfold run step at hr
      rw [he, if_neg (by simp)] at hr
      have hs : Lower c T n k ⟨s.base, false⟩ := by
        cases s; cases he; exact h
      cases a with
      | tick d =>
        dsimp only at hr
        split at hr
        · refine ih (s := ⟨{ s.base with now := s.base.now + d }, false⟩) ?_ hr
          unfold Lower at h ⊢
          rw [he, if_neg (by simp)] at h
          rw [if_neg (by simp)]
          refine ⟨by show T ≤ s.base.now + d; omega, h.2.imp id fun h => ⟨h.1, h.2.1, h.2.2.1, h.2.2.2.1, by show s.base.since ≤ s.base.now + d; omega⟩⟩
        · cases hr
      | wake cas =>
        dsimp only at hr
        split at hr
        · have := ih (lower_lap hc cas hs (.inr rfl)) hr
          rwa [show k + 1 + wakes as = k + wakes (.wake cas :: as) by simp only [wakes]; omega] at this
        · cases hr
      | timeout cas =>
        dsimp only at hr
        split at hr
        · rename_i hd
          exact ih (lower_lap hc cas hs (.inl ⟨rfl, hd⟩)) hr
        · cases hr
    · simp only [run, step, he, if_true] at hr
      cases hr

/-- **C97**: each queued event costs a console or file sink a latency.  Whatever happens, if `n` events are queued when the destructor is
started and `k` waits of the worker end before their deadline (the notification of the destructor accounts for at most one of them), it
takes at least `(n - 1 - k)` latencies. -/
theorem C97_each_event_costs_a_latency {c : Cfg} (hc : c.syslog = false) {b : Timed.St} {as : List Act} {s : St}
    (hr : run c as (start b) = some s) (he : s.ended = true) : b.now + (b.queue.length - 1 - wakes as) * c.latency ≤ s.base.now := by
  have := lower_run hc (T := b.now) (n := b.queue.length) (k := 0) (s := start b) ⟨Nat.le_refl _, by
    show if false = true then _ else _
    rw [if_neg (by simp)]; exact .inl rfl⟩ hr
  unfold Lower at this
  rw [he, if_pos rfl, Nat.zero_add] at this
  exact this.2

/-- the next wait of the worker times out -/
theorem next_lap {c : Cfg} {s : St} (he : s.ended = false) :
    ∃ as b', (∀ bs, run c (as ++ bs) s = run c bs (lap c true b')) ∧ b'.queue = s.base.queue ∧ wakes as = 0 := by
  by_cases hd : s.base.deadline ≤ s.base.now
  · refine ⟨[.timeout true], s.base, fun bs => ?_, rfl, rfl⟩
    show (step c s (.timeout true)).bind (run c bs) = _
    unfold step
    rw [he, if_neg (by simp)]
    dsimp only
    rw [if_pos hd]; rfl
  · refine ⟨[.tick (s.base.deadline - s.base.now), .timeout true], { s.base with now := s.base.now + (s.base.deadline - s.base.now) }, fun bs => ?_, rfl, rfl⟩
    show (step c s (.tick (s.base.deadline - s.base.now))).bind (run c (.timeout true :: bs)) = _
    unfold step
    rw [he, if_neg (by simp)]
    dsimp only
    rw [if_pos (by omega)]
    show (step c ⟨{ s.base with now := s.base.now + (s.base.deadline - s.base.now) }, false⟩ (.timeout true)).bind (run c bs) = _
    unfold step
    dsimp only
    rw [if_neg (by simp), if_pos (by omega)]; rfl

theorem wakes_append (as bs : List Act) : wakes (as ++ bs) = wakes as + wakes bs := by
  induction as with
  | nil => simp [wakes]
  | cons a as ih => cases a <;> simp only [List.cons_append, wakes, ih] <;> omega

/-- From every state in which it has not finished, the destructor can finish. -/
theorem finishes {c : Cfg} (hc : c.syslog = false) : ∀ (q : Nat) (s : St), s.base.queue.length ≤ q → s.ended = false →
    ∃ as s', run c as s = some s' ∧ s'.ended = true ∧ wakes as = 0 := by
  intro q
  induction q with
  | zero =>
    intro s hq he
    have hq0 : s.base.queue = [] := List.length_eq_zero_iff.1 (by omega)
    obtain ⟨as, b', h1, h2, h3⟩ := next_lap (c := c) he
    refine ⟨as ++ [], _, h1 [], ?_, by rw [List.append_nil]; exact h3⟩
    unfold lap; dsimp only; rw [(flush_file hc true b').2.1, h2, hq0]; rfl
  | succ q ih =>
    intro s hq he
    obtain ⟨as, b', h1, h2, h3⟩ := next_lap (c := c) he
    cases hl : (lap c true b').ended
    · obtain ⟨bs, s', h4, h5, h6⟩ := ih (lap c true b') (by
        have : (lap c true b').base.queue = b'.queue.tail := by
          unfold lap; dsimp only; split <;> exact (flush_file hc true b').2.1
        rw [this, h2, List.length_tail]; omega) hl
      exact ⟨as ++ bs, s', (h1 bs).trans h4, h5, by rw [wakes_append]; omega⟩
    · exact ⟨as ++ [], _, h1 [], hl, by rw [List.append_nil]; exact h3⟩

/-- **C97 is false** for console and file sinks, whatever the latency and however punctual the worker is: there is no bound on the time the
destructor takes, not even with idle threads and an ordinary queue. -/
theorem C97_refuted {c : Cfg} (hc : c.syslog = false) (hl : 0 < c.latency) (B : Nat) :
    ∃ b as s, Timed.Reach c b ∧ b.queue.length = B + 2 ∧ run c as (start b) = some s ∧ s.ended = true ∧ wakes as = 0 ∧ b.now + B < s.base.now := by
  obtain ⟨b, h1, h2, _, _, _, h3, _⟩ := Timed.pushes c (B + 2) (Timed.init 0)
  have hq : b.queue.length = B + 2 := by rw [h3]; show 0 + _ = _; omega
  obtain ⟨as, s, h4, h5, h6⟩ := finishes hc (B + 2) (start b) (Nat.le_of_eq hq) rfl
  refine ⟨b, as, s, Timed.run_reach (.init 0) h1, hq, h4, h5, h6, ?_⟩
  have := C97_each_event_costs_a_latency hc h4 h5
  rw [hq, h6] at this
  have h7 : B + 1 ≤ (B + 2 - 1 - 0) * c.latency := by
    rw [show B + 2 - 1 - 0 = B + 1 by omega]; exact Nat.le_mul_of_pos_right _ hl
  omega

/-! Ordinary executions: two events queued, the notification arrives, then the second one waits for the deadline. -/
example : ∃ b s, Timed.Reach ⟨false, 100, 10⟩ b ∧ b.queue.length = 2 ∧
    run ⟨false, 100, 10⟩ [.wake true, .tick 100, .timeout true] (start b) = some s ∧ s.ended = true ∧ s.base.now = b.now + 100 := by
  refine ⟨_, _, Timed.run_reach (.init 0) (as := [.timeout true, .tick 1, .push false, .push false]) rfl, rfl, rfl, rfl, rfl⟩

example : ∃ b s, Timed.Reach ⟨true, 100, 10⟩ b ∧ b.queue.length = 2 ∧
    run ⟨true, 100, 10⟩ [.tick 5, .timeout true] (start b) = some s ∧ s.ended = true ∧ s.base.now = b.now + 5 := by
  refine ⟨_, _, Timed.run_reach (.init 0) (as := [.timeout true, .tick 1, .push false, .push false]) rfl, rfl, rfl, rfl, rfl⟩

end TimedEnd
end Soralog
