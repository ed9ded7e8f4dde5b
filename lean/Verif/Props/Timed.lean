import Verif.Model.Timed
/-!
# C75: latency
-/
namespace Soralog
namespace Timed

/-! ### console and file: how long an event waits -/

/-- the promise made to an event -/
def promise (c : Cfg) (e : Ev) : Nat := e.at_ + (e.ahead + 1) * (c.latency + c.slack)

/-- All queued events can still be written in time if the worker starts its next flush at `x + slack`. -/
def Within (c : Cfg) (x : Nat) : Nat → List Ev → Prop
  | _, [] => True
  | i, e :: q => x + c.slack + i * (c.latency + c.slack) ≤ promise c e ∧ Within c x (i + 1) q

theorem Within.mono {c : Cfg} {x y i : Nat} {q : List Ev} (h : Within c x i q) (hxy : y ≤ x) : Within c y i q := by
  induction q generalizing i with
  | nil => trivial
  | cons e q ih => exact ⟨Nat.le_trans (by omega) h.1, ih h.2⟩

/-- one event has been written -/
theorem Within.pop {c : Cfg} {x y i : Nat} {q : List Ev} (h : Within c x (i + 1) q) (hxy : y ≤ x + c.slack + c.latency) : Within c y i q := by
  induction q generalizing i with
  | nil => trivial
  | cons e q ih =>
    refine ⟨Nat.le_trans ?_ h.1, ih h.2⟩
    rw [Nat.succ_mul]; omega

theorem Within.push {c : Cfg} {x i n : Nat} {q : List Ev} (h : Within c x i q) (hn : n = i + q.length) {now : Nat} (hx : x ≤ now + c.latency) :
    Within c x i (q ++ [⟨now, n⟩]) := by
  induction q generalizing i with
  | nil =>
    refine ⟨?_, trivial⟩
    have hn : n = i := hn
    subst hn
    unfold promise
    simp only [Nat.succ_mul]
    omega
  | cons e q ih => exact ⟨h.1, ih h.2 (by rw [hn, List.length_cons]; omega)⟩

structure Inv (c : Cfg) (s : St) : Prop where
  late : s.now ≤ max s.deadline s.since + c.slack
  next : s.next ≤ s.now + c.latency
  deadline : s.deadline ≤ s.now + c.latency
  since : s.since ≤ s.now
  due : Within c (max s.deadline s.since) 0 s.queue
  dueNext : Within c s.next 0 s.queue
  kept : ∀ p ∈ s.written, p.2 ≤ promise c p.1

theorem inv_flush {c : Cfg} (hc : c.syslog = false) {s : St} (h : Inv c s) (cas : Bool) :
    Inv c (flush c cas s) ∧ Within c s.now 0 (flush c cas s).queue := by
  unfold flush
  rw [hc]
  simp only [Bool.false_eq_true, if_false]
  cases hq : s.queue with
  | nil =>
    simp only
    split
    · exact ⟨⟨h.late, Nat.le_refl _, h.deadline, h.since, trivial, trivial, h.kept⟩, trivial⟩
    · exact ⟨h, by rw [hq]; trivial⟩
  | cons e q =>
    have hd := h.due
    rw [hq] at hd
    have h1 := hd.2.pop (y := s.now + c.latency) (by have := h.late; omega)
    refine ⟨⟨h.late, Nat.le_refl _, h.deadline, h.since, hd.2.pop (y := max s.deadline s.since) (by omega), h1, ?_⟩, h1.mono (Nat.le_add_right _ _)⟩
    intro p hp
    rcases List.mem_append.1 hp with hp | hp
    · exact h.kept p hp
    · rw [List.mem_singleton.1 hp]
      have := hd.1
      have := h.late
      simp only
      omega

theorem flush_now {c : Cfg} {s : St} (cas : Bool) :
    (flush c cas s).now = s.now ∧ (flush c cas s).deadline = s.deadline ∧ (flush c cas s).since = s.since ∧
    (flush c cas s).timeouts = s.timeouts := by
  unfold flush
  split
  · exact ⟨rfl, rfl, rfl, rfl⟩
  · split
    · split <;> exact ⟨rfl, rfl, rfl, rfl⟩
    · exact ⟨rfl, rfl, rfl, rfl⟩

theorem inv_wait {c : Cfg} {s : St} (h : Inv c s) (hw : Within c s.now 0 s.queue) : Inv c (waitAgain s) := by
  have hmax : Within c (max s.next s.now) 0 s.queue := by
    rcases Nat.le_total s.next s.now with hl | hl
    · rw [Nat.max_eq_right hl]; exact hw
    · rw [Nat.max_eq_left hl]; exact h.dueNext
  exact ⟨by show s.now ≤ max s.next s.now + c.slack; omega, h.next, h.next, Nat.le_refl _, hmax, h.dueNext, h.kept⟩

theorem inv_step {c : Cfg} (hc : c.syslog = false) {s s' : St} (h : Inv c s) {a : Act} (hs : step c s a = some s') : Inv c s' := by
  cases a with
  | tick d =>
    simp only [step] at hs
    split at hs
    · rename_i hle
      cases hs
      exact ⟨hle, Nat.le_trans h.next (by show _ ≤ s.now + d + _; omega), Nat.le_trans h.deadline (by show _ ≤ s.now + d + _; omega),
        Nat.le_trans h.since (Nat.le_add_right _ _), h.due, h.dueNext, h.kept⟩
    · cases hs
  | push full =>
    cases hs
    exact ⟨h.late, h.next, h.deadline, h.since, h.due.push (by omega) (by have := h.deadline; have := h.since; omega), h.dueNext.push (by omega) h.next, h.kept⟩
  | flush cas => cases hs; exact (inv_flush hc h cas).1
  | async => cases hs; exact ⟨h.late, h.next, h.deadline, h.since, h.due, h.dueNext, h.kept⟩
  | wake cas =>
    simp only [step] at hs
    split at hs
    · rename_i hlt
      cases hs
      split
      · have := inv_flush hc h cas
        exact inv_wait this.1 (by rw [(flush_now cas).1]; exact this.2)
      · exact inv_wait h (h.due.mono (by omega))
    · cases hs
  | timeout cas =>
    simp only [step] at hs
    split at hs
    · cases hs
      have := inv_flush hc h cas
      have hi : Inv c { flush c cas s with timeouts := s.timeouts + 1 } :=
        ⟨this.1.late, this.1.next, this.1.deadline, this.1.since, this.1.due, this.1.dueNext, this.1.kept⟩
      exact inv_wait hi (by show Within c (flush c cas s).now 0 (flush c cas s).queue; rw [(flush_now cas).1]; exact this.2)
    · cases hs

theorem reach_inv {c : Cfg} (hc : c.syslog = false) {s : St} (h : Reach c s) : Inv c s := by
  induction h with
  | init t =>
    exact ⟨by show t ≤ max t t + c.slack; omega, Nat.le_add_right _ _, Nat.le_add_right _ _, Nat.le_refl _, trivial, trivial,
      fun p hp => (by cases hp)⟩
  | step a _ hs ih => exact inv_step hc ih hs

/-- **C75**, waiting, as far as it is true.  In a console or file sink with latency `L` whose worker runs at most `d` late, an event that was
pushed when `n` events were queued is written at most `(n + 1) * (L + d)` later, whatever pushes, flushes, requests and wake-ups happen: the
written ones have been, and the queued ones are not overdue. -/
theorem C75_waits_partial {c : Cfg} (hc : c.syslog = false) {s : St} (h : Reach c s) :
    (∀ p ∈ s.written, p.2 ≤ p.1.at_ + (p.1.ahead + 1) * (c.latency + c.slack)) ∧
    ∀ e ∈ s.queue, s.now ≤ e.at_ + (e.ahead + 1) * (c.latency + c.slack) := by
  have hi := reach_inv hc h
  refine ⟨hi.kept, ?_⟩
  have key : ∀ (q : List Ev) (i : Nat), Within c (max s.deadline s.since) i q → ∀ e ∈ q, s.now ≤ promise c e := by
    intro q
    induction q with
    | nil => intro i _ e he; cases he
    | cons a q ih =>
      intro i hw e he
      rcases List.mem_cons.1 he with rfl | he
      · exact Nat.le_trans hi.late (Nat.le_trans (Nat.le_add_right _ _) hw.1)
      · exact ih _ hw.2 e he
  exact key s.queue 0 hi.due

theorem run_reach {c : Cfg} {as : List Act} {s s' : St} (h : Reach c s) (hr : run c as s = some s') : Reach c s' := by
  induction as generalizing s with
  | nil => cases hr; exact h
  | cons a as ih =>
    rw [run] at hr
    cases hs : step c s a with
    | none => rw [hs] at hr; cases hr
    | some s1 => rw [hs] at hr; exact ih (.step a h hs) hr

/-- three events pushed at once; latency 100, the worker at most 5 late -/
def three : List Act :=
  [.timeout true, .tick 10, .push false, .push false, .push false, .tick 90, .timeout true, .tick 100, .timeout true, .tick 100]

def threeCfg : Cfg := ⟨false, 100, 5⟩

/-- **C75 is false** for waiting: with latency 100 and a worker that is at most 5 late (here: never late), the third event is still queued
290 after its push: each flush writes one event, and the next deadline is a latency away. -/
theorem C75_refuted : ∃ s e, Reach threeCfg s ∧ e ∈ s.queue ∧ e.at_ + (threeCfg.latency + threeCfg.slack) < s.now ∧ s.now = e.at_ + 290 :=
  ⟨(run threeCfg three (init 0)).get rfl, ⟨10, 2⟩, run_reach (.init 0) (Option.some_get rfl).symm, List.mem_cons_self, by decide, by decide⟩

theorem pushes (c : Cfg) (n : Nat) (s : St) : ∃ s', run c (List.replicate n (.push false)) s = some s' ∧ s'.now = s.now ∧ s'.next = s.next ∧
    s'.deadline = s.deadline ∧ s'.since = s.since ∧ s'.queue.length = s.queue.length + n ∧ ∀ e ∈ s'.queue, e ∈ s.queue ∨ e.at_ = s.now := by
  induction n generalizing s with
  | zero => exact ⟨s, rfl, rfl, rfl, rfl, rfl, rfl, fun e h => .inl h⟩
  | succ n ih =>
    obtain ⟨s', h1, h2, h3, h4, h5, h6, h8⟩ := ih { s with queue := s.queue ++ [⟨s.now, s.queue.length⟩], needFlush := s.needFlush || false }
    simp only [List.length_append, List.length_cons, List.length_nil] at h6
    refine ⟨s', h1, h2, h3, h4, h5, by omega, fun e he => ?_⟩
    rcases h8 e he with h | h
    · rcases List.mem_append.1 h with h | h
      · exact .inl h
      · rw [List.mem_singleton.1 h]; exact .inr rfl
    · exact .inr h

/-- the worker wakes `n` times exactly at its deadline -/
def rounds (c : Cfg) : Nat → List Act
  | 0 => []
  | n + 1 => .tick c.latency :: .timeout true :: rounds c n

theorem run_rounds {c : Cfg} (hc : c.syslog = false) (n : Nat) (s : St) (hd : s.deadline = s.now + c.latency) (hn : n ≤ s.queue.length) :
    ∃ s', run c (rounds c n) s = some s' ∧ s'.now = s.now + n * c.latency ∧ s'.queue = s.queue.drop n := by
  induction n generalizing s with
  | zero => exact ⟨s, rfl, by omega, rfl⟩
  | succ n ih =>
    cases hq : s.queue with
    | nil => rw [hq] at hn; cases hn
    | cons e q =>
      have h1 : step c s (.tick c.latency) = some { s with now := s.now + c.latency } := by
        simp only [step]
        rw [if_pos (by omega)]
      have h2 : step c { s with now := s.now + c.latency } (.timeout true) = some (waitAgain { { s with
          now := s.now + c.latency, queue := q, written := s.written ++ [(e, s.now + c.latency)],
          next := s.now + c.latency + c.latency, needFlush := s.needFlush && !true } with timeouts := s.timeouts + 1 }) := by
        simp only [step]
        rw [if_pos (by omega)]
        unfold flush
        simp only [hc, Bool.false_eq_true, if_false, hq]
      obtain ⟨s', h3, h4, h5⟩ := ih (waitAgain { { s with
          now := s.now + c.latency, queue := q, written := s.written ++ [(e, s.now + c.latency)],
          next := s.now + c.latency + c.latency, needFlush := s.needFlush && !true } with timeouts := s.timeouts + 1 }) rfl
        (by rw [hq, List.length_cons] at hn; exact Nat.le_of_succ_le_succ hn)
      refine ⟨s', ?_, ?_, h5⟩
      · rw [rounds, run, h1]
        show run c (.timeout true :: rounds c n) _ = _
        rw [run, h2]
        exact h3
      · rw [h4, Nat.succ_mul]
        show s.now + c.latency + n * c.latency = _
        omega

/-- No bound holds that does not depend on the number of queued events, not even with a worker that is never late: for every `n` there is an
execution in which an event is still queued `n` latencies after its push. -/
theorem C75_unbounded_refuted {c : Cfg} (hc : c.syslog = false) (n : Nat) :
    ∃ s e, Reach c s ∧ e ∈ s.queue ∧ s.now = e.at_ + n * c.latency := by
  have h0 : step c (init 0) (.timeout true) = some ⟨0, [], c.latency, c.latency, 0, false, [], 1⟩ := by
    simp only [step, init, flush, waitAgain, hc]
    simp
  have r0 : Reach c ⟨0, [], c.latency, c.latency, 0, false, [], 1⟩ := .step _ (.init 0) h0
  obtain ⟨s1, h1, h2, h3, h4, h5, h6, h7⟩ := pushes c (n + 1) ⟨0, [], c.latency, c.latency, 0, false, [], 1⟩
  have h6 : s1.queue.length = 0 + (n + 1) := h6
  obtain ⟨s2, h8, h9, h10⟩ := run_rounds hc n s1 (by rw [h4, h2]; simp) (by omega)
  have hne : s2.queue ≠ [] := by
    intro h
    rw [h10] at h
    have := List.drop_eq_nil_iff.1 h
    omega
  obtain ⟨e, q, hq⟩ := List.exists_cons_of_ne_nil hne
  have hm : e ∈ s2.queue := by rw [hq]; exact List.mem_cons_self
  refine ⟨s2, e, run_reach (run_reach r0 h1) h8, hm, ?_⟩
  have hm1 : e ∈ s1.queue := List.mem_of_mem_drop (by rw [← h10]; exact hm)
  have : e.at_ = 0 := (h7 e hm1).elim (fun h => (by cases h)) id
  rw [h9, h2, this]

/-! ### console and file: an idle worker sleeps -/

/-- nobody pushes or flushes -/
def Quiet : Act → Prop
  | .push _ => False
  | .flush _ => False
  | _ => True

theorem flush_next_le {c : Cfg} (hc : c.syslog = false) {s : St} (cas : Bool) (h : s.next ≤ s.now) : (flush c cas s).next = s.now + c.latency := by
  unfold flush
  rw [hc]
  simp only [Bool.false_eq_true, if_false]
  split
  · rw [if_pos h]
  · rfl

theorem flush_next_cases {c : Cfg} (hc : c.syslog = false) (s : St) (cas : Bool) :
    (flush c cas s).next = s.next ∨ (flush c cas s).next = s.now + c.latency := by
  unfold flush
  rw [hc]
  simp only [Bool.false_eq_true, if_false]
  split
  · split
    · exact .inr rfl
    · exact .inl rfl
  · exact .inr rfl

/-- in a quiet stretch that began at `t0` with `n0` timeouts -/
def Slow (c : Cfg) (t0 n0 : Nat) (s : St) : Prop :=
  n0 ≤ s.timeouts ∧ t0 ≤ s.now ∧ (s.timeouts = n0 ∨ s.deadline = s.next ∧
    (s.timeouts = n0 + 1 ∨ t0 + (s.timeouts - n0 - 1) * c.latency ≤ s.next))

theorem slow_run {c : Cfg} (hc : c.syslog = false) {t0 n0 : Nat} {as : List Act} {s s' : St} (hq : ∀ a ∈ as, Quiet a) (h : Slow c t0 n0 s)
    (hn : s.next ≤ s.now + c.latency) (hr : run c as s = some s') : Slow c t0 n0 s' ∧ s'.next ≤ s'.now + c.latency := by
  induction as generalizing s with
  | nil => cases hr; exact ⟨h, hn⟩
  | cons a as ih =>
    rw [run] at hr
    have hqa := hq a List.mem_cons_self
    have hq' := fun b hb => hq b (List.mem_cons_of_mem _ hb)
    have key : ∀ s1, step c s a = some s1 → Slow c t0 n0 s1 ∧ s1.next ≤ s1.now + c.latency := by
      intro s1 hs
      obtain ⟨g1, g2, g3⟩ := h
      cases a with
      | tick d =>
        simp only [step] at hs
        split at hs
        · cases hs
          exact ⟨⟨g1, Nat.le_trans g2 (Nat.le_add_right _ _), g3⟩, Nat.le_trans hn (by show _ ≤ s.now + d + _; omega)⟩
        · cases hs
      | push full => exact hqa.elim
      | flush cas => exact hqa.elim
      | async => cases hs; exact ⟨⟨g1, g2, g3⟩, hn⟩
      | wake cas =>
        simp only [step] at hs
        split at hs
        · rename_i hlt
          cases hs
          split
          · have hf := flush_now (c := c) (s := s) cas
            have hx := flush_next_cases hc s cas
            refine ⟨⟨?_, ?_, ?_⟩, ?_⟩
            · show n0 ≤ (flush c cas s).timeouts; rw [hf.2.2.2]; exact g1
            · show t0 ≤ (flush c cas s).now; rw [hf.1]; exact g2
            · show (flush c cas s).timeouts = n0 ∨ (flush c cas s).next = (flush c cas s).next ∧ _
              rw [show (waitAgain (flush c cas s)).timeouts = s.timeouts from hf.2.2.2, hf.2.2.2]
              rcases g3 with g3 | ⟨g3, g4⟩
              · exact .inl g3
              · refine .inr ⟨rfl, ?_⟩
                rcases g4 with g4 | g4
                · exact .inl g4
                · refine .inr (Nat.le_trans g4 ?_)
                  show s.next ≤ (flush c cas s).next
                  rcases hx with hx | hx <;> omega
            · show (flush c cas s).next ≤ (flush c cas s).now + c.latency
              rw [hf.1]
              rcases hx with hx | hx <;> omega
          · refine ⟨⟨g1, g2, ?_⟩, hn⟩
            rcases g3 with g3 | ⟨g3, g4⟩
            · exact .inl g3
            · exact .inr ⟨rfl, g4⟩
        · cases hs
      | timeout cas =>
        simp only [step] at hs
        split at hs
        · rename_i hle
          cases hs
          have hf := flush_now (c := c) (s := s) cas
          have hx := flush_next_cases hc s cas
          refine ⟨⟨Nat.le_succ_of_le g1, ?_, .inr ⟨rfl, ?_⟩⟩, ?_⟩
          · show t0 ≤ (flush c cas s).now; rw [hf.1]; exact g2
          · show s.timeouts + 1 = n0 + 1 ∨ t0 + (s.timeouts + 1 - n0 - 1) * c.latency ≤ (flush c cas s).next
            rcases g3 with g3 | ⟨g3, g4⟩
            · exact .inl (by omega)
            · refine .inr ?_
              rw [flush_next_le hc cas (by omega)]
              rcases g4 with g4 | g4
              · rw [g4]
                have : n0 + 1 + 1 - n0 - 1 = 1 := by omega
                rw [this]; omega
              · obtain ⟨k, hk⟩ : ∃ k, s.timeouts = n0 + k := ⟨s.timeouts - n0, by omega⟩
                rw [hk] at g4 ⊢
                cases k with
                | zero =>
                  have : n0 + 0 + 1 - n0 - 1 = 0 := by omega
                  rw [this]; omega
                | succ k =>
                  have e1 : n0 + (k + 1) - n0 - 1 = k := by omega
                  have e2 : n0 + (k + 1) + 1 - n0 - 1 = k + 1 := by omega
                  rw [e1] at g4
                  rw [e2, Nat.succ_mul]; omega
          · show (flush c cas s).next ≤ (flush c cas s).now + c.latency
            rw [hf.1]
            rcases hx with hx | hx <;> omega
        · cases hs
    cases hs : step c s a with
    | none => rw [hs] at hr; cases hr
    | some s1 =>
      rw [hs] at hr
      exact ih hq' (key s1 hs).1 (key s1 hs).2 hr

/-- **C75**, idle.  While nobody pushes or flushes, the worker of a console or file sink runs into its deadline at most once per latency,
and once more at the beginning and at the end: `n + 2` timeouts take at least `n` latencies. -/
theorem C75_idle_partial {c : Cfg} (hc : c.syslog = false) {s s' : St} (h : Reach c s) {as : List Act} (hq : ∀ a ∈ as, Quiet a)
    (hr : run c as s = some s') : (s'.timeouts - s.timeouts - 2) * c.latency ≤ s'.now - s.now := by
  have hi := reach_inv hc h
  obtain ⟨⟨h1, h2, h3⟩, h4⟩ := slow_run hc (t0 := s.now) (n0 := s.timeouts) hq ⟨Nat.le_refl _, Nat.le_refl _, .inl rfl⟩ hi.next hr
  rcases h3 with h3 | ⟨_, h3 | h3⟩
  · rw [h3, Nat.sub_self]; omega
  · have : s'.timeouts - s.timeouts - 2 = 0 := by omega
    rw [this]; omega
  · obtain ⟨k, hk⟩ : ∃ k, s'.timeouts = s.timeouts + k := ⟨s'.timeouts - s.timeouts, by omega⟩
    rw [hk] at h3 ⊢
    match k with
    | 0 => have : s.timeouts + 0 - s.timeouts - 2 = 0 := by omega
           rw [this]; omega
    | 1 => have : s.timeouts + 1 - s.timeouts - 2 = 0 := by omega
           rw [this]; omega
    | k + 2 =>
      have e1 : s.timeouts + (k + 2) - s.timeouts - 1 = k + 1 := by omega
      have e2 : s.timeouts + (k + 2) - s.timeouts - 2 = k := by omega
      rw [e1, Nat.succ_mul] at h3
      rw [e2]; omega

example : ∃ s s' : St, Reach threeCfg s ∧ run threeCfg [.tick 3, .timeout true, .tick 100, .timeout true, .tick 104, .timeout false] s = some s' ∧
    s'.timeouts = s.timeouts + 3 :=
  ⟨init 7, _, .init 7, rfl, rfl⟩

/-- The model does not stop time: from every reachable state of a console or file sink with latency ≠ 0 time can go on. -/
theorem C75_time_passes {c : Cfg} (hc : c.syslog = false) (hl : 0 < c.latency) {s : St} (h : Reach c s) :
    ∃ as s', run c as s = some s' ∧ s.now < s'.now := by
  have hi := reach_inv hc h
  by_cases hd : s.now < max s.deadline s.since + c.slack
  · refine ⟨[.tick 1], { s with now := s.now + 1 }, ?_, Nat.lt_succ_self _⟩
    simp only [run, step]
    rw [if_pos (by omega)]; rfl
  · have hle : s.deadline ≤ s.now := by omega
    have hf := flush_now (c := c) (s := s) true
    have hnx : s.now < (flush c true s).next := by
      unfold flush
      rw [hc]
      simp only [Bool.false_eq_true, if_false]
      split
      · split
        · exact Nat.lt_add_of_pos_right hl
        · omega
      · exact Nat.lt_add_of_pos_right hl
    refine ⟨[.timeout true, .tick 1], { waitAgain { flush c true s with timeouts := s.timeouts + 1 } with now := s.now + 1 }, ?_, Nat.lt_succ_self _⟩
    simp only [run, step]
    rw [if_pos hle]
    show (if (flush c true s).now + 1 ≤ max (flush c true s).next (flush c true s).now + c.slack then some _ else none).bind _ = _
    rw [hf.1, if_pos (by omega)]
    show some _ = some _
    simp only [waitAgain, hf.1]

/-! ### syslog: the worker never sleeps, and nothing waits -/

structure SysInv (c : Cfg) (s : St) : Prop where
  late : s.now ≤ max s.deadline s.since + c.slack
  next : s.next ≤ s.since
  deadline : s.deadline ≤ s.since
  since : s.since ≤ s.now
  due : ∀ e ∈ s.queue, s.since ≤ e.at_ ∧ e.at_ ≤ s.now
  kept : ∀ p ∈ s.written, p.1.at_ ≤ p.2 ∧ p.2 ≤ p.1.at_ + c.slack

theorem sysInv_flush {c : Cfg} (hc : c.syslog = true) {s : St} (h : SysInv c s) (cas : Bool) :
    SysInv c (flush c cas s) ∧ (flush c cas s).queue = [] := by
  unfold flush
  rw [hc]
  refine ⟨⟨h.late, h.next, h.deadline, h.since, fun e he => (by cases he), fun p hp => ?_⟩, rfl⟩
  rcases List.mem_append.1 hp with hp | hp
  · exact h.kept p hp
  · obtain ⟨e, he, rfl⟩ := List.mem_map.1 hp
    have hd := h.due e he
    have := h.late
    have := h.deadline
    exact ⟨hd.2, by show s.now ≤ e.at_ + c.slack; omega⟩

theorem sysInv_wait {c : Cfg} {s : St} (h : SysInv c s) (hq : s.queue = []) : SysInv c (waitAgain s) :=
  ⟨by show s.now ≤ max s.next s.now + c.slack; omega, Nat.le_trans h.next h.since, Nat.le_trans h.next h.since, Nat.le_refl _,
    fun e he => (by rw [show (waitAgain s).queue = s.queue from rfl, hq] at he; cases he), h.kept⟩

theorem sysInv_step {c : Cfg} (hc : c.syslog = true) {s s' : St} (h : SysInv c s) {a : Act} (hs : step c s a = some s') : SysInv c s' := by
  cases a with
  | tick d =>
    simp only [step] at hs
    split at hs
    · rename_i hle
      cases hs
      exact ⟨hle, h.next, h.deadline, Nat.le_trans h.since (Nat.le_add_right _ _),
        fun e he => ⟨(h.due e he).1, Nat.le_trans (h.due e he).2 (Nat.le_add_right _ _)⟩, h.kept⟩
    · cases hs
  | push full =>
    cases hs
    refine ⟨h.late, h.next, h.deadline, h.since, fun e he => ?_, h.kept⟩
    rcases List.mem_append.1 he with he | he
    · exact h.due e he
    · rw [List.mem_singleton.1 he]; exact ⟨h.since, Nat.le_refl _⟩
  | flush cas => cases hs; exact (sysInv_flush hc h cas).1
  | async => cases hs; exact ⟨h.late, h.next, h.deadline, h.since, h.due, h.kept⟩
  | wake cas =>
    simp only [step] at hs
    split at hs
    · have := h.deadline
      have := h.since
      omega
    · cases hs
  | timeout cas =>
    simp only [step] at hs
    split at hs
    · cases hs
      have := sysInv_flush hc h cas
      have hi : SysInv c { flush c cas s with timeouts := s.timeouts + 1 } :=
        ⟨this.1.late, this.1.next, this.1.deadline, this.1.since, this.1.due, this.1.kept⟩
      exact sysInv_wait hi this.2
    · cases hs

theorem sys_reach {c : Cfg} (hc : c.syslog = true) {s : St} (h : Reach c s) : SysInv c s := by
  induction h with
  | init t =>
    exact ⟨by show t ≤ max t t + c.slack; omega, Nat.le_refl _, Nat.le_refl _, Nat.le_refl _, fun e he => (by cases he), fun p hp => (by cases hp)⟩
  | step a _ hs ih => exact sysInv_step hc ih hs

/-- A syslog sink writes each event as soon as its worker gets to run, whatever the latency is. -/
theorem C75_syslog_at_once_partial {c : Cfg} (hc : c.syslog = true) {s : St} (h : Reach c s) :
    (∀ p ∈ s.written, p.2 ≤ p.1.at_ + c.slack) ∧ ∀ e ∈ s.queue, s.now ≤ e.at_ + c.slack := by
  have hi := sys_reach hc h
  refine ⟨fun p hp => (hi.kept p hp).2, fun e he => ?_⟩
  have := hi.due e he
  have := hi.late
  have := hi.deadline
  omega

/-- **C75 is false** for an idle syslog sink: in every reachable state `wait_until` of its worker returns at once -- the deadline has passed
and is never moved --, so that for every `n` it runs through its loop `n` times without any time passing and with nothing to do. -/
theorem C75_busy_refuted {c : Cfg} (hc : c.syslog = true) {s : St} (h : Reach c s) :
    s.deadline ≤ s.now ∧ (∀ cas, step c s (.wake cas) = none) ∧
    ∀ n, ∃ s', run c (List.replicate n (.timeout true)) s = some s' ∧ s'.timeouts = s.timeouts + n ∧ s'.now = s.now := by
  have hd : ∀ {s}, Reach c s → s.deadline ≤ s.now := fun h => Nat.le_trans (sys_reach hc h).deadline (sys_reach hc h).since
  refine ⟨hd h, fun cas => ?_, fun n => ?_⟩
  · simp only [step]
    rw [if_neg (Nat.not_lt.2 (hd h))]
  · induction n generalizing s with
    | zero => exact ⟨s, rfl, rfl, rfl⟩
    | succ n ih =>
      have hst : step c s (.timeout true) = some (waitAgain { flush c true s with timeouts := s.timeouts + 1 }) := by
        simp only [step]
        rw [if_pos (hd h)]
      obtain ⟨s', h1, h2, h3⟩ := ih (.step _ h hst)
      refine ⟨s', ?_, ?_, ?_⟩
      · rw [List.replicate_succ, run, hst]; exact h1
      · rw [h2]; show s.timeouts + 1 + n = _; omega
      · rw [h3]; exact (flush_now true).1

example : ∃ s, Reach ⟨true, 1000, 5⟩ s ∧ s.written = [(⟨2, 0⟩, 7)] :=
  ⟨_, run_reach (.init 0) (as := [.tick 2, .timeout true, .push false, .tick 5, .timeout true]) rfl, rfl⟩

end Timed
end Soralog
