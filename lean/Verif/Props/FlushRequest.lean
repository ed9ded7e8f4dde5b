import Verif.Proofs.FlushRequest
import Verif.Props.Deliver
/-!
# C104: does a requested flush bring the log to the operating system?

`inTheSystem s` is what the operating system has been given (Spec/FlushRequest.lean).  `(R n).needFlush = true`: a request made by
`async_flush()`, by the high-water mark or by `rotate()` is pending.
-/
namespace Soralog
namespace SinkFull
open SinkConc (Cfg Ch workerTid)

/-- **C104**, the true part: console or file sink with a worker, any number of clients, any calls, an endless fair execution.  A request is
pending at moment `n`, and then or later some accepted event is not yet handed to the stream: everything handed over before `n` reaches
the operating system some time later.  (No spurious failure of the exchange; the spin lock starves nobody; waits end.) -/
theorem C104_requested_partial {c : Cfg} {σ : Nat → Deed} {R : Nat → St} (h : Endless c true σ R) (hcap : 0 < c.capacity)
    (hl : NobodyStarves R) (hl0 : c.latency0 = false) (hw : WaitsEnd R) (hc : NoSpuriousFailure σ) (hk : c.isSyslog = false)
    (n : Nat) (hn : (R n).needFlush = true) (j : Nat) (hj : n ≤ j) (hq : (R j).written ≠ accepted (R j)) :
    ∃ m, n ≤ m ∧ (R n).written.flatMap c.render <+: inTheSystem (R m) := h.request_served hcap hl hl0 hw hc hk hn hj hq

/-- **C104**, after `async_flush()`: the request is pending when the call has returned. -/
theorem C104_request_pending (c : Cfg) (s : St) (hl0 : c.latency0 = false) (t : Tid) (ch : Ch) (hi : s.pc t = .idle) :
    (step c (setPc s t (startPC .asyncFlush)) t ch).needFlush = true ∧ (step c (setPc s t (startPC .asyncFlush)) t ch).pc t = .idle := by
  have hp : (setPc s t (startPC .asyncFlush)).pc t = .async := by simp [setPc, upd, startPC]
  unfold step; simp only [hp]; rw [if_neg (by rw [hl0]; simp)]
  exact ⟨rfl, by simp [setPc, upd]⟩

/-- **C104 is false of the code** when nothing is queued.  Console or file sink, nobody inside a call, the worker waits (or there is none),
everything accepted has been handed to the stream and no rotation is pending: however often and from however many threads `flush()` and
`async_flush()` are called, and whatever the worker does, nothing more reaches the operating system. -/
theorem C104_empty_refuted (c : Cfg) (hcap : 0 < c.capacity) (hk : c.isSyslog = false) (s : St) (h : Reach c true s)
    (hi : ∀ t, s.pc t = .idle ∨ s.pc t = .wWait ∨ s.pc t = .wExit) (ho : s.owner = none) (hr : s.needRotate = false) (ha : s.written = accepted s)
    (s' : St) (hs : OnlyFlushes c s s') : inTheSystem s' = inTheSystem s ∧ s'.written = s.written := by
  have h0 : Drained c s s := by
    refine ⟨h, ha, hr, ho, fun t => ?_, ⟨rfl, rfl, rfl⟩⟩
    rcases hi t with e | e | e <;> rw [e] <;> rfl
  have h1 := h0.only hcap hk hs
  exact ⟨by unfold inTheSystem; rw [h1.same.1, h1.same.2.1], h1.same.2.2⟩

/-- **C104 is false of the code** for zero latency.  Console or file sink with latency 0, nobody inside a call: as long as the buffer of
the stream does not overflow and nobody rotates or destroys the sink, nothing reaches the operating system, whatever is pushed and however
often `flush()` and `async_flush()` are called: no request is ever made, so the stream is never flushed. -/
theorem C104_zero_latency_refuted (c : Cfg) (hcap : 0 < c.capacity) (hl0 : c.latency0 = true) (s : St) (h : Reach c true s)
    (hi : ∀ t, s.pc t = .idle ∨ s.pc t = .wExit) (ho : s.owner = none) (hr : s.needRotate = false)
    (s' : St) (hs : NoOverflow c s s') : inTheSystem s' = inTheSystem s := by
  have h0 : Kept c s s := by
    refine ⟨h, hr, ho, fun t => ?_, ⟨rfl, rfl⟩⟩
    rcases hi t with e | e <;> rw [e] <;> exact ⟨by simp, by simp⟩
  have h1 := Kept.run hcap hl0 hs h0
  unfold inTheSystem; rw [h1.same.1, h1.same.2]

/-! ### the theorems apply -/

/-- Thread 2 has pushed "a", the worker has handed it to the stream and waits again; nobody is inside a call. -/
def handedActs : List Act := [.call 2 (.push (SinkConc.ev ['a'])), .run 2 12, .run 0 16]

def handedState : St := (exec (cfg2 .file false) handedActs (init (cfg2 .file false) true)).get (by rfl)

theorem handed_facts : handedState.pc 0 = .wWait ∧ handedState.pc 2 = .idle ∧ handedState.owner.isNone = true ∧ handedState.needRotate = false ∧
    handedState.written = accepted handedState ∧ handedState.written.length = 1 ∧ inTheSystem handedState = [] ∧ handedState.sbuf = ['a', '\n'] := by
  decide +kernel

theorem handed_reach : Reach (cfg2 .file false) true handedState := exec_reach .init (Option.some_get _).symm

theorem handed_other {t : Tid} (h0 : t ≠ 0) (h2 : t ≠ 2) : handedState.pc t = .idle := by
  have : handedState.pc t = (init (cfg2 .file false) true).pc t :=
    exec_others (c := cfg2 .file false) (s := init (cfg2 .file false) true) (s' := handedState) (as := handedActs) (Option.some_get _).symm t (by
      intro a ha
      have : a.who = 0 ∨ a.who = 2 := by
        simp [handedActs] at ha; rcases ha with rfl | rfl | rfl <;> simp [Act.who]
      rcases this with e | e <;> rw [e] <;> assumption)
  rw [this]; show (if t = workerTid then _ else _) = _; exact if_neg h0

attribute [irreducible] handedState

theorem handed_idle (t : Tid) : handedState.pc t = .idle ∨ handedState.pc t = .wWait ∨ handedState.pc t = .wExit := by
  by_cases h0 : t = 0
  · subst h0; exact .inr (.inl handed_facts.1)
  · by_cases h2 : t = 2
    · subst h2; exact .inl handed_facts.2.1
    · exact .inl (handed_other h0 h2)

/-! `C104_empty_refuted` applies to it: the record is in the stream's buffer, not in the system, and stays there. -/
example : Reach (cfg2 .file false) true handedState ∧ (∀ t, handedState.pc t = .idle ∨ handedState.pc t = .wWait ∨ handedState.pc t = .wExit) ∧
    handedState.owner = none ∧ handedState.needRotate = false ∧ handedState.written = accepted handedState ∧ handedState.sbuf ≠ [] ∧
    inTheSystem handedState = [] :=
  ⟨handed_reach, handed_idle, Option.isNone_iff_eq_none.1 handed_facts.2.2.1, handed_facts.2.2.2.1, handed_facts.2.2.2.2.1,
   (by rw [handed_facts.2.2.2.2.2.2.2]; simp), handed_facts.2.2.2.2.2.2.1⟩

/-- there thread 2 calls `async_flush()`, and the call has returned -/
def asked : St := step (cfg2 .file false) (setPc handedState 2 (startPC .asyncFlush)) 2 SinkConc.calmCh

theorem asked_only : OnlyFlushes (cfg2 .file false) handedState asked :=
  .step (.asyncFlush (.refl _) 2 (by decide) handed_facts.2.1) 2 _

theorem solo_only {c : Cfg} {t : Tid} {s0 s : St} (h : OnlyFlushes c s0 s) (n : Nat) : OnlyFlushes c s0 (solo c t s n) := by
  induction n with
  | zero => exact h
  | succ n ih => exact .step ih t _

theorem asked_reach : Reach (cfg2 .file false) true asked :=
  .next (.next handed_reach (.call _ 2 (by decide) handed_facts.2.1 (Option.isNone_iff_eq_none.1 handed_facts.2.2.1) _)) (.step _ 2 _)

theorem asked_pending : asked.needFlush = true ∧ asked.pc 2 = .idle :=
  C104_request_pending (cfg2 .file false) handedState rfl 2 SinkConc.calmCh handed_facts.2.1

theorem asked_idle {u : Tid} (hu : u ≠ 0) : asked.pc u = .idle := by
  by_cases h2 : u = 2
  · subst h2; exact asked_pending.2
  · unfold asked
    rw [Race.step_pc_other _ _ _ _ u h2]
    show upd _ _ _ _ = _
    rw [upd, if_neg h2]; exact handed_other hu h2

/-- the worker alone goes on from here, from a state in which the clients are outside -/
theorem worker_goes_on {s : St} (hr : Reach (cfg2 .file false) true s) (hi : ∀ u, u ≠ 0 → s.pc u = .idle) :
    Endless (cfg2 .file false) true (fun _ => .step 0 SinkConc.calmCh) (solo (cfg2 .file false) 0 s) ∧
    NobodyStarves (solo (cfg2 .file false) 0 s) ∧ WaitsEnd (solo (cfg2 .file false) 0 s) := by
  have he := solo_endless (c := cfg2 .file false) (o := true) (t := 0) hr (fun u hu h => h.1 (hi u hu))
  refine ⟨he, alone_lock (t := 0) he (by decide) fun n u hu => (solo_ring hu n).trans ?_, fun n hn => ⟨n + 1, by omega, ?_⟩⟩
  · obtain ⟨a, hra, _, base, hR⟩ := rel_refines (c := cfg2 .file false) (by decide) hr
    exact not_inQueue (hR.pcs u) (by rw [hi u hu]; rfl)
  · have : (solo (cfg2 .file false) 0 s (n + 1)).pc workerTid = .enter .worker := by
      show (step _ (solo (cfg2 .file false) 0 s n) 0 SinkConc.calmCh).pc workerTid = _
      unfold step; simp only [show (solo (cfg2 .file false) 0 s n).pc 0 = .wWait from hn]
      rw [if_pos (by rfl)]; rfl
    rw [this]; simp

/-- **C104 is false of the code** as an endless execution: `async_flush()` has returned, the request is pending, the scheduler is fair, the
worker's waits end and no exchange fails spuriously, and yet the record written before the call never reaches the operating system. -/
theorem C104_refuted : ¬ ∀ (c : Cfg) (σ : Nat → Deed) (R : Nat → St), Endless c true σ R → 0 < c.capacity → NobodyStarves R → WaitsEnd R →
    NoSpuriousFailure σ → c.isFile = true → c.latency0 = false → ∀ n, (R n).needFlush = true →
    ∃ m, n ≤ m ∧ (R n).written.flatMap c.render <+: inTheSystem (R m) := by
  intro h
  obtain ⟨h1, h2, h3⟩ := worker_goes_on asked_reach (fun u hu => asked_idle hu)
  obtain ⟨m, _, hm⟩ := h (cfg2 .file false) _ _ h1 (by decide) h2 h3 (fun n t ch e => by injection e with _ e; rw [← e]; rfl) rfl rfl 0 asked_pending.1
  have key : ∀ n, inTheSystem (solo (cfg2 .file false) 0 asked n) = inTheSystem handedState ∧ (solo (cfg2 .file false) 0 asked n).written = handedState.written :=
    fun n => C104_empty_refuted (cfg2 .file false) (by decide) rfl handedState handed_reach handed_idle (Option.isNone_iff_eq_none.1 handed_facts.2.2.1)
      handed_facts.2.2.2.1 handed_facts.2.2.2.2.1 _ (solo_only asked_only n)
  rw [(key m).1, (key 0).2, handed_facts.2.2.2.2.2.2.1] at hm
  have h5 := hm.length_le
  have h6 : (handedState.written.flatMap (cfg2 .file false).render).length = 2 := by decide +kernel
  rw [h6] at h5; simp at h5

/-- Thread 2 has pushed "a" and the worker has handed it over; then thread 2 has pushed "b" and called `async_flush()`. -/
def busyActs : List Act := handedActs ++ [.call 2 (.push (SinkConc.ev ['b'])), .run 2 12, .call 2 .asyncFlush, .run 2 1]

def busyState : St := (exec (cfg2 .file false) busyActs (init (cfg2 .file false) true)).get (by rfl)

theorem busy_facts : busyState.pc 2 = .idle ∧ busyState.needFlush = true ∧ busyState.written.map (·.message) = [['a']] ∧
    (accepted busyState).map (·.message) = [['a'], ['b']] ∧ inTheSystem busyState = [] ∧
    inTheSystem (solo (cfg2 .file false) 0 busyState 30) = ['a', '\n', 'b', '\n'] := by
  decide +kernel

theorem busy_idle {u : Tid} (hu : u ≠ 0) : busyState.pc u = .idle := by
  by_cases h2 : u = 2
  · subst h2; exact busy_facts.1
  · have : busyState.pc u = (init (cfg2 .file false) true).pc u :=
      exec_others (c := cfg2 .file false) (s := init (cfg2 .file false) true) (s' := busyState) (as := busyActs) (Option.some_get _).symm u (by
        intro a ha
        have : a.who = 0 ∨ a.who = 2 := by
          simp [busyActs, handedActs] at ha; rcases ha with rfl | rfl | rfl | rfl | rfl | rfl | rfl <;> simp [Act.who]
        rcases this with e | e <;> rw [e] <;> assumption)
    rw [this]; show (if u = workerTid then _ else _) = _; exact if_neg hu

/-! `C104_requested_partial` applies to the execution in which the worker goes on from there. -/
example : Endless (cfg2 .file false) true (fun _ => .step 0 SinkConc.calmCh) (solo (cfg2 .file false) 0 busyState) ∧
    NobodyStarves (solo (cfg2 .file false) 0 busyState) ∧ WaitsEnd (solo (cfg2 .file false) 0 busyState) ∧
    NoSpuriousFailure (fun _ => .step 0 SinkConc.calmCh) ∧ (solo (cfg2 .file false) 0 busyState 0).needFlush = true ∧
    (solo (cfg2 .file false) 0 busyState 0).written ≠ accepted (solo (cfg2 .file false) 0 busyState 0) := by
  obtain ⟨h1, h2, h3⟩ := worker_goes_on (s := busyState) (exec_reach .init (Option.some_get _).symm) (fun u hu => busy_idle hu)
  refine ⟨h1, h2, h3, (fun n t ch e => by injection e with _ e; rw [← e]; rfl), busy_facts.2.1, fun e => ?_⟩
  have h4 : busyState.written = accepted busyState := e
  have h5 := busy_facts.2.2.2.1
  rw [← h4, busy_facts.2.2.1] at h5
  cases h5

/-! `C104_zero_latency_refuted` applies to a new sink: "a" is pushed, then `async_flush()` is called and returns; the record has been handed
to the stream and the system has nothing. -/
example : (∀ t, (init (cfg2 .file true) true).pc t = .idle ∨ (init (cfg2 .file true) true).pc t = .wExit) ∧
    ∃ s, exec (cfg2 .file true) [.call 1 (.push (SinkConc.ev ['a'])), .run 1 40, .call 1 .asyncFlush, .run 1 40] (init (cfg2 .file true) true) = some s ∧
      s.pc 1 = .idle ∧ s.written = [SinkConc.ev ['a']] ∧ inTheSystem s = [] := by
  refine ⟨fun t => ?_, _, rfl, rfl, rfl, rfl⟩
  show (if t = workerTid then _ else _) = _ ∨ (if t = workerTid then _ else _) = _
  by_cases e : t = workerTid
  · rw [if_pos e]; exact .inr rfl
  · rw [if_neg e]; exact .inl rfl

end SinkFull
end Soralog
