import Verif.Proofs.ManyFairRun
import Verif.Props.ManyLock
/-!
# C102: a program that stops logging comes to rest, and its log is complete

`Many.Lock`: any number of threads, one logging system with its mutex, sinks executed down to the atomic accesses of their queues.
`Endless S σ R`: the states `R 0, R 1, …` of an endless execution under a fair scheduler; `σ n` is what happens between `R n` and `R (n + 1)`
(Spec/ManyFair.lean).
-/
namespace Soralog
namespace Many
namespace Lock
open Spec
open SinkConc (workerTid)

theorem last_from {S : Setup} {σ : Nat → Deed} {R : Nat → St} (h : Endless S σ R) {N : Nat} (hN : NoMoreCalls σ N) (hk : SinksKept S (R N).prog) :
    Last S (fun n => σ (N + n)) (fun n => R (N + n)) := ⟨h.shift N, fun n => hN _ (by omega), hk⟩

theorem NobodyStarves.shift {R : Nat → St} (h : NobodyStarves R) (N : Nat) : NobodyStarves fun n => R (N + n) := by
  intro i n t hp
  obtain ⟨m, h1, h2⟩ := h i (N + n) t hp
  exact ⟨m - N, by omega, by dsimp only; rw [show N + (m - N) = m by omega]; exact h2⟩

theorem WaitsEnd.shift {R : Nat → St} (h : WaitsEnd R) (N : Nat) : WaitsEnd fun n => R (N + n) := by
  intro i n hp
  obtain ⟨m, h1, h2⟩ := h i (N + n) hp
  exact ⟨m - N, by omega, by dsimp only; rw [show N + (m - N) = m by omega]; exact h2⟩

theorem StoresSeen.shift {σ : Nat → Deed} (h : StoresSeen σ) (N : Nat) : StoresSeen fun n => σ (N + n) := by
  obtain ⟨K, hK⟩ := h
  exact ⟨K, fun n hn => hK _ (by omega)⟩

/-- **C102**, rest: in every endless fair execution in which the spin locks starve nobody, the workers' waits end and stores become visible, if from
some moment on no call is started and no pending call uses a destroyed sink, then there is a moment after which no client is inside any call: not of
the logging system, not of `configure`, not of a logger, not of a sink, not of the destructor of a sink; and nobody holds the mutex. -/
theorem C102_comes_to_rest (S : Setup) (hS : ∀ i, 0 < (S.leaf i).conc.capacity) (σ : Nat → Deed) (R : Nat → St) (h : Endless S σ R)
    (hl : NobodyStarves R) (hw : WaitsEnd R) (hv : StoresSeen σ) (N : Nat) (hN : NoMoreCalls σ N) (hk : SinksKept S (R N).prog) :
    ∃ m, N ≤ m ∧ ∀ k, m ≤ k → (∀ t, t ≠ workerTid → AtRest (R k) t) ∧ (R k).busy = none ∧ (R k).conf = none := by
  obtain ⟨M, hM⟩ := (last_from h hN hk).to_rest hS (hl.shift N) (hw.shift N) (hv.shift N)
  refine ⟨N + M, by omega, fun k hkM => ?_⟩
  have hall : ∀ t, t ≠ workerTid → AtRest (R k) t := fun t ht => by
    have := hM (k - N) (by omega) t ht
    rw [show N + (k - N) = k by omega] at this; exact this
  refine ⟨hall, ?_, ?_⟩
  · cases hb : (R k).busy with
    | none => rfl
    | some u => exact absurd hb ((hall u fun e => (holders (h.reach k)).1 (e ▸ hb)).2.2.1)
  · cases hb : (R k).conf with
    | none => rfl
    | some u => exact absurd hb ((hall u fun e => (holders (h.reach k)).2 (e ▸ hb)).2.2.2)

/-- **C102**, the log: under the same assumptions there is a moment after which an opened sink with a worker has handed to its stream (to `syslog()`)
exactly the records of events `w` that are, for every thread, the messages this thread addressed to the sink: all of them, in order, each once. -/
theorem C102_log_complete (S : Setup) (hS : S.Sound) (σ : Nat → Deed) (R : Nat → St) (h : Endless S σ R)
    (hl : NobodyStarves R) (hw : WaitsEnd R) (hv : StoresSeen σ) (N : Nat) (hN : NoMoreCalls σ N) (hk : SinksKept S (R N).prog)
    (i : Nat) (ho : (S.leaf i).opened = true) (hl0 : (S.leaf i).conc.latency0 = false) :
    ∃ m, N ≤ m ∧ ∀ k, m ≤ k → ∃ w : List (Tid × Event),
      (∀ t, Matches (EventOf (S.leaf i)) (ofThread t w) (addressed S t i (R k).prog.said)) ∧
      ((S.leaf i).conc.isSyslog = false →
        ((R k).prog.leaf i).gens.flatten ++ ((R k).prog.leaf i).dev ++ ((R k).prog.leaf i).sbuf = w.flatMap (fun x => (S.leaf i).conc.render x.2)) ∧
      ((S.leaf i).conc.isSyslog = true → ((R k).prog.leaf i).calls.map (·.1) = w.filterMap (fun x => syslogPriority x.2.level)) := by
  obtain ⟨M, hNM, hM⟩ := C102_comes_to_rest S hS.room σ R h hl hw hv N hN hk
  have hkM : SinksKept S (R M).prog := by
    have := (last_from h hN hk).kept_at (M - N)
    rw [show N + (M - N) = M by omega] at this; exact this
  obtain ⟨K, hK⟩ := (last_from h (N := M) (fun n hn => hN n (by omega)) hkM).complete hS (hl.shift M) (hw.shift M)
    (fun n t ht => (hM (M + n) (by omega)).1 t ht) ho hl0
  refine ⟨M + K, by omega, fun k hk' => ?_⟩
  have hwr := hK (k - M) (by omega)
  rw [show M + (k - M) = k by omega] at hwr
  have hr := reach_prog (h.reach k)
  have hleaf := leaf_reach hr i
  rw [ho] at hleaf
  refine ⟨acceptedBy ((R k).prog.leaf i), fun t => accepted_all hS hr (fun t ht => ((hM k (by omega)).1 t ht).2.1) i t, fun hsy => ?_, fun hsy => ?_⟩
  · rw [(SinkFull.C72_exactly_once_in_order _ (hS.room i) _ hleaf).2.2 hsy, hwr, ← acceptedBy_map, List.flatMap_map]
  · obtain ⟨a, ha, hput, _, hwrit, _, _, _, hcalls, _⟩ := SinkFull.C72_same_observations _ true (hS.room i) _ hleaf
    have := SinkConc.calls_reach ha hsy
    rw [hcalls, hwrit, hwr, ← acceptedBy_map, List.filterMap_map] at this
    rw [this]
    simp only [Sink.priority_eq]
    rfl

theorem Last.owner_stays {S : Setup} {σ : Nat → Deed} {R : Nat → St} (h : Last S σ R) (i : Nat) (n : Nat) :
    ((R n).prog.leaf i).owner = ((R 0).prog.leaf i).owner := by
  obtain ⟨σ', h1, _, _, h4⟩ := h.leafRun i
  induction n with
  | zero => rfl
  | succ n ih =>
    have hd := h1.next n
    cases hc : σ' n with
    | call u c => rw [hc] at hd; rw [hd.2.2.2]; exact ih
    | destroy u => exact absurd hc (h4 _ _)
    | rest => rw [hc] at hd; rw [show (R (n + 1)).prog.leaf i = _ from hd]; exact ih
    | step u ch => rw [hc] at hd; rw [show (R (n + 1)).prog.leaf i = SinkFull.step _ _ u ch from hd, leaf_owner_step]; exact ih

/-- **C102**, the log of a file that is being destroyed: under the same assumptions, if the destructor of an opened file sink with a worker has been started,
there is a moment after which it has returned and the operating system has exactly the records of events `w` that are, for every thread, the messages
this thread addressed to the sink: all of them, in order, each once. -/
theorem C102_destroyed_complete (S : Setup) (hS : S.Sound) (σ : Nat → Deed) (R : Nat → St) (h : Endless S σ R)
    (hl : NobodyStarves R) (hw : WaitsEnd R) (hv : StoresSeen σ) (N : Nat) (hN : NoMoreCalls σ N) (hk : SinksKept S (R N).prog)
    (i : Nat) (ho : (S.leaf i).opened = true) (hl0 : (S.leaf i).conc.latency0 = false) (hf : (S.leaf i).conc.isFile = true) (d : Tid)
    (hd : ((R N).prog.leaf i).owner = some d) :
    ∃ m, N ≤ m ∧ ∀ k, m ≤ k → ((R k).prog.leaf i).pc d = .dead ∧ ∃ w : List (Tid × Event),
      (∀ t, Matches (EventOf (S.leaf i)) (ofThread t w) (addressed S t i (R k).prog.said)) ∧
      ((R k).prog.leaf i).gens.flatten ++ ((R k).prog.leaf i).dev = w.flatMap (fun x => (S.leaf i).conc.render x.2) := by
  obtain ⟨M, hNM, hM⟩ := C102_comes_to_rest S hS.room σ R h hl hw hv N hN hk
  refine ⟨M, hNM, fun k hkM => ?_⟩
  have hr := reach_prog (h.reach k)
  have hleaf := leaf_reach hr i
  have hown : ((R k).prog.leaf i).owner = some d := by
    have := (last_from h hN hk).owner_stays i (k - N)
    rw [show N + (k - N) = k by omega] at this
    exact this.trans hd
  have hdead : ((R k).prog.leaf i).pc d = .dead := by
    obtain ⟨a, ha, hrel⟩ := SinkFull.rel_refines (hS.room i) hleaf
    have hao : a.owner = ((R k).prog.leaf i).owner := by obtain ⟨he, _⟩ := hrel; rw [he]; rfl
    obtain ⟨h1, h2, _⟩ := (SinkConc.roles_reach ha).owner d (hao.trans hown)
    refine (((hM k hkM).1 d h1).2.1.2 i).resolve_left fun hi => ?_
    rw [SinkFull.rel_simple_pc hrel (t := d) (q := .idle) (by rw [hi]; rfl)] at h2
    cases h2
  rw [ho] at hleaf
  refine ⟨hdead, acceptedBy ((R k).prog.leaf i), fun t => accepted_all hS hr (fun t ht => ((hM k hkM).1 t ht).2.1) i t, ?_⟩
  rw [(SinkFull.C72_destructor_writes_all _ (hS.room i) _ hleaf hl0 d hown hdead).2 hf, ← acceptedBy_map, List.flatMap_map]

/-- **C102**, the assumptions can always be met: from any moment of any execution at which no pending call uses a destroyed sink there is an endless
execution that keeps all of them. -/
theorem C102_can_go_on (S : Setup) (hS : ∀ i, 0 < (S.leaf i).conc.capacity) (s : St) (hr : Reach S s) (hk : SinksKept S s.prog) :
    ∃ σ R, R 0 = s ∧ Endless S σ R ∧ NobodyStarves R ∧ WaitsEnd R ∧ StoresSeen σ ∧ NoMoreCalls σ 0 := by
  obtain ⟨σ, R, h1, h2⟩ := good_exists hS hr hk
  exact ⟨σ, R, h2, h1.run, h1.lock, h1.waits, h1.seen, h1.quiet⟩

/-- the hypotheses of the theorems above, from a moment at which thread 2 holds the mutex and the lock of a queue, thread 3 waits for the mutex and
thread 1 for the lock of the queue; sinks 0 and 1 are opened and have workers -/
example : ∃ σ R, R 0 = lockState ∧ Endless exampleSetup σ R ∧ NobodyStarves R ∧ WaitsEnd R ∧ StoresSeen σ ∧ NoMoreCalls σ 0 ∧
    SinksKept exampleSetup (R 0).prog ∧ exampleSetup.Sound ∧ (exampleSetup.leaf 0).opened = true ∧ (exampleSetup.leaf 0).conc.latency0 = false ∧
    ¬ AtRest (R 0) 1 ∧ ¬ AtRest (R 0) 2 ∧ ¬ AtRest (R 0) 3 ∧ (addressed exampleSetup 1 0 (R 0).prog.said).length = 1 := by
  have hk : SinksKept exampleSetup lockState.prog := fun t i _ => lockState_owner i
  obtain ⟨σ, R, h0, h⟩ := C102_can_go_on exampleSetup example_sound.room lockState lockState_reach.1 hk
  refine ⟨σ, R, h0, h.1, h.2.1, h.2.2.1, h.2.2.2.1, h.2.2.2.2, ?_, example_sound, rfl, rfl, ?_⟩
  · rw [h0]; exact hk
  · rw [h0]
    refine ⟨fun h => ?_, fun h => ?_, fun h => ?_, by decide +kernel⟩
    · exact absurd h.1 (by decide +kernel)
    · exact absurd h.2.2.1 (by decide +kernel)
    · exact absurd h.1 (by decide +kernel)

/-- the hypotheses of `C102_destroyed_complete`, from the moment at which thread 1 waits for the worker of the sink it destroys -/
example : ∃ σ R, R 0 = replaceState ∧ Endless exampleSetup σ R ∧ NobodyStarves R ∧ WaitsEnd R ∧ StoresSeen σ ∧ NoMoreCalls σ 0 ∧
    SinksKept exampleSetup (R 0).prog ∧ exampleSetup.Sound ∧ (exampleSetup.leaf 0).opened = true ∧ (exampleSetup.leaf 0).conc.latency0 = false ∧
    (exampleSetup.leaf 0).conc.isFile = true ∧ ((R 0).prog.leaf 0).owner = some 1 ∧ ((R 0).prog.leaf 0).pc 1 = .dJoin := by
  have hrun : lrun replaceActs lockStart = some replaceState := (Option.some_get _).symm
  obtain ⟨hr, ht⟩ := lrun_reach (.init true id fun _ => .refl _) initial_tail hrun
  have hk : SinksKept exampleSetup replaceState.prog := by
    rintro t i (⟨q, hq, _⟩ | ⟨l, k, hl, _⟩)
    · exfalso
      have : replaceState.prog.todo t = [] := by
        by_cases h4 : 4 ≤ t
        · exact ht.todo t h4
        · have : t = 0 ∨ t = 1 ∨ t = 2 ∨ t = 3 := by
            have key : ∀ n : Nat, ¬ 4 ≤ n → n = 0 ∨ n = 1 ∨ n = 2 ∨ n = 3 := by intro n; omega
            exact key t h4
          rcases this with e | e | e | e <;> (rw [e]; decide +kernel)
      rw [this] at hq; cases hq
    · exfalso
      have hx := log_exists (sys_reach (reach_prog hr)) t
      have hn : replaceState.prog.sys.sys.nloggers = 0 := by decide +kernel
      generalize replaceState.prog.sys.pc t = p at hx hl
      cases p <;> cases hl <;> exact absurd hx (by show ¬ _ < _; rw [hn]; exact Nat.not_lt_zero _)
  obtain ⟨σ, R, h0, h⟩ := C102_can_go_on exampleSetup example_sound.room replaceState hr hk
  refine ⟨σ, R, h0, h.1, h.2.1, h.2.2.1, h.2.2.2.1, h.2.2.2.2, ?_, example_sound, rfl, rfl, rfl, ?_⟩
  · rw [h0]; exact hk
  · rw [h0]; exact ⟨by decide +kernel, by decide +kernel⟩

end Lock
end Many
end Soralog
