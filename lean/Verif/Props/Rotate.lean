import Verif.Proofs.ManyBusy
import Verif.Props.FlushRequest
/-!
# C109: is a requested rotation carried out?

`reopened s` counts how often the file of sink `s` has been re-opened (Spec/Rotate.lean); `(R n).needRotate = true`: a request made by `rotate()`
is pending.
-/
namespace Soralog
namespace SinkFull
open SinkConc (Cfg Ch workerTid)

/-- **C109**, the request: a thread that has called `rotate()` of a file sink has made the request with its first step. -/
theorem C109_request_pending (c : Cfg) (s : St) (hf : c.isFile = true) (t : Tid) (ch : Ch) :
    (step c (setPc s t (startPC .rotate)) t ch).needRotate = true := by
  have hp : (setPc s t (startPC .rotate)).pc t = .rotate := by simp [setPc, upd, startPC]
  unfold step; simp only [hp]; rw [if_pos hf]; rfl

/-- **C109**, one sink: a file sink that was opened and has a worker, any number of clients that make any calls for ever, an endless fair execution
in which nobody destroys the sink.  A request that is pending is carried out: the file is re-opened after that.  (No spurious failure of the
exchanges, re-opening succeeds; the spin lock starves nobody; waits end.) -/
theorem C109_worker_rotates_partial {c : Cfg} {σ : Nat → Deed} {R : Nat → St} (h : Endless c true σ R) (hcap : 0 < c.capacity)
    (hl : NobodyStarves R) (hl0 : c.latency0 = false) (hw : WaitsEnd R) (hc : NoSpuriousFailure σ) (hop : CanReopen σ) (hf : c.isFile = true)
    (ho : ∀ n, (R n).owner = none) (n : Nat) (hn : (R n).needRotate = true) : ∃ m, n < m ∧ reopened (R n) < reopened (R m) :=
  h.worker_rotates hcap hl hl0 hw hc hop hf ho hn

/-- **C109**, by a user: any file sink, with or without a worker, opened or not.  A request is pending, nobody is inside `flush`, and then or later a
thread calls `flush()`: the file is re-opened. -/
theorem C109_flush_rotates_partial {c : Cfg} {o : Bool} {σ : Nat → Deed} {R : Nat → St} (h : Endless c o σ R) (hcap : 0 < c.capacity)
    (hl : NobodyStarves R) (hc : NoSpuriousFailure σ) (hop : CanReopen σ) (hf : c.isFile = true)
    (n : Nat) (hn : (R n).needRotate = true) (hfl : (R n).flag = false) (m : Nat) (hm : n ≤ m) (t : Tid) (hp : σ m = .call t .flush) :
    ∃ m', n < m' ∧ reopened (R n) < reopened (R m') := by
  refine h.flush_rotates hcap hl hc hop hf hn hfl (m := m + 1) (by omega) (t := t) (k := .done) ?_
  have := h.next m
  rw [hp] at this
  obtain ⟨_, _, _, h4⟩ := this
  rw [h4]; simp [setPc, upd, startPC]

theorem solo_still {c : Cfg} {t : Tid} {s : St} (hp : s.pc t = .wExit) (n : Nat) : solo c t s n = s := by
  induction n with
  | zero => rfl
  | succ n ih =>
    show step c (solo c t s n) t _ = s
    rw [ih]
    unfold step; simp only [hp]

/-- a pending request that nobody is going to carry out -/
theorem never_rotates {c : Cfg} {o : Bool} (hcap : 0 < c.capacity) (hf : c.isFile = true) {s : St} (hr : Reach c o s) (hi : ∀ u, u ≠ 0 → s.pc u = .idle) (h0 : s.pc 0 = .wExit)
    (ho : s.owner = none) (hn : s.needRotate = true)
    (h : ∀ (σ : Nat → Deed) (R : Nat → St), Endless c o σ R → NobodyStarves R → WaitsEnd R → NoSpuriousFailure σ → CanReopen σ →
      (∀ n, (R n).owner = none) → ∀ n, (R n).needRotate = true → ∃ m, n < m ∧ reopened (R n) < reopened (R m)) : False := by
  have hs : ∀ n, solo c 0 s n = s := fun n => solo_still h0 n
  have he := solo_endless (c := c) (o := o) (t := 0) hr (fun u hu h => h.1 (hi u hu))
  obtain ⟨m, _, hm⟩ := h _ _ he (alone_lock (t := 0) he hcap fun n u hu => (solo_ring hu n).trans (by
      obtain ⟨a, hra, _, base, hR⟩ := rel_refines (c := c) hcap hr
      exact not_inQueue (hR.pcs u) (by rw [hi u hu]; rfl)))
    (fun n hp => by rw [hs n, show s.pc workerTid = .wExit from h0] at hp; cases hp)
    (fun n t ch e => by injection e with _ e; rw [← e]; rfl) (fun n t ch e => by injection e with _ e; rw [← e]; rfl)
    (fun n => by rw [hs n]; exact ho) 0 (by rw [hs 0]; exact hn)
  rw [hs, hs] at hm
  exact Nat.lt_irrefl _ hm

theorem exec_idle {c : Cfg} {o : Bool} {as : List Act} {s : St} (hs : exec c as (init c o) = some s) (hw : ∀ a ∈ as, a.who = 1 ∨ a.who = 2)
    (h1 : s.pc 1 = .idle) (h2 : s.pc 2 = .idle) {u : Tid} (hu : u ≠ 0) : s.pc u = .idle := by
  by_cases e1 : u = 1
  · rw [e1]; exact h1
  · by_cases e2 : u = 2
    · rw [e2]; exact h2
    · rw [exec_others hs u fun a ha => by rcases hw a ha with e | e <;> rw [e] <;> assumption]
      show (if u = workerTid then _ else _) = _; exact if_neg hu

/-- Thread 1 is at the end of `flush()`, past the exchange of the request; thread 2 calls `rotate()` and returns; thread 1 returns.  Latency zero. -/
def missedActs : List Act := [.call 1 .flush, .run 1 7, .call 2 .rotate, .run 2 3, .run 1 1]

def missedState : St := (exec (cfg2 .file true) missedActs (init (cfg2 .file true) true)).get (by rfl)

theorem missed_facts : missedState.pc 0 = .wExit ∧ missedState.pc 1 = .idle ∧ missedState.pc 2 = .idle ∧ missedState.owner.isNone = true ∧
    missedState.needRotate = true ∧ missedState.gens = [] := by
  decide +kernel

theorem missed_run : exec (cfg2 .file true) missedActs (init (cfg2 .file true) true) = some missedState := (Option.some_get _).symm

attribute [irreducible] missedState

/-- **C109 is false of the code** for zero latency: `rotate()` has returned while another thread was inside `flush()`; nobody ever re-opens the file. -/
theorem C109_zero_latency_refuted : ¬ ∀ (c : Cfg) (σ : Nat → Deed) (R : Nat → St), Endless c true σ R → 0 < c.capacity → NobodyStarves R → WaitsEnd R →
    NoSpuriousFailure σ → CanReopen σ → c.isFile = true → (∀ n, (R n).owner = none) → ∀ n, (R n).needRotate = true →
    ∃ m, n < m ∧ reopened (R n) < reopened (R m) := by
  intro h
  obtain ⟨h0, h1, h2, h3, h4, _⟩ := missed_facts
  exact never_rotates (c := cfg2 .file true) (o := true) (by decide) rfl (exec_reach .init missed_run)
    (fun u hu => exec_idle missed_run (by intro a ha; simp [missedActs] at ha; rcases ha with rfl | rfl | rfl | rfl | rfl <;> simp [Act.who]) h1 h2 hu)
    h0 (Option.isNone_iff_eq_none.1 h3) h4
    fun σ R a1 a2 a3 a4 a5 a6 => h _ σ R a1 (by decide) a2 a3 a4 a5 rfl a6

/-- The file could not be opened; thread 1 calls `rotate()` and returns. -/
def closedActs : List Act := [.call 1 .rotate, .run 1 2]

def closedState : St := (exec (cfg2 .file false) closedActs (init (cfg2 .file false) false)).get (by rfl)

theorem closed_facts : closedState.pc 0 = .wExit ∧ closedState.pc 1 = .idle ∧ closedState.pc 2 = .idle ∧ closedState.owner.isNone = true ∧
    closedState.needRotate = true ∧ closedState.isOpen = false := by
  decide +kernel

theorem closed_flag : closedState.flag = false := by decide +kernel

theorem closed_run : exec (cfg2 .file false) closedActs (init (cfg2 .file false) false) = some closedState := (Option.some_get _).symm

attribute [irreducible] closedState

/-- **C109 is false of the code** for a file that could not be opened: there is no worker, so `rotate()`, the only way to open the file, changes
nothing although re-opening would succeed. -/
theorem C109_unopened_refuted : ¬ ∀ (c : Cfg) (σ : Nat → Deed) (R : Nat → St), Endless c false σ R → 0 < c.capacity → NobodyStarves R → WaitsEnd R →
    NoSpuriousFailure σ → CanReopen σ → c.isFile = true → c.latency0 = false → (∀ n, (R n).owner = none) → ∀ n, (R n).needRotate = true →
    ∃ m, n < m ∧ reopened (R n) < reopened (R m) := by
  intro h
  obtain ⟨h0, h1, h2, h3, h4, _⟩ := closed_facts
  exact never_rotates (c := cfg2 .file false) (o := false) (by decide) rfl (exec_reach .init closed_run)
    (fun u hu => exec_idle closed_run (by intro a ha; simp [closedActs] at ha; rcases ha with rfl | rfl <;> simp [Act.who]) h1 h2 hu)
    h0 (Option.isNone_iff_eq_none.1 h3) h4
    fun σ R a1 a2 a3 a4 a5 a6 => h _ σ R a1 (by decide) a2 a3 a4 a5 rfl rfl a6

/-! ### the theorems apply -/

/-- An opened file with a worker: thread 2 has pushed "a" and called `rotate()`, and both calls have returned. -/
def pendingActs : List Act := [.call 2 (.push (SinkConc.ev ['a'])), .run 2 12, .call 2 .rotate, .run 2 2]

def pendingState : St := (exec (cfg2 .file false) pendingActs (init (cfg2 .file false) true)).get (by rfl)

theorem pending_facts : pendingState.pc 1 = .idle ∧ pendingState.pc 2 = .idle ∧ pendingState.owner.isNone = true ∧ pendingState.needRotate = true ∧
    pendingState.flag = false ∧ (solo (cfg2 .file false) 0 pendingState 30).gens = [['a', '\n']] := by
  decide +kernel

theorem pending_run : exec (cfg2 .file false) pendingActs (init (cfg2 .file false) true) = some pendingState := (Option.some_get _).symm

attribute [irreducible] pendingState

theorem pending_idle {u : Tid} (hu : u ≠ 0) : pendingState.pc u = .idle :=
  exec_idle pending_run (by intro a ha; simp [pendingActs] at ha; rcases ha with rfl | rfl | rfl | rfl <;> simp [Act.who]) pending_facts.1 pending_facts.2.1 hu

theorem solo_owner {c : Cfg} {t : Tid} {s : St} (n : Nat) : (solo c t s n).owner = s.owner := by
  induction n with
  | zero => rfl
  | succ n ih => exact (step_owner c _ t _).trans ih

/-! the hypotheses of `C109_worker_rotates_partial` -/
example : Endless (cfg2 .file false) true (fun _ => .step 0 SinkConc.calmCh) (solo (cfg2 .file false) 0 pendingState) ∧
    NobodyStarves (solo (cfg2 .file false) 0 pendingState) ∧ WaitsEnd (solo (cfg2 .file false) 0 pendingState) ∧
    NoSpuriousFailure (fun _ => .step 0 SinkConc.calmCh) ∧ CanReopen (fun _ => .step 0 SinkConc.calmCh) ∧
    (∀ n, (solo (cfg2 .file false) 0 pendingState n).owner = none) ∧ (solo (cfg2 .file false) 0 pendingState 0).needRotate = true := by
  obtain ⟨h1, h2, h3⟩ := worker_goes_on (s := pendingState) (exec_reach .init pending_run) (fun u hu => pending_idle hu)
  exact ⟨h1, h2, h3, (fun n t ch e => by injection e with _ e; rw [← e]; rfl), (fun n t ch e => by injection e with _ e; rw [← e]; rfl),
    (fun n => by rw [solo_owner]; exact Option.isNone_iff_eq_none.1 pending_facts.2.2.1), pending_facts.2.2.2.1⟩

/-- a call before an endless execution -/
theorem Endless.after_call {c : Cfg} {o : Bool} {σ : Nat → Deed} {R : Nat → St} (h : Endless c o σ R) {s : St} {t : Tid} {k : SinkConc.Call} (hr : Reach c o s)
    (hd : Does c s (.call t k) (R 0)) : Endless c o (Many.Lock.before (.call t k) σ) (Many.Lock.before s R) := by
  refine ⟨hr, fun n => ?_, fun n u hu => ?_⟩
  · cases n with
    | zero => exact hd
    | succ n => exact h.next n
  · cases n with
    | succ n => obtain ⟨m, ch, h1, h2⟩ := h.fair n u hu; exact ⟨m + 1, ch, by omega, h2⟩
    | zero =>
      obtain ⟨_, h2, _, h4⟩ := hd
      have hu : Running (s.pc u) := hu
      obtain ⟨m, ch, h1, h2⟩ := h.fair 0 u (by
        rw [h4, show (setPc s t (startPC k)).pc u = s.pc u by
          show upd _ _ _ _ = _
          rw [upd, if_neg fun e => by subst e; exact hu.1 h2]]
        exact hu)
      exact ⟨m + 1, ch, by omega, h2⟩

/-- thread 1 calls `flush()` of the file that could not be opened -/
def flushesClosed : St := setPc closedState 1 (startPC .flush)

theorem flushesClosed_reach : Reach (cfg2 .file false) false flushesClosed :=
  .next (exec_reach .init closed_run) (.call _ 1 (by decide) closed_facts.2.1 (Option.isNone_iff_eq_none.1 closed_facts.2.2.2.1) _)

theorem closed_idle {u : Tid} (hu : u ≠ 0) : closedState.pc u = .idle :=
  exec_idle closed_run (by intro a ha; simp [closedActs] at ha; rcases ha with rfl | rfl <;> simp [Act.who]) closed_facts.2.1 closed_facts.2.2.1 hu

theorem flushesClosed_other {u : Tid} (hu : u ≠ 1) : flushesClosed.pc u = closedState.pc u := by
  show upd _ _ _ _ = _
  rw [upd, if_neg hu]

theorem flushesClosed_calm {u : Tid} (hu : u ≠ 1) : flushesClosed.pc u = .idle ∨ flushesClosed.pc u = .wExit := by
  rw [flushesClosed_other hu]
  by_cases h0 : u = 0
  · rw [h0]; exact .inr closed_facts.1
  · exact .inl (closed_idle h0)

theorem before_lock {R : Nat → St} (h : NobodyStarves R) (s : St) : NobodyStarves (Many.Lock.before s R) := by
  intro n t hp
  cases n with
  | succ n => obtain ⟨m, h1, h2⟩ := h n t hp; exact ⟨m + 1, by omega, h2⟩
  | zero =>
    by_cases hq : AtLock ((R 0).ring.pc t)
    · obtain ⟨m, h1, h2⟩ := h 0 t hq; exact ⟨m + 1, by omega, h2⟩
    · exact ⟨1, by omega, hq⟩

/-! the hypotheses of `C109_flush_rotates_partial`: the file that could not be opened, and is re-opened when thread 1 calls `flush()` -/
example : ∃ σ R, Endless (cfg2 .file false) false σ R ∧ NobodyStarves R ∧ NoSpuriousFailure σ ∧ CanReopen σ ∧ (R 0).needRotate = true ∧
    (R 0).flag = false ∧ σ 0 = .call 1 .flush ∧ (R 0).isOpen = false := by
  have he := solo_endless (c := cfg2 .file false) (o := false) (t := 1) flushesClosed_reach (fun u hu h => by
    rcases flushesClosed_calm hu with e | e
    · exact h.1 e
    · rw [e] at h; exact h.2.1 rfl)
  refine ⟨_, _, he.after_call (t := 1) (k := .flush) (exec_reach .init closed_run)
    ⟨by decide, closed_facts.2.1, Option.isNone_iff_eq_none.1 closed_facts.2.2.2.1, rfl⟩, before_lock (alone_lock (t := 1) he (by decide) fun n u hu =>
      (solo_ring hu n).trans (by
        obtain ⟨a, hra, _, base, hR⟩ := rel_refines (c := cfg2 .file false) (by decide) flushesClosed_reach
        exact not_inQueue (hR.pcs u) (by rcases flushesClosed_calm hu with e | e <;> rw [e] <;> rfl))) _, ?_, ?_, closed_facts.2.2.2.2.1, ?_, rfl, closed_facts.2.2.2.2.2⟩
  · intro n t ch e; cases n with
    | zero => cases e
    | succ n => injection e with _ e; rw [← e]; rfl
  · intro n t ch e; cases n with
    | zero => cases e
    | succ n => injection e with _ e; rw [← e]; rfl
  · show closedState.flag = false; exact closed_flag

end SinkFull

namespace Many
namespace Lock
open SinkConc (workerTid)

/-- **C109**, the whole program: any number of threads, a logging system, sinks of any kind.  Thread `t` calls `rotate()` of sink `k`, a multisink
of any depth or a single sink, at moment `n`, and no call is started after that.  Every opened file sink with a worker that is this sink or is
below it has its file re-opened after the call.  (Assumptions of C102; no spurious failure of the exchanges; re-opening succeeds.) -/
theorem C109_every_file_partial (S : Setup) (hS : ∀ i, 0 < (S.leaf i).conc.capacity) (σ : Nat → Deed) (R : Nat → St) (h : Endless S σ R)
    (hl : NobodyStarves R) (hw : WaitsEnd R) (hv : StoresSeen σ) (hc : NoSpuriousFailure σ) (hr : CanReopen σ)
    (n : Nat) (t : Tid) (k : Nat) (hcall : CallsRotate S t k (R n) (R (n + 1))) (hN : NoMoreCalls σ (n + 1)) (hk : SinksKept S (R (n + 1)).prog)
    (i : Nat) (hi : Under i (S.snk k)) (ho : (S.leaf i).opened = true) (hl0 : (S.leaf i).conc.latency0 = false)
    (hf : (S.leaf i).conc.isFile = true) :
    ∃ m, n < m ∧ SinkFull.reopened ((R n).prog.leaf i) < SinkFull.reopened ((R m).prog.leaf i) := by
  obtain ⟨ht, _, he⟩ := hcall
  obtain ⟨m, hm⟩ := (last_from h hN hk).rotates hS (hl.shift _) (hw.shift _) (hv.shift _) (fun m => hc _) (fun m => hr _) ht (i := i)
    (by
      show _ ∈ (R (n + 1)).prog.todo t
      rw [he]
      show _ ∈ upd _ _ _ _
      rw [System.upd_same]; exact rotatePlan_mem hi) ho hl0 hf
  refine ⟨n + 1 + m, by omega, ?_⟩
  have e : (R (n + 1 + 0)).prog.leaf i = (R n).prog.leaf i := by rw [Nat.add_zero, he]
  rw [e] at hm; exact hm

/-- **C109**, a program that never stops: as above, but calls are started for ever.  The sinks at or below `k` are not destroyed, and the files among
them have workers (a file without one is flushed by the caller, which others can keep busy for ever): every opened file at or below `k` is
re-opened after the call.  Nothing is assumed about the visibility of stores. -/
theorem C109_busy_program_partial (S : Setup) (hS : ∀ i, 0 < (S.leaf i).conc.capacity) (σ : Nat → Deed) (R : Nat → St) (h : Endless S σ R)
    (hg : StartsAreCalls S σ R) (hl : NobodyStarves R) (hw : WaitsEnd R) (hc : NoSpuriousFailure σ) (hr : CanReopen σ)
    (n : Nat) (t : Tid) (k : Nat) (hcall : CallsRotate S t k (R n) (R (n + 1)))
    (hk : ∀ i, Under i (S.snk k) → ∀ m, n < m → ((R m).prog.leaf i).owner = none)
    (hl0 : ∀ i, Under i (S.snk k) → (S.leaf i).conc.isFile = true → (S.leaf i).conc.latency0 = false)
    (i : Nat) (hi : Under i (S.snk k)) (ho : (S.leaf i).opened = true) (hf : (S.leaf i).conc.isFile = true) :
    ∃ m, n < m ∧ SinkFull.reopened ((R n).prog.leaf i) < SinkFull.reopened ((R m).prog.leaf i) := by
  obtain ⟨ht, hrest, he⟩ := hcall
  obtain ⟨m, hm⟩ := (h.shift (n + 1)).rotates hS (fun m e => hg _ e) (hl.shift _) (hw.shift _) (fun m => hc _) (fun m => hr _) ht
    (fun i hi m => hk i hi _ (by omega)) hl0
    (by
      show Between (R (n + 1)) t _
      rw [he]
      exact ⟨System.upd_same _ _ _, hrest.2.1.2⟩) hi ho hf
  refine ⟨n + 1 + m, by omega, ?_⟩
  have e : (R (n + 1 + 0)).prog.leaf i = (R n).prog.leaf i := by rw [Nat.add_zero, he]
  rw [e] at hm; exact hm

/-! ### the theorem applies -/

theorem good_direct {S : Setup} {σ : Nat → Deed} {R : Nat → St} (h : Good S σ R) {s : St} (hr : Reach S s) (hs : Exec S s (R 0))
    (hsame : (R 0).prog.leaf = s.prog.leaf) : Endless S (before .start σ) (before s R) ∧ NobodyStarves (before s R) ∧ WaitsEnd (before s R) ∧
      StoresSeen (before .start σ) ∧ NoMoreCalls (before .start σ) 1 := by
  refine ⟨⟨hr, fun n => ?_, fun n e he hp => ?_, fun n i t hrun => ?_⟩, fun i n t hp => ?_, fun i n hp => ?_, ?_, fun n hn e => ?_⟩
  · cases n with
    | zero => exact hs
    | succ n => exact h.run.next n
  · obtain ⟨m, h1, h2⟩ := h.run.fair n e he fun m hm => hp (m + 1) (by omega)
    exact ⟨m + 1, by omega, h2⟩
  · cases n with
    | succ n => obtain ⟨m, ch, h1, h2⟩ := h.run.inside n i t hrun; exact ⟨m + 1, ch, by omega, h2⟩
    | zero => obtain ⟨m, ch, h1, h2⟩ := h.run.inside 0 i t (by rw [hsame]; exact hrun); exact ⟨m + 1, ch, by omega, h2⟩
  · cases n with
    | succ n => obtain ⟨m, h1, h2⟩ := h.lock i n t hp; exact ⟨m + 1, by omega, h2⟩
    | zero => obtain ⟨m, h1, h2⟩ := h.lock i 0 t (by dsimp only; rw [hsame]; exact hp); exact ⟨m + 1, by omega, h2⟩
  · cases n with
    | succ n => obtain ⟨m, h1, h2⟩ := h.waits i n hp; exact ⟨m + 1, by omega, h2⟩
    | zero => obtain ⟨m, h1, h2⟩ := h.waits i 0 (by dsimp only; rw [hsame]; exact hp); exact ⟨m + 1, by omega, h2⟩
  · obtain ⟨N, hN⟩ := h.seen
    refine ⟨N + 1, fun n hn i t ch e => ?_⟩
    cases n with
    | zero => omega
    | succ n => exact hN n (by omega) i t ch e
  · cases n with
    | zero => omega
    | succ n => exact h.quiet n (Nat.zero_le _) e

def leafNow (s : St) (i : Nat) (t : Tid) : St :=
  { s with prog := { s.prog with leaf := upd s.prog.leaf i (SinkFull.step (exampleSetup.leaf i).conc (s.prog.leaf i) t SinkConc.calmCh) } }

def enterNow (s : St) (t : Tid) (i : Nat) (rest : List (Nat × Req)) : St :=
  { s with prog := { s.prog with todo := upd s.prog.todo t rest, leaf := upd s.prog.leaf i (SinkFull.setPc (s.prog.leaf i) t .rotate) } }

/-- Thread 1 calls `rotate()` of the multisink (file 0, syslog 1), enters the file and leaves it, enters syslog and leaves it. -/
def rot0 : St := { lockStart with prog := { lockStart.prog with todo := upd lockStart.prog.todo 1 (Direct.rotate.plan exampleSetup 1), said := lockStart.prog.said ++ Direct.rotate.said 1 1 } }
def rot1 : St := enterNow rot0 1 0 [(1, .rotate)]
def rot2 : St := leafNow rot1 0 1
def rot3 : St := leafNow rot2 0 1
def rot4 : St := enterNow rot3 1 1 []
def rot5 : St := leafNow rot4 1 1

theorem start_rest (t : Tid) (ht : t ≠ workerTid) : AtRest lockStart t :=
  ⟨rfl, ⟨rfl, fun i => .inl (if_neg ht)⟩, (fun e => by cases e), (fun e => by cases e)⟩

theorem rot0_exec : Exec exampleSetup lockStart rot0 := .direct lockStart 1 1 .rotate (by decide) (start_rest 1 (by decide)).2.1 (fun e => by cases e) rfl

theorem rot0_reach : Reach exampleSetup rot0 := .next (.init true id fun _ => .refl _) rot0_exec

theorem rot0_rest {t : Tid} (ht : t ≠ workerTid) (h1 : t ≠ 1) : AtRest rot0 t := by
  obtain ⟨a, b, c, d⟩ := start_rest t ht
  refine ⟨a, ⟨?_, b.2⟩, c, d⟩
  show upd _ _ _ _ = _
  rw [System.upd_other _ _ h1]; rfl

theorem rot_away {s : St} (j : Nat) : (j ≠ 0 → j ≠ 1 → s.prog.leaf j = lockStart.prog.leaf j) → (s.prog.leaf 0).pc 1 = .idle → (s.prog.leaf 1).pc 1 = .idle →
    quiet ((s.prog.leaf j).pc 1) := by
  intro h h0 h1
  by_cases e0 : j = 0
  · rw [e0]; exact .inl h0
  · by_cases e1 : j = 1
    · rw [e1]; exact .inl h1
    · rw [h e0 e1]; exact .inl rfl

theorem rot1_go : Does exampleSetup rot0 (.enter 1) rot1 :=
  ⟨0, .rotate, [(1, .rotate)], .rotate, by decide, rfl, fun j => .inl rfl, rfl, rfl, .rotate, rfl⟩

theorem rot3_leaf {j : Nat} (h0 : j ≠ 0) : rot3.prog.leaf j = lockStart.prog.leaf j := by
  show upd (upd (upd lockStart.prog.leaf 0 _) 0 _) 0 _ j = _
  rw [System.upd_other _ _ h0, System.upd_other _ _ h0, System.upd_other _ _ h0]

theorem rot5_leaf {j : Nat} (h0 : j ≠ 0) (h1 : j ≠ 1) : rot5.prog.leaf j = lockStart.prog.leaf j := by
  show upd (upd rot3.prog.leaf 1 _) 1 _ j = _
  rw [System.upd_other _ _ h1, System.upd_other _ _ h1]; exact rot3_leaf h0

theorem rot4_go : Does exampleSetup rot3 (.enter 1) rot4 :=
  ⟨1, .rotate, [], .rotate, by decide, by decide +kernel, fun j => rot_away j (fun h _ => rot3_leaf h) (by decide +kernel) (by decide +kernel),
    by decide +kernel, by rw [rot3_leaf (by decide)]; rfl, .rotate, rfl⟩

theorem rot_goes : Goes exampleSetup rot0 rot5 := by
  have step : ∀ {s s' : St} {d : Deed}, d ≠ .start → d ≠ .rest → Does exampleSetup s d s' → Go exampleSetup s s' := by
    intro s s' d h1 h2 h
    cases d with
    | step t => obtain ⟨a, b, c, e, f, rfl⟩ := h; exact .step s t a b c e f
    | unlock t => obtain ⟨a, b, rfl⟩ := h; exact .unlock s t a b
    | configured t => obtain ⟨a, b, c, e, rfl⟩ := h; exact .configured s t a b c e
    | enter t => obtain ⟨i, q, rest, call, a1, a2, a3, a4, a5, a6, rfl⟩ := h; exact .enter s t i q rest call a1 a2 a3 a4 a5 a6
    | leaf i t ch => rw [show s' = _ from h]; exact .leaf s i t ch
    | start => exact absurd rfl h1
    | rest => exact absurd rfl h2
  exact .more (step (d := .enter 1) (by simp) (by simp) rot1_go) (.more (.leaf rot1 0 1 _) (.more (.leaf rot2 0 1 _)
    (.more (step (d := .enter 1) (by simp) (by simp) rot4_go) (.more (.leaf rot4 1 1 _) (.refl _)))))

theorem rot5_rest (t : Tid) (ht : t ≠ workerTid) : AtRest rot5 t := by
  by_cases h1 : t = 1
  · subst h1
    exact ⟨rfl, ⟨by decide +kernel, fun j => rot_away j (fun h h' => rot5_leaf h h') (by decide +kernel) (by decide +kernel)⟩,
      (fun e => by cases e), (fun e => by cases e)⟩
  · exact rest_goes (rot0_rest ht h1) rot_goes

theorem kept_fresh (s : St) (ho : ∀ i, (s.prog.leaf i).owner = none) : SinksKept exampleSetup s.prog := fun _ i _ => ho i

theorem rot5_owner (i : Nat) : (rot5.prog.leaf i).owner = none := by
  by_cases h0 : i = 0
  · rw [h0]; exact Option.isNone_iff_eq_none.1 (by decide +kernel)
  · by_cases h1 : i = 1
    · rw [h1]; exact Option.isNone_iff_eq_none.1 (by decide +kernel)
    · rw [rot5_leaf h0 h1]; rfl

theorem goes_reach {S : Setup} {s s' : St} (hr : Reach S s) (h : Goes S s s') : Reach S s' := by
  induction h with
  | refl => exact hr
  | more h1 _ ih => exact ih (.next hr (.go h1))

/-- what the deeds of this execution choose -/
def Calm (σ : Nat → Deed) : Prop := ∀ n i t ch, σ n = .leaf i t ch → ch = SinkConc.calmCh

theorem Calm.before {σ : Nat → Deed} (h : Calm σ) {d : Deed} (hd : ∀ i t ch, d = .leaf i t ch → ch = SinkConc.calmCh) : Calm (before d σ) := by
  intro n i t ch e
  cases n with
  | zero => exact hd i t ch e
  | succ n => exact h n i t ch e

/-- `rotate()` is the start of a call -/
theorem rot0_starts : ¬ Go exampleSetup lockStart rot0 := by
  have hn : rot0.prog.todo 1 ≠ lockStart.prog.todo 1 := by
    show upd lockStart.prog.todo 1 _ 1 ≠ []
    rw [System.upd_same]
    intro e
    have := rotatePlan_mem (i := 0) (s := exampleSetup.snk 1) (.sub (List.mem_cons_self ..) .self)
    rw [show rotatePlan (exampleSetup.snk 1) = [] from e] at this; cases this
  intro h
  generalize hr : rot0 = r at *
  cases h with
  | step t ht hf hb hi hl => exact hi rfl
  | unlock t hf hb => cases hb
  | configured t hf hi hc hb => cases hc
  | enter t i q rest call ht hd hf hi ho hs => cases hd
  | leaf i t ch => exact hn rfl

/-! the hypotheses of `C109_every_file_partial` and of `C109_busy_program_partial`: thread 1 calls `rotate()` of the multisink of the file 0 and of syslog -/
example : ∃ σ R, Endless exampleSetup σ R ∧ NobodyStarves R ∧ WaitsEnd R ∧ StoresSeen σ ∧ NoSpuriousFailure σ ∧ CanReopen σ ∧
    CallsRotate exampleSetup 1 1 (R 0) (R 1) ∧ NoMoreCalls σ 1 ∧ SinksKept exampleSetup (R 1).prog ∧ Under 0 (exampleSetup.snk 1) ∧
    (exampleSetup.leaf 0).opened = true ∧ (exampleSetup.leaf 0).conc.latency0 = false ∧ (exampleSetup.leaf 0).conc.isFile = true ∧
    StartsAreCalls exampleSetup σ R ∧ (∀ i, Under i (exampleSetup.snk 1) → ∀ m, 0 < m → ((R m).prog.leaf i).owner = none) ∧
    (∀ i, Under i (exampleSetup.snk 1) → (exampleSetup.leaf i).conc.isFile = true → (exampleSetup.leaf i).conc.latency0 = false) := by
  have hr1 : Reach exampleSetup rot1 := .next rot0_reach (.go (by obtain ⟨i, q, rest, call, a1, a2, a3, a4, a5, a6, e⟩ := rot1_go; rw [e]; exact .enter _ 1 i q rest call a1 a2 a3 a4 a5 a6))
  have hr2 : Reach exampleSetup rot2 := .next hr1 (.go (.leaf rot1 0 1 _))
  have hr3 : Reach exampleSetup rot3 := .next hr2 (.go (.leaf rot2 0 1 _))
  have hr4 : Reach exampleSetup rot4 := .next hr3 (.go (by obtain ⟨i, q, rest, call, a1, a2, a3, a4, a5, a6, e⟩ := rot4_go; rw [e]; exact .enter _ 1 i q rest call a1 a2 a3 a4 a5 a6))
  have hg5 := idling_good example_sound.room (goes_reach rot0_reach rot_goes) (kept_fresh _ rot5_owner) rot5_rest
  have hg4 := hg5.before (d := .leaf 1 1 SinkConc.calmCh) hr4 (by simp) rfl
  have hg3 := hg4.before (d := .enter 1) hr3 (by simp) rot4_go
  have hg2 := hg3.before (d := .leaf 0 1 SinkConc.calmCh) hr2 (by simp) rfl
  have hg1 := hg2.before (d := .leaf 0 1 SinkConc.calmCh) hr1 (by simp) rfl
  have hg0 := hg1.before (d := .enter 1) rot0_reach (by simp) rot1_go
  obtain ⟨h1, h2, h3, h4, h5⟩ := good_direct hg0 (s := lockStart) (.init true id fun _ => .refl _) rot0_exec rfl
  have hcalm : Calm idleDeed := fun n i t ch e => by cases e; rfl
  have hc := (((((hcalm.before (d := .leaf 1 1 SinkConc.calmCh) (fun _ _ _ e => by injection e with _ _ e; exact e.symm)).before (d := .enter 1) (fun _ _ _ e => Deed.noConfusion e)).before
    (d := .leaf 0 1 SinkConc.calmCh) (fun _ _ _ e => by injection e with _ _ e; exact e.symm)).before (d := .leaf 0 1 SinkConc.calmCh) (fun _ _ _ e => by injection e with _ _ e; exact e.symm)).before
    (d := .enter 1) (fun _ _ _ e => Deed.noConfusion e)).before (d := .start) (fun _ _ _ e => Deed.noConfusion e)
  refine ⟨_, _, h1, h2, h3, h4, (fun n i t ch e => by rw [hc n i t ch e]; rfl), (fun n i t ch e => by rw [hc n i t ch e]; rfl),
    ⟨by decide, start_rest 1 (by decide), rfl⟩, h5, kept_fresh _ fun i => rfl, .sub (List.mem_cons_self ..) .self, rfl, rfl, rfl,
    fun n e => ?_, fun i _ m hm => ?_, fun i hi _ => ?_⟩
  · cases n with
    | zero => exact .inr rot0_starts
    | succ n => exact absurd e (h5 _ (by omega))
  · have := (last_from h1 h5 (kept_fresh _ fun i => rfl)).owner_stays i (m - 1)
    rw [show 1 + (m - 1) = m by omega] at this
    exact this.trans rfl
  · rcases hi with _ | ⟨hs, hu⟩
    rcases List.mem_cons.1 hs with e | e
    · subst e; cases hu; rfl
    · rw [List.mem_singleton.1 e] at hu; cases hu; rfl


end Lock
end Many
end Soralog
