import Verif.Proofs.SinkFullDeliver
import Verif.Props.Fair
/-!
# Is what has been logged written in the end?

C95.  Executions are endless (Spec/Fair.lean); `WaitsEnd` and `KeepsBeingUsed` are in Spec/Deliver.lean.
-/
namespace Soralog
namespace SinkFull
open SinkConc (Cfg Ch workerTid)

/-- **C95**, worker: any number of clients, any calls, the queue that is written, an opened sink with a latency: in every endless fair
execution in which the spin lock of the queue starves nobody and no wait of the worker lasts for ever, everything accepted at some moment
has been handed to the stream (to `syslog()`) some time later, in order. -/
theorem C95_worker_partial {c : Cfg} {σ : Nat → Deed} {R : Nat → St} (h : Endless c true σ R) (hcap : 0 < c.capacity)
    (hl : NobodyStarves R) (hl0 : c.latency0 = false) (hw : WaitsEnd R) (n : Nat) :
    ∃ m, n ≤ m ∧ accepted (R n) <+: (R m).written := h.worker_delivers hcap hl hl0 hw n

/-- **C95**, zero latency: the same without a worker, if the sink keeps being used. -/
theorem C95_used_partial {c : Cfg} {σ : Nat → Deed} {R : Nat → St} (h : Endless c true σ R) (hcap : 0 < c.capacity)
    (hl : NobodyStarves R) (hl0 : c.latency0 = true) (hu : KeepsBeingUsed σ) (n : Nat) :
    ∃ m, n ≤ m ∧ accepted (R n) <+: (R m).written := h.use_delivers hcap hl hl0 hu n

/-! ### zero latency, and the sink is not used any more -/

/-- Thread 1 pushes "a" and has taken it out of the queue; thread 2 pushes "b", finds `flush` busy and returns; thread 1 returns. -/
def leftActs : List Act :=
  [.call 1 (.push (SinkConc.ev ['a'])), .run 1 22, .call 2 (.push (SinkConc.ev ['b'])), .run 2 20, .run 1 10]

def leftState : St := (exec (cfg2 .file true) leftActs (init (cfg2 .file true) true)).get (by rfl)

theorem left_exec : exec (cfg2 .file true) leftActs (init (cfg2 .file true) true) = some leftState := (Option.some_get _).symm

theorem left_facts : leftState.pc 1 = .idle ∧ leftState.pc 2 = .idle ∧ leftState.pc 0 = .wExit ∧ leftState.owner.isNone = true ∧
    (accepted leftState).length = 2 ∧ leftState.written.length = 1 := by decide +kernel

attribute [irreducible] leftState

theorem left_reach : Reach (cfg2 .file true) true leftState := exec_reach .init left_exec

theorem left_idle (t : Tid) : ¬ Running (leftState.pc t) := by
  by_cases h1 : t = 1
  · subst h1; intro h; exact h.1 left_facts.1
  · by_cases h2 : t = 2
    · subst h2; intro h; exact h.1 left_facts.2.1
    · have : leftState.pc t = (init (cfg2 .file true) true).pc t :=
        exec_others (c := cfg2 .file true) (s := init (cfg2 .file true) true) (s' := leftState) left_exec t (by
          intro a ha
          have : a.who = 1 ∨ a.who = 2 := by
            simp [leftActs] at ha; rcases ha with rfl | rfl | rfl | rfl | rfl <;> simp [Act.who]
          rcases this with e | e <;> rw [e] <;> assumption)
      rw [this]
      show ¬ Running (if t = workerTid then _ else _)
      split
      · intro h; exact h.2.1 rfl
      · intro h; exact h.1 rfl

/-- **C95 is false of the code** for zero latency: two pushes at the same time have returned, nobody is inside a call, and the event of one
of them stays in the queue until somebody uses the sink again, if ever. -/
theorem C95_refuted : ¬ ∀ (c : Cfg) (σ : Nat → Deed) (R : Nat → St), Endless c true σ R → 0 < c.capacity → NobodyStarves R → WaitsEnd R →
    ∀ n, ∃ m, n ≤ m ∧ accepted (R n) <+: (R m).written := by
  intro h
  have hlock : ∀ t, ¬ AtLock (leftState.ring.pc t) := by
    intro t ht
    have hp := left_idle t
    obtain ⟨a, hr, hrel⟩ := rel_refines (c := cfg2 .file true) (by decide) left_reach
    have hne : inQueue (leftState.pc t) = true := by
      cases e : inQueue (leftState.pc t)
      · obtain ⟨_, base, hR⟩ := hrel
        rw [not_inQueue (hR.pcs t) e] at ht; exact ht.elim
      · rfl
    refine hp ?_
    generalize leftState.pc t = p at hne
    refine ⟨?_, ?_, ?_⟩ <;> (intro e; subst e; cases hne)
  obtain ⟨m, _, hm⟩ := h (cfg2 .file true) (fun _ => .rest) (fun _ => leftState)
    ⟨left_reach, fun _ => rfl, fun n t ht => absurd ht (left_idle t)⟩ (by decide)
    (fun n t ht => absurd ht (hlock t))
    (fun n hn => (by rw [show (fun _ : Nat => leftState) n = leftState from rfl, show leftState.pc workerTid = _ from left_facts.2.2.1] at hn; cases hn)) 0
  have := hm.length_le
  have h2 := left_facts.2.2.2.2
  omega

/-! ### handed to the stream is not handed to the system -/

/-- nobody else uses the queue: then the lock starves nobody -/
theorem alone_lock {c : Cfg} {o : Bool} {σ : Nat → Deed} {R : Nat → St} (h : Endless c o σ R) (hcap : 0 < c.capacity) {t : Tid}
    (hs : ∀ n u, u ≠ t → (R n).ring.pc u = .idle) : NobodyStarves R := by
  intro n u hp
  have hu : u = t := Classical.byContradiction fun e => by rw [hs n u e] at hp; exact hp
  subst hu
  have hp' : Ring.spinning ((R n).ring.pc u) = true := atLock_iff.1 hp
  have hne : (R n).ring.pc u ≠ .idle := fun e => by rw [e] at hp'; cases hp'
  obtain ⟨a, hr, hrel⟩ := rel_refines hcap (h.reach n)
  have hq : inQueue ((R n).pc u) = true := by
    cases e : inQueue ((R n).pc u)
    · obtain ⟨_, base, hR⟩ := hrel
      exact absurd (not_inQueue (hR.pcs u) e) hne
    · rfl
  obtain ⟨m, ch, h1, h2, h3, h4, h5⟩ := h.first (n := n) (t := u) (by
    generalize (R n).pc u = p at hq
    refine ⟨?_, ?_, ?_⟩ <;> (intro e; subst e; cases hq))
  refine ⟨m + 1, by omega, ?_⟩
  rw [atLock_iff, h3, step_ring ch (by rw [h4]; exact hq)]
  obtain ⟨a2, hr2, hrel2⟩ := rel_refines hcap (h.reach m)
  have hfree : (R m).ring.buf.busy = false := by
    cases hb : (R m).ring.buf.busy
    · rfl
    · obtain ⟨_, base, hR⟩ := hrel2
      obtain ⟨v, hv⟩ := hR.inv.lock.1 hb
      have : v = u := Classical.byContradiction fun e => by rw [hs m v e] at hv; cases hv
      subst this
      rw [h5] at hv
      generalize (R n).ring.pc v = p at hv hp'
      cases p <;> first | (cases hv; done) | cases hp'
  intro hsp
  rcases Ring.tick_spin (by rw [h5]; exact hp') hfree with e | e
  · generalize (Ring.tick (R m).ring u).pc u = p at hsp e
    cases p <;> first | (cases hsp; done) | cases e
  · generalize (Ring.tick (R m).ring u).pc u = p at hsp e
    cases p <;> first | (cases hsp; done) | cases e

theorem solo_ring {c : Cfg} {t u : Tid} {s : St} (hu : u ≠ t) (n : Nat) : (solo c t s n).ring.pc u = s.ring.pc u := by
  induction n with
  | zero => rfl
  | succ n ih =>
    exact (does_ring_same (c := c) (s := solo c t s n) (d := .step t SinkConc.calmCh) (s' := solo c t s (n + 1)) rfl (t := u)
      (fun ch e' => by injection e' with e'; exact hu e'.symm)).trans ih

/-- an event has been pushed, its push has returned; from now on only the worker runs, and its waits time out -/
def workerOnly : Nat → St := solo (cfg2 .file false) 0 queuedState

theorem workerOnly_endless : Endless (cfg2 .file false) true (fun _ => .step 0 SinkConc.calmCh) workerOnly :=
  solo_endless (exec_reach .init (Option.some_get _).symm) (fun u hu h => h.1 (queued_idle hu))

theorem queued_ring {u : Tid} (hu : u ≠ 0) : queuedState.ring.pc u = .idle := by
  obtain ⟨a, hr, hrel⟩ := rel_refines (c := cfg2 .file false) (by decide) (workerOnly_endless.reach 0)
  obtain ⟨_, base, hR⟩ := hrel
  exact not_inQueue (hR.pcs u) (by rw [show (workerOnly 0).pc u = .idle from queued_idle hu]; rfl)

theorem workerOnly_lock : NobodyStarves workerOnly :=
  alone_lock (t := 0) workerOnly_endless (by decide) fun n _ hu => (solo_ring hu n).trans (queued_ring hu)

theorem workerOnly_waits : WaitsEnd workerOnly := by
  intro n hn
  refine ⟨n + 1, by omega, ?_⟩
  have : (workerOnly (n + 1)).pc workerTid = .enter .worker := by
    show (step _ (workerOnly n) 0 SinkConc.calmCh).pc workerTid = _
    unfold step; simp only [show (workerOnly n).pc 0 = .wWait from hn]
    rw [if_pos (by rfl)]; rfl
  rw [this]; simp

/-- what the worker does when there is no request -/
def lazyPC : PC → Bool
  | .wWait | .wCheck | .enter .worker | .get .worker | .getIn .worker | .uncount .worker | .unref .worker _ | .write .worker _
  | .casFlush .worker | .casRotate .worker | .leave .worker => true
  | _ => false

structure Lazy (s : St) : Prop where
  pc : lazyPC (s.pc 0) = true
  flush : s.needFlush = false
  rotate : s.needRotate = false
  fin : s.needFinalize = false
  dev : s.dev = []
  gens : s.gens = []

theorem lazy_step {s : St} (h : Lazy s) : Lazy (step (cfg2 .file false) s 0 SinkConc.calmCh) := by
  obtain ⟨h1, h2, h3, h4, h5, h6⟩ := h
  have hsys : (cfg2 .file false).isSyslog = false := rfl
  cases hp : s.pc 0 <;> rw [hp] at h1 <;> try (cases h1; done)
  case enter k =>
    cases k <;> try (cases h1; done)
    unfold step; simp only [hp]; split <;> exact ⟨by simp [setPc, upd, afterFlush, lazyPC], h2, h3, h4, h5, h6⟩
  case get k =>
    cases k <;> try (cases h1; done)
    unfold step; simp only [hp]; exact ⟨by simp [setPc, upd, lazyPC], h2, h3, h4, h5, h6⟩
  case getIn k =>
    cases k <;> try (cases h1; done)
    unfold step; simp only [hp]; split
    · split <;> exact ⟨by simp [setPc, upd, lazyPC, taking, nothing, hsys], h2, h3, h4, h5, h6⟩
    · exact ⟨by simp [hp, lazyPC], h2, h3, h4, h5, h6⟩
  case uncount k =>
    cases k <;> try (cases h1; done)
    unfold step; simp only [hp]; split
    · exact ⟨by simp [setPc, upd, lazyPC], h2, h3, h4, h5, h6⟩
    · exact ⟨by simp [hp, lazyPC], h2, h3, h4, h5, h6⟩
  case unref k e =>
    cases k <;> try (cases h1; done)
    unfold step; simp only [hp]; exact ⟨by simp [setPc, upd, lazyPC], h2, h3, h4, h5, h6⟩
  case write k e =>
    cases k <;> try (cases h1; done)
    cases e
    · unfold step; simp only [hp]; exact ⟨by simp [setPc, upd, lazyPC], h2, h3, h4, h5, h6⟩
    · unfold step; simp only [hp]; split
      · exact ⟨by simp [setPc, upd, lazyPC], h2, h3, h4, by simp [setPc, h5, SinkConc.calmCh], h6⟩
      · exact ⟨by simp [setPc, upd, lazyPC], h2, h3, h4, h5, h6⟩
  case casFlush k =>
    cases k <;> try (cases h1; done)
    unfold step; simp only [hp]; rw [h2, if_neg (by simp)]; exact ⟨by simp [setPc, upd, lazyPC], h2, h3, h4, h5, h6⟩
  case casRotate k =>
    cases k <;> try (cases h1; done)
    unfold step; simp only [hp]; rw [h3, if_neg (by simp)]; exact ⟨by simp [setPc, upd, lazyPC], h2, h3, h4, h5, h6⟩
  case leave k =>
    cases k <;> try (cases h1; done)
    unfold step; simp only [hp]; exact ⟨by simp [setPc, upd, lazyPC, afterFlush], h2, h3, h4, h5, h6⟩
  case wWait =>
    unfold step; simp only [hp]; split
    · exact ⟨by simp [setPc, upd, lazyPC], h2, h3, h4, h5, h6⟩
    · exact ⟨by rw [hp]; rfl, h2, h3, h4, h5, h6⟩
  case wCheck =>
    unfold step; simp only [hp]; rw [h4, if_neg (by simp)]; exact ⟨by simp [setPc, upd, lazyPC], h2, h3, h4, h5, h6⟩

theorem lazy_run (n : Nat) : Lazy (workerOnly n) := by
  induction n with
  | zero => exact ⟨rfl, rfl, rfl, rfl, rfl, rfl⟩
  | succ n ih => exact lazy_step ih

/-- **C95**: of the file itself it is false even with a worker whose waits end.  The worker hands the record to the stream but does not
flush the stream unless somebody asks for it, so the operating system may never see what was logged. -/
theorem C95_device_refuted : ¬ ∀ (c : Cfg) (σ : Nat → Deed) (R : Nat → St), Endless c true σ R → 0 < c.capacity → NobodyStarves R → WaitsEnd R →
    c.isFile = true → c.latency0 = false → ∀ n, ∃ m, n ≤ m ∧ (accepted (R n)).flatMap c.render <+: (R m).gens.flatten ++ (R m).dev := by
  intro h
  obtain ⟨m, _, hm⟩ := h (cfg2 .file false) _ workerOnly workerOnly_endless (by decide) workerOnly_lock workerOnly_waits rfl rfl 0
  rw [(lazy_run m).dev, (lazy_run m).gens] at hm
  have := hm.length_le
  revert this
  decide +kernel

/-! `C95_worker_partial` applies to this very execution: the event is in the queue at the start, and is written. -/
example : Endless (cfg2 .file false) true (fun _ => .step 0 SinkConc.calmCh) workerOnly ∧ NobodyStarves workerOnly ∧ WaitsEnd workerOnly ∧
    accepted (workerOnly 0) = [SinkConc.ev ['a']] ∧ (workerOnly 0).written = [] ∧ (workerOnly 16).written = [SinkConc.ev ['a']] :=
  ⟨workerOnly_endless, workerOnly_lock, workerOnly_waits, rfl, rfl, rfl⟩

/-! ### a sink without latency that keeps being used -/

/-- after what happened in `leftState`, thread 1 calls `flush` again and again -/
def flushing : Nat → St
  | 0 => leftState
  | n + 1 => match (flushing n).pc 1 with
    | .idle => setPc (flushing n) 1 (startPC .flush)
    | _ => step (cfg2 .file true) (flushing n) 1 SinkConc.calmCh

def flushDeed (n : Nat) : Deed := match (flushing n).pc 1 with
  | .idle => .call 1 .flush
  | _ => .step 1 SinkConc.calmCh

theorem flushing_owner (n : Nat) : (flushing n).owner = none := by
  induction n with
  | zero => exact Option.isNone_iff_eq_none.1 left_facts.2.2.2.1
  | succ n ih =>
    unfold flushing
    split
    · exact ih
    · rw [step_owner]; exact ih

theorem flushing_does (n : Nat) : Does (cfg2 .file true) (flushing n) (flushDeed n) (flushing (n + 1)) := by
  unfold flushDeed
  cases hp : (flushing n).pc 1 <;> (rw [flushing, hp]; first | exact ⟨by decide, hp, flushing_owner n, rfl⟩ | rfl)

theorem flushing_other {u : Tid} (hu : u ≠ 1) (n : Nat) : (flushing n).pc u = leftState.pc u := by
  induction n with
  | zero => rfl
  | succ n ih =>
    unfold flushing
    split
    · show upd _ _ _ _ = _; rw [upd, if_neg hu]; exact ih
    · rw [Race.step_pc_other _ _ _ _ u hu]; exact ih

theorem flushing_endless : Endless (cfg2 .file true) true flushDeed flushing := by
  refine ⟨left_reach, flushing_does, fun n t ht => ?_⟩
  by_cases e : t = 1
  · subst e
    refine ⟨n, SinkConc.calmCh, Nat.le_refl _, ?_⟩
    unfold flushDeed
    split
    · rename_i h; exact absurd h ht.1
    · rfl
  · rw [flushing_other e] at ht; exact absurd ht (left_idle t)

theorem flushing_lock : NobodyStarves flushing := by
  refine alone_lock (t := 1) flushing_endless (by decide) fun n u hu => ?_
  obtain ⟨a, hr, hrel⟩ := rel_refines (c := cfg2 .file true) (by decide) (flushing_endless.reach n)
  obtain ⟨_, base, hR⟩ := hrel
  refine not_inQueue (hR.pcs u) ?_
  have := left_idle u
  rw [← flushing_other hu n] at this
  generalize (flushing n).pc u = p at this
  cases e : inQueue p
  · rfl
  · refine absurd ?_ this
    refine ⟨?_, ?_, ?_⟩ <;> (intro e'; subst e'; cases e)

theorem flushing_used : KeepsBeingUsed flushDeed := by
  intro n
  have hidle : ∃ m, n ≤ m ∧ (flushing m).pc 1 = .idle := by
    by_cases e : (flushing n).pc 1 = .idle
    · exact ⟨n, Nat.le_refl _, e⟩
    · obtain ⟨m, u, h1, h2, h3, h4⟩ := flushing_endless.client_progress (by decide) flushing_lock (flushing_owner n) (t := 1) (by decide) e
      by_cases hu : u = 1
      · subst hu; exact ⟨m + 1, by omega, h4⟩
      · rw [flushing_other hu] at h3 h4; exact absurd h4 h3
  obtain ⟨m, h1, h2⟩ := hidle
  exact ⟨m, 1, .flush, h1, by unfold flushDeed; rw [h2], by intro e; cases e⟩

/-! `C95_used_partial` applies to it: the event left behind is written in the end. -/
example : Endless (cfg2 .file true) true flushDeed flushing ∧ NobodyStarves flushing ∧ KeepsBeingUsed flushDeed ∧
    (accepted (flushing 0)).length = 2 ∧ (flushing 0).written.length = 1 ∧ (flushing 20).written.length = 2 :=
  ⟨flushing_endless, flushing_lock, flushing_used, by decide +kernel, by decide +kernel, by decide +kernel⟩

end SinkFull
end Soralog
