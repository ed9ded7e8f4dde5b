import Verif.Proofs.SinkFullDeliver
import Verif.Props.SinkFull
/-!
# Do calls return when every thread keeps being scheduled?

C92.  Executions are endless here: `Ring.FairRun` and `SinkFull.Endless` (Spec/Fair.lean).
-/
namespace Soralog

/-! ## the queue -/
namespace Ring

/-- **C92**, queue: in every endless fair use of the queue by any number of threads, as long as a call of `put`, `get`, `size`, `avail` or
`capacity` is pending, some call returns. -/
theorem C92_queue_progress {T : Type} {cap : Nat} (hc : 0 < cap) {σ : Nat → Act T} (hf : FairRun (init T cap) σ) {n : Nat} {t : Tid}
    (ht : Inside (runFor (init T cap) σ n) t) : ∃ m, n ≤ m ∧ ∃ u, ReturnsAt (init T cap) σ m u := fair_progress hc hf ht

/-- **C92**, queue: once no more calls are made, every thread gets out. -/
theorem C92_queue_all_return {T : Type} {cap : Nat} (hc : 0 < cap) {σ : Nat → Act T} (hf : FairRun (init T cap) σ) {N : Nat}
    (hN : ∀ n, N ≤ n → ∀ t c, σ n ≠ .call t c) (n : Nat) (t : Tid) : ∃ m, n ≤ m ∧ ¬ Inside (runFor (init T cap) σ m) t := by
  obtain ⟨m, h1, h2⟩ := fair_all_return hc hf hN (n := n) (t := t)
  exact ⟨m, h1, fun h => h h2⟩

/-- Thread 1 calls `get`; thread 2 asks for the size again and again, and thread 1 looks at the lock only while thread 2 has it. -/
def starve : Nat → Act Nat
  | 0 => .call 1 .get
  | n + 1 => match n % 5 with
    | 0 => .call 2 .size
    | 1 => .step 2
    | 2 => .step 1
    | _ => .step 2

/-- where they are -/
structure StarveAt (s : St Nat) (b : Bool) (p : PC Nat) : Prop where
  one : s.pc 1 = .getSpin
  two : s.pc 2 = p
  others : ∀ t, t ≠ 1 → t ≠ 2 → s.pc t = .idle
  refs : s.refs = []
  busy : s.buf.busy = b

theorem starve_run (k : Nat) : StarveAt (runFor (init Nat 4) starve (5 * k + 1)) false .idle ∧
    StarveAt (runFor (init Nat 4) starve (5 * k + 2)) false (.obsSpin .size) ∧
    StarveAt (runFor (init Nat 4) starve (5 * k + 3)) true (.obsRead .size) ∧
    StarveAt (runFor (init Nat 4) starve (5 * k + 4)) true (.obsRead .size) ∧
    (∃ n, StarveAt (runFor (init Nat 4) starve (5 * k + 5)) true (.obsUnlock .size n)) := by
  have next : ∀ n, runFor (init Nat 4) starve (n + 1) = act (runFor (init Nat 4) starve n) (starve n) := fun n => rfl
  have rest : ∀ k, StarveAt (runFor (init Nat 4) starve (5 * k + 1)) false .idle →
      StarveAt (runFor (init Nat 4) starve (5 * k + 2)) false (.obsSpin .size) ∧
      StarveAt (runFor (init Nat 4) starve (5 * k + 3)) true (.obsRead .size) ∧
      StarveAt (runFor (init Nat 4) starve (5 * k + 4)) true (.obsRead .size) ∧
      (∃ n, StarveAt (runFor (init Nat 4) starve (5 * k + 5)) true (.obsUnlock .size n)) := by
    intro k h
    have e1 : starve (5 * k + 1) = .call 2 .size := by simp [starve]
    have e2 : starve (5 * k + 2) = .step 2 := by simp [starve, show (5 * k + 1) % 5 = 1 by omega]
    have e3 : starve (5 * k + 3) = .step 1 := by simp [starve, show (5 * k + 2) % 5 = 2 by omega]
    have e4 : starve (5 * k + 4) = .step 2 := by simp [starve, show (5 * k + 3) % 5 = 3 by omega]
    have h1 : StarveAt (runFor (init Nat 4) starve (5 * k + 2)) false (.obsSpin .size) := by
      rw [next, e1]
      show StarveAt (call _ 2 .size) _ _
      unfold call
      rw [h.two]
      exact ⟨by simp [upd, h.one], by simp [upd], fun t h1 h2 => by simp [upd, h1, h2, h.others], h.refs, h.busy⟩
    have h2 : StarveAt (runFor (init Nat 4) starve (5 * k + 3)) true (.obsRead .size) := by
      rw [next, e2]
      show StarveAt (tick _ 2) _ _
      unfold tick
      rw [h1.two]; dsimp only; rw [h1.busy, if_neg (by simp)]
      exact ⟨by simp [upd, h1.one], by simp [upd], fun t g1 g2 => by simp [upd, g1, g2, h1.others], h1.refs, rfl⟩
    have h3 : StarveAt (runFor (init Nat 4) starve (5 * k + 4)) true (.obsRead .size) := by
      rw [next, e3]
      show StarveAt (tick _ 1) _ _
      unfold tick
      rw [h2.one]; dsimp only; rw [h2.busy, if_pos rfl]
      exact h2
    refine ⟨h1, h2, h3, (runFor (init Nat 4) starve (5 * k + 4)).buf.size, ?_⟩
    rw [next, e4]
    show StarveAt (tick _ 2) _ _
    unfold tick
    rw [h3.two]; dsimp only
    exact ⟨by simp [upd, h3.one], by simp [upd], fun t g1 g2 => by simp [upd, g1, g2, h3.others], h3.refs, h3.busy⟩
  induction k with
  | zero =>
    have h0 : StarveAt (runFor (init Nat 4) starve 1) false .idle :=
      ⟨rfl, rfl, fun t h1 h2 => by show upd _ _ _ _ = _; rw [upd, if_neg h1]; rfl, rfl, rfl⟩
    exact ⟨h0, rest 0 h0⟩
  | succ k ih =>
    obtain ⟨_, _, _, _, n, h5⟩ := ih
    have e5 : starve (5 * k + 5) = .step 2 := by simp [starve, show (5 * k + 4) % 5 = 4 by omega]
    have h0 : StarveAt (runFor (init Nat 4) starve (5 * (k + 1) + 1)) false .idle := by
      rw [show 5 * (k + 1) + 1 = 5 * k + 5 + 1 by omega, next, e5]
      show StarveAt (tick _ 2) _ _
      unfold tick
      rw [h5.two]; dsimp only
      exact ⟨by simp [upd, h5.one], by simp [upd], fun t g1 g2 => by simp [upd, g1, g2, h5.others], h5.refs, rfl⟩
    exact ⟨h0, rest _ h0⟩

theorem starve_at (n : Nat) (hn : 1 ≤ n) : ∃ b p, StarveAt (runFor (init Nat 4) starve n) b p := by
  obtain ⟨h1, h2, h3, h4, m, h5⟩ := starve_run ((n - 1) / 5)
  have : n = 5 * ((n - 1) / 5) + 1 ∨ n = 5 * ((n - 1) / 5) + 2 ∨ n = 5 * ((n - 1) / 5) + 3 ∨ n = 5 * ((n - 1) / 5) + 4 ∨
      n = 5 * ((n - 1) / 5) + 5 := by omega
  rcases this with e | e | e | e | e <;> rw [e]
  · exact ⟨_, _, h1⟩
  · exact ⟨_, _, h2⟩
  · exact ⟨_, _, h3⟩
  · exact ⟨_, _, h4⟩
  · exact ⟨_, _, h5⟩

theorem starve_fair : FairRun (init Nat 4) starve := by
  refine ⟨fun n t h => ?_, fun n h => ?_⟩
  · by_cases h1 : t = 1
    · exact ⟨5 * n + 3, by omega, by simp [starve, h1, show (5 * n + 2) % 5 = 2 by omega]⟩
    · by_cases h2 : t = 2
      · exact ⟨5 * n + 2, by omega, by simp [starve, h2, show (5 * n + 1) % 5 = 1 by omega]⟩
      · exfalso
        apply h
        cases n with
        | zero => rfl
        | succ n => obtain ⟨b, p, hs⟩ := starve_at (n + 1) (by omega); exact hs.others t h1 h2
  · exfalso
    apply h
    cases n with
    | zero => rfl
    | succ n => obtain ⟨b, p, hs⟩ := starve_at (n + 1) (by omega); exact hs.refs

/-- **C92**, queue: a single call need not return, although its thread keeps being scheduled; the spin lock is not fair. -/
theorem C92_queue_refuted : ¬ ∀ (cap : Nat) (σ : Nat → Act Nat), 0 < cap → FairRun (init Nat cap) σ → ∀ n t,
    Inside (runFor (init Nat cap) σ n) t → ∃ m, n ≤ m ∧ ReturnsAt (init Nat cap) σ m t := by
  intro h
  obtain ⟨m, hm, r, hr⟩ := h 4 starve (by decide) starve_fair 1 1 (by intro e; cases e)
  have := (act_ret (a := starve m) hr).2
  obtain ⟨b, p, hs⟩ := starve_at (m + 1) (by omega)
  have h1 := hs.one
  rw [show runFor (init Nat 4) starve (m + 1) = act (runFor (init Nat 4) starve m) (starve m) from rfl, this] at h1
  cases h1

/-! both theorems above apply to this very execution, and the calls of thread 2 do return -/
example : FairRun (init Nat 4) starve ∧ Inside (runFor (init Nat 4) starve 1) 1 ∧ ReturnsAt (init Nat 4) starve 5 2 :=
  ⟨starve_fair, (fun e => by cases e), .num 0, rfl⟩

/-- Thread 1 puts 7, the reference is destroyed, thread 1 gets it again, the reference is destroyed. -/
def calmUse : Nat → Act Nat
  | 0 => .call 1 (.put 7)
  | 9 => .drop 0
  | 10 => .call 1 .get
  | 17 => .drop 0
  | _ => .step 1

theorem calmUse_cases (n : Nat) : (n < 18 ∧ ∃ c, calmUse n = .call 1 c) ∨ (∃ i, calmUse n = .drop i) ∨ calmUse n = .step 1 := by
  unfold calmUse
  split
  · exact .inl ⟨by omega, _, rfl⟩
  · exact .inr (.inl ⟨_, rfl⟩)
  · exact .inl ⟨by omega, _, rfl⟩
  · exact .inr (.inl ⟨_, rfl⟩)
  · exact .inr (.inr rfl)

theorem calmUse_other {t : Tid} (ht : t ≠ 1) (n : Nat) : (runFor (init Nat 4) calmUse n).pc t = .idle := by
  induction n with
  | zero => rfl
  | succ n ih =>
    rw [show runFor (init Nat 4) calmUse (n + 1) = act (runFor (init Nat 4) calmUse n) (calmUse n) from rfl]
    generalize runFor (init Nat 4) calmUse n = s at ih
    rcases calmUse_cases n with ⟨_, c, e⟩ | ⟨i, e⟩ | e <;> rw [e]
    · show (call s 1 c).pc t = _; unfold call; split
      · simp [upd, ht, ih]
      · exact ih
    · show (drop s i).pc t = _; rw [drop_pc]; exact ih
    · show (tick s 1).pc t = _; rw [tick_pc_other _ _ _ ht]; exact ih

theorem calmUse_late (d : Nat) : (∀ t, (runFor (init Nat 4) calmUse (18 + d)).pc t = .idle) ∧ (runFor (init Nat 4) calmUse (18 + d)).refs = [] := by
  induction d with
  | zero =>
    refine ⟨fun t => ?_, rfl⟩
    by_cases h : t = 1
    · subst h; rfl
    · exact calmUse_other h 18
  | succ d ih =>
    have hs : runFor (init Nat 4) calmUse (18 + (d + 1)) = tick (runFor (init Nat 4) calmUse (18 + d)) 1 := by
      show act (runFor (init Nat 4) calmUse (18 + d)) (calmUse (18 + d)) = _
      have : calmUse (18 + d) = .step 1 := by rw [show 18 + d = d + 18 by omega]; rfl
      rw [this]; rfl
    rw [hs]
    unfold tick
    rw [ih.1 1]
    exact ih

/-! An execution in which references come and go and calls stop. -/
example : FairRun (init Nat 4) calmUse ∧ (∀ n, 18 ≤ n → ∀ t c, calmUse n ≠ .call t c) ∧
    Inside (runFor (init Nat 4) calmUse 5) 1 ∧ (runFor (init Nat 4) calmUse 9).refs ≠ [] := by
  refine ⟨⟨fun n t h => ?_, fun n h => ?_⟩, fun n hn t c e => ?_, (fun e => by cases e), (fun e => by cases e)⟩
  · have ht : t = 1 ∧ n < 18 := by
      refine Classical.byContradiction fun hne => h ?_
      by_cases hn : n < 18
      · exact calmUse_other (fun e => hne ⟨e, hn⟩) n
      · have := (calmUse_late (n - 18)).1 t
        rwa [show 18 + (n - 18) = n by omega] at this
    rw [ht.1]
    exact ⟨18, by omega, rfl⟩
  · have hn : n < 18 := Classical.byContradiction fun hn => h (by
      have := (calmUse_late (n - 18)).2
      rwa [show 18 + (n - 18) = n by omega] at this)
    by_cases h9 : n ≤ 9
    · exact ⟨9, 0, h9, rfl, by decide⟩
    · exact ⟨17, 0, by omega, rfl, by decide⟩
  · rcases calmUse_cases n with ⟨h, _⟩ | ⟨i, h⟩ | h
    · omega
    · rw [h] at e; cases e
    · rw [h] at e; cases e

end Ring

/-! ## a sink -/
namespace SinkFull
open SinkConc (Cfg Ch)

/-- **C92**, progress: any number of clients calling `push`, `flush`, `async_flush` and `rotate` of a console, file or syslog sink, with
its worker, on the queue that is written, any schedule in which every thread that has something to do is scheduled again, and a spin lock
that starves nobody: as long as a call is pending, some call returns. -/
theorem C92_some_call_returns_partial {c : Cfg} {o : Bool} {σ : Nat → Deed} {R : Nat → St} (h : Endless c o σ R) (hcap : 0 < c.capacity)
    (hl : NobodyStarves R) {n : Nat} {t : Tid} (ht : InCall (R n) t) : ∃ m u, n ≤ m ∧ ReturnsAt R m u := by
  obtain ⟨m, u, h1, h2, h3, h4⟩ := h.client_progress hcap hl ht.2.1 ht.1 ht.2.2
  exact ⟨m, u, h1, h2, h3, h4⟩

/-- **C92**, completion: and when no more calls are made, all of them return. -/
theorem C92_all_calls_return_partial {c : Cfg} {o : Bool} {σ : Nat → Deed} {R : Nat → St} (h : Endless c o σ R) (hcap : 0 < c.capacity)
    (hl : NobodyStarves R) {n : Nat} (ho : (R n).owner = none) (hN : ∀ m, n ≤ m → ∀ t k, σ m ≠ .call t k) :
    ∃ m, n ≤ m ∧ ∀ t, ¬ InCall (R m) t := by
  obtain ⟨m, h1, h2⟩ := h.all_return hcap hl ho hN
  exact ⟨m, h1, fun t ht => ht.2.2 (h2 t ht.1)⟩

/-- **C92**, destructor: a destructor that has been started finishes; nothing is assumed about the lock.  Each wait of the worker ends,
which its deadline sees to (whether it also ends earlier, because of the destructor's notification, is C96), and the store of the destructor
becomes visible to the worker some time. -/
theorem C92_destructor_ends {c : Cfg} {o : Bool} {σ : Nat → Deed} {R : Nat → St} (h : Endless c o σ R) (hcap : 0 < c.capacity)
    (hw : WaitsEnd R) (hv : StoresSeen σ) {n : Nat} {d : Tid} (hd : Destroying (R n) d) : ∃ m, n ≤ m ∧ Destroyed (R m) d :=
  h.destructor_ends hcap hw hv hd

/-! ### without a fair lock there is a livelock -/

def cfg1 : Cfg := { cfg2 .file true with capacity := 1 }

/-- Thread 3 has put "a", thread 1 found the queue full and is inside `flush`, in front of the lock of the queue; thread 3 found `flush`
busy and returned; thread 2 starts to push. -/
def lockedActs : List Act :=
  [.call 3 (.push (SinkConc.ev ['a'])), .run 3 11, .call 1 (.push (SinkConc.ev ['b'])), .run 1 6, .run 3 2, .call 2 (.push (SinkConc.ev ['c']))]

def lockedState : St := (exec cfg1 lockedActs (init cfg1 true)).get (by rfl)

theorem locked_reach : Reach cfg1 true lockedState := exec_reach .init (Option.some_get _).symm

/-- thread 2 tries again and again; thread 1 looks at the lock only while thread 2 has it -/
def lockedDeed (n : Nat) : Deed := if n % 6 = 3 then .step 1 SinkConc.calmCh else .step 2 SinkConc.calmCh

def lockedRun : Nat → St
  | 0 => lockedState
  | n + 1 => if n % 6 = 3 then step cfg1 (lockedRun n) 1 SinkConc.calmCh else step cfg1 (lockedRun n) 2 SinkConc.calmCh

structure LockedAt (s : St) (b : Bool) (p : PC) (rp : Ring.PC Event) : Prop where
  one : s.pc 1 = .getIn (.retry (SinkConc.ev ['b']))
  oneR : s.ring.pc 1 = .getSpin
  two : s.pc 2 = p
  twoR : s.ring.pc 2 = rp
  others : ∀ t, t ≠ 1 → t ≠ 2 → ¬ Running (s.pc t)
  refs : s.ring.refs = []
  busy : s.ring.buf.busy = b
  full : s.ring.buf.popIdx = s.ring.buf.pushIdx ∧ s.ring.buf.size ≠ 0
  flag : s.flag = true
  owner : s.owner = none

/-- the event thread 2 pushes -/
def evC : Event := SinkConc.ev ['c']

theorem locked_others {s : St} {ch : Ch} {t : Tid} (ht : t = 1 ∨ t = 2) (h : ∀ t, t ≠ 1 → t ≠ 2 → ¬ Running (s.pc t)) :
    ∀ u, u ≠ 1 → u ≠ 2 → ¬ Running ((step cfg1 s t ch).pc u) := by
  intro u h1 h2
  rw [Race.step_pc_other cfg1 s t ch u (by rcases ht with e | e <;> rw [e] <;> assumption)]
  exact h u h1 h2

theorem locked0 {s : St} (h : LockedAt s false (.put evC) .idle) : LockedAt (step cfg1 s 2 SinkConc.calmCh) false (.putIn evC) (.putSpin evC) := by
  have hr : (step cfg1 s 2 SinkConc.calmCh).ring = Ring.call s.ring 2 (.put evC) := by unfold step; simp only [h.two]; rfl
  have hc : Ring.call s.ring 2 (.put evC) = { s.ring with pc := upd s.ring.pc 2 (.putSpin evC), log := s.ring.log ++ [.inv 2 (.put evC)] } := by
    unfold Ring.call; simp only [h.twoR]
  refine ⟨?_, ?_, ?_, ?_, locked_others (.inr rfl) h.others, ?_, ?_, ?_, ?_, ?_⟩
  · rw [Race.step_pc_other cfg1 s 2 _ 1 (by decide)]; exact h.one
  · rw [hr, hc]; simp [upd, h.oneR]
  · unfold step; simp only [h.two]; simp [setPc, upd]
  · rw [hr, hc]; simp [upd]
  · rw [hr, hc]; exact h.refs
  · rw [hr, hc]; exact h.busy
  · rw [hr, hc]; exact h.full
  · unfold step; simp only [h.two]; exact h.flag
  · rw [step_owner]; exact h.owner

theorem locked1 {s : St} (h : LockedAt s false (.putIn evC) (.putSpin evC)) :
    LockedAt (step cfg1 s 2 SinkConc.calmCh) true (.putIn evC) (.putCheck evC) := by
  have hc : Ring.tick s.ring 2 = { s.ring with buf := { s.ring.buf with busy := true }, pc := upd s.ring.pc 2 (.putCheck evC) } := by
    unfold Ring.tick; simp only [h.twoR]; rw [h.busy, if_neg (by simp)]
  have hs : step cfg1 s 2 SinkConc.calmCh = { s with ring := Ring.tick s.ring 2 } := by
    unfold step; simp only [h.two]; rw [if_neg]; rw [hc]; simp [upd, outside]
  refine ⟨?_, ?_, ?_, ?_, locked_others (.inr rfl) h.others, ?_, ?_, ?_, ?_, ?_⟩ <;> rw [hs] <;> try rw [hc]
  · exact h.one
  · simp [upd, h.oneR]
  · exact h.two
  · simp [upd]
  · exact h.refs
  · exact h.full
  · exact h.flag
  · exact h.owner

theorem locked2 {s : St} (h : LockedAt s true (.putIn evC) (.putCheck evC)) :
    LockedAt (step cfg1 s 2 SinkConc.calmCh) true (.putIn evC) (.putFull evC) := by
  have hc : Ring.tick s.ring 2 = { s.ring with pc := upd s.ring.pc 2 (.putFull evC), log := s.ring.log ++ [.lin 2 (.put evC) .full] } := by
    unfold Ring.tick; simp only [h.twoR]; rw [if_pos h.full]
  have hs : step cfg1 s 2 SinkConc.calmCh = { s with ring := Ring.tick s.ring 2 } := by
    unfold step; simp only [h.two]; rw [if_neg]; rw [hc]; simp [upd, outside]
  refine ⟨?_, ?_, ?_, ?_, locked_others (.inr rfl) h.others, ?_, ?_, ?_, ?_, ?_⟩ <;> rw [hs] <;> try rw [hc]
  · exact h.one
  · simp [upd, h.oneR]
  · exact h.two
  · simp [upd]
  · exact h.refs
  · exact h.busy
  · exact h.full
  · exact h.flag
  · exact h.owner

theorem locked3 {s : St} (h : LockedAt s true (.putIn evC) (.putFull evC)) :
    LockedAt (step cfg1 s 1 SinkConc.calmCh) true (.putIn evC) (.putFull evC) := by
  have hc : Ring.tick s.ring 1 = s.ring := by
    unfold Ring.tick; simp only [h.oneR]; rw [h.busy, if_pos rfl]
  have hs : step cfg1 s 1 SinkConc.calmCh = s := by
    unfold step; simp only [h.one]; rw [hc, if_neg]; rw [h.oneR]; simp [outside]
  rw [hs]; exact h

theorem locked4 {s : St} (h : LockedAt s true (.putIn evC) (.putFull evC)) :
    LockedAt (step cfg1 s 2 SinkConc.calmCh) false (.enter (.retry evC)) .idle := by
  have hc : Ring.tick s.ring 2 = { s.ring with buf := { s.ring.buf with busy := false }, pc := upd s.ring.pc 2 .idle, log := s.ring.log ++ [.ret 2 .full] } := by
    unfold Ring.tick; simp only [h.twoR]
  have hs : step cfg1 s 2 SinkConc.calmCh = setPc { s with ring := Ring.tick s.ring 2 } 2 (.enter (.retry evC)) := by
    unfold step; simp only [h.two]; rw [if_pos, if_neg]
    · rw [hc]; simp [hasRef, h.refs]
    · rw [hc]; simp [upd, outside]
  refine ⟨?_, ?_, ?_, ?_, locked_others (.inr rfl) h.others, ?_, ?_, ?_, ?_, ?_⟩ <;> rw [hs] <;> try rw [hc]
  · simp [setPc, upd, h.one]
  · simp [setPc, upd, h.oneR]
  · simp [setPc, upd]
  · simp [setPc, upd]
  · exact h.refs
  · rfl
  · exact h.full
  · exact h.flag
  · exact h.owner

theorem locked5 {s : St} (h : LockedAt s false (.enter (.retry evC)) .idle) : LockedAt (step cfg1 s 2 SinkConc.calmCh) false (.put evC) .idle := by
  have hs : step cfg1 s 2 SinkConc.calmCh = setPc s 2 (.put evC) := by
    unfold step; simp only [h.two]; rw [h.flag, if_pos rfl]; rfl
  refine ⟨?_, ?_, ?_, ?_, locked_others (.inr rfl) h.others, ?_, ?_, ?_, ?_, ?_⟩ <;> rw [hs]
  · simp [setPc, upd, h.one]
  · exact h.oneR
  · simp [setPc, upd]
  · exact h.twoR
  · exact h.refs
  · exact h.busy
  · exact h.full
  · exact h.flag
  · exact h.owner

/-- the thread of an action -/
def Act.who : Act → Tid
  | .call t _ => t
  | .run t _ => t

theorem runN_other {c : Cfg} {t u : Tid} (h : u ≠ t) (n : Nat) (s : St) : (runN c t n s).pc u = s.pc u := by
  induction n generalizing s with
  | zero => rfl
  | succ n ih => exact (ih _).trans (Race.step_pc_other c s t _ u h)

theorem exec_others {c : Cfg} {as : List Act} {s s' : St} (he : exec c as s = some s') (u : Tid) (hu : ∀ a ∈ as, u ≠ a.who) : s'.pc u = s.pc u := by
  induction as generalizing s with
  | nil => cases he; rfl
  | cons a as ih =>
    have h1 := hu a List.mem_cons_self
    have h2 := fun a ha => hu a (List.mem_cons_of_mem _ ha)
    cases a with
    | call t call =>
      simp only [exec] at he
      split at he
      · refine (ih he h2).trans ?_
        show upd _ _ _ _ = _
        exact if_neg h1
      · cases he
    | run t n => exact (ih he h2).trans (runN_other h1 n s)

theorem locked_start : LockedAt lockedState false (.put evC) .idle := by
  refine ⟨rfl, rfl, rfl, rfl, fun t h1 h2 hr => ?_, rfl, rfl, ⟨rfl, by decide⟩, rfl, rfl⟩
  by_cases h3 : t = 3
  · subst h3; exact hr.1 rfl
  · by_cases h0 : t = 0
    · subst h0; exact hr.2.1 rfl
    · have := exec_others (c := cfg1) (as := lockedActs) (s := init cfg1 true) (s' := lockedState) (Option.some_get _).symm t (by
        intro a ha
        have : a.who = 1 ∨ a.who = 2 ∨ a.who = 3 := by
          simp [lockedActs] at ha
          rcases ha with rfl | rfl | rfl | rfl | rfl | rfl <;> simp [Act.who]
        rcases this with e | e | e <;> rw [e] <;> assumption)
      refine hr.1 (this.trans ?_)
      show (if t = SinkConc.workerTid then _ else _) = _
      exact if_neg h0

theorem locked_run (k : Nat) : LockedAt (lockedRun (6 * k)) false (.put evC) .idle := by
  induction k with
  | zero => exact locked_start
  | succ k ih =>
    have e0 : lockedRun (6 * k + 1) = step cfg1 (lockedRun (6 * k)) 2 SinkConc.calmCh := if_neg (by omega)
    have e1 : lockedRun (6 * k + 2) = step cfg1 (lockedRun (6 * k + 1)) 2 SinkConc.calmCh := if_neg (by omega)
    have e2 : lockedRun (6 * k + 3) = step cfg1 (lockedRun (6 * k + 2)) 2 SinkConc.calmCh := if_neg (by omega)
    have e3 : lockedRun (6 * k + 4) = step cfg1 (lockedRun (6 * k + 3)) 1 SinkConc.calmCh := if_pos (by omega)
    have e4 : lockedRun (6 * k + 5) = step cfg1 (lockedRun (6 * k + 4)) 2 SinkConc.calmCh := if_neg (by omega)
    have e5 : lockedRun (6 * k + 6) = step cfg1 (lockedRun (6 * k + 5)) 2 SinkConc.calmCh := if_neg (by omega)
    rw [show 6 * (k + 1) = 6 * k + 6 by omega, e5, e4, e3, e2, e1, e0]
    exact locked5 (locked4 (locked3 (locked2 (locked1 (locked0 ih)))))

theorem locked_at (n : Nat) : ∃ b p rp, LockedAt (lockedRun n) b p rp ∧ p ≠ .idle := by
  have h := locked_run (n / 6)
  generalize hk : n / 6 = k at h
  have e0 : lockedRun (6 * k + 1) = step cfg1 (lockedRun (6 * k)) 2 SinkConc.calmCh := if_neg (by omega)
  have e1 : lockedRun (6 * k + 2) = step cfg1 (lockedRun (6 * k + 1)) 2 SinkConc.calmCh := if_neg (by omega)
  have e2 : lockedRun (6 * k + 3) = step cfg1 (lockedRun (6 * k + 2)) 2 SinkConc.calmCh := if_neg (by omega)
  have e3 : lockedRun (6 * k + 4) = step cfg1 (lockedRun (6 * k + 3)) 1 SinkConc.calmCh := if_pos (by omega)
  have e4 : lockedRun (6 * k + 5) = step cfg1 (lockedRun (6 * k + 4)) 2 SinkConc.calmCh := if_neg (by omega)
  have h0 := locked0 h
  rw [← e0] at h0
  have h1 := locked1 h0
  rw [← e1] at h1
  have h2 := locked2 h1
  rw [← e2] at h2
  have h3 := locked3 h2
  rw [← e3] at h3
  have h4 := locked4 h3
  rw [← e4] at h4
  have : n = 6 * k ∨ n = 6 * k + 1 ∨ n = 6 * k + 2 ∨ n = 6 * k + 3 ∨ n = 6 * k + 4 ∨ n = 6 * k + 5 := by omega
  rcases this with e | e | e | e | e | e <;> rw [e]
  · exact ⟨_, _, _, h, by simp⟩
  · exact ⟨_, _, _, h0, by simp⟩
  · exact ⟨_, _, _, h1, by simp⟩
  · exact ⟨_, _, _, h2, by simp⟩
  · exact ⟨_, _, _, h3, by simp⟩
  · exact ⟨_, _, _, h4, by simp⟩

theorem locked_endless : Endless cfg1 true lockedDeed lockedRun := by
  refine ⟨locked_reach, fun n => ?_, fun n t hr => ?_⟩
  · unfold lockedDeed
    show Does cfg1 (lockedRun n) _ (if _ then _ else _)
    by_cases e : n % 6 = 3
    · rw [if_pos e, if_pos e]; rfl
    · rw [if_neg e, if_neg e]; rfl
  · obtain ⟨b, p, rp, h, _⟩ := locked_at n
    by_cases h1 : t = 1
    · exact ⟨6 * n + 3, SinkConc.calmCh, by omega, by unfold lockedDeed; rw [if_pos (by omega), h1]⟩
    · by_cases h2 : t = 2
      · exact ⟨6 * n, SinkConc.calmCh, by omega, by unfold lockedDeed; rw [if_neg (by omega), h2]⟩
      · exact absurd hr (h.others t h1 h2)

/-- **C92 is false of the code** when nothing is assumed about the lock: the thread that is supposed to empty the queue keeps finding the
lock taken by a thread whose push finds the queue full; both keep being scheduled and no call ever returns. -/
theorem C92_refuted : ¬ ∀ (c : Cfg) (o : Bool) (σ : Nat → Deed) (R : Nat → St), Endless c o σ R → 0 < c.capacity → ∀ n t,
    InCall (R n) t → ∃ m u, n ≤ m ∧ ReturnsAt R m u := by
  intro h
  obtain ⟨m, u, _, hu⟩ := h cfg1 true lockedDeed lockedRun locked_endless (by decide) 0 1 ⟨by decide, locked_start.owner, by rw [show lockedRun 0 = lockedState from rfl, locked_start.one]; simp⟩
  obtain ⟨b, p, rp, h1, hp⟩ := locked_at m
  obtain ⟨b', p', rp', h2, hp'⟩ := locked_at (m + 1)
  have hi := hu.2.2
  by_cases e1 : u = 1
  · rw [e1, h2.one] at hi; cases hi
  · by_cases e2 : u = 2
    · rw [e2, h2.two] at hi; exact hp' hi
    · refine hu.2.1 (Classical.byContradiction fun hne => h1.others u e1 e2 ⟨hne, fun hx => ?_, fun hx => ?_⟩)
      · obtain ⟨a, hr, hrel⟩ := rel_refines (c := cfg1) (by decide) (locked_endless.reach m)
        obtain ⟨_, base, hR⟩ := hrel
        have h3 := hR.pcs u
        rw [hx] at h3
        have h4 := (SinkConc.roles_reach hr).clients (by rw [show a.owner = (lockedRun m).owner by rename_i h5; rw [h5]; rfl]; exact h1.owner) u hu.1
        rw [(h3.of_simple rfl).2.2] at h4; cases h4
      · obtain ⟨a, hr, hrel⟩ := rel_refines (c := cfg1) (by decide) (locked_endless.reach m)
        obtain ⟨_, base, hR⟩ := hrel
        have h3 := hR.pcs u
        rw [hx] at h3
        have h4 := (SinkConc.roles_reach hr).clients (by rw [show a.owner = (lockedRun m).owner by rename_i h5; rw [h5]; rfl]; exact h1.owner) u hu.1
        rw [(h3.of_simple rfl).2.2] at h4; cases h4

/-! ### executions the theorems apply to -/

/-- thread `t` alone, for ever -/
def solo (c : Cfg) (t : Tid) (s : St) : Nat → St
  | 0 => s
  | n + 1 => step c (solo c t s n) t SinkConc.calmCh

theorem solo_endless {c : Cfg} {o : Bool} {t : Tid} {s : St} (hr : Reach c o s) (ho : ∀ u, u ≠ t → ¬ Running (s.pc u)) :
    Endless c o (fun _ => .step t SinkConc.calmCh) (solo c t s) := by
  refine ⟨hr, fun n => rfl, fun n u hu => ?_⟩
  by_cases e : u = t
  · exact ⟨n, _, Nat.le_refl _, by rw [e]⟩
  · have : ∀ n, (solo c t s n).pc u = s.pc u := by
      intro n
      induction n with
      | zero => rfl
      | succ n ih => exact (Race.step_pc_other c _ t _ u e).trans ih
    rw [this] at hu
    exact absurd hu (ho u e)

theorem init_idle {c : Cfg} {o : Bool} {t u : Tid} (hl : c.latency0 = true) (p : PC) (h : u ≠ t) : ¬ Running ((setPc (init c o) t p).pc u) := by
  intro hr
  have : (setPc (init c o) t p).pc u = (init c o).pc u := by show upd _ _ _ _ = _; exact if_neg h
  rw [this] at hr
  unfold init at hr
  dsimp only at hr
  split at hr
  · rw [hl] at hr; exact hr.2.1 rfl
  · exact hr.1 rfl

/-- a push into a new sink -/
def soloPush : Nat → St := solo (cfg2 .file true) 1 (setPc (init (cfg2 .file true) true) 1 (startPC (.push (SinkConc.ev ['a']))))

theorem soloPush_endless : Endless (cfg2 .file true) true (fun _ => .step 1 SinkConc.calmCh) soloPush :=
  solo_endless (.next .init (.call _ 1 (by decide) rfl rfl _)) (fun u hu => init_idle rfl _ hu)

theorem soloPush_done (d : Nat) : (soloPush (40 + d)).pc 1 = .idle ∧ (soloPush (40 + d)).ring.pc 1 = .idle := by
  induction d with
  | zero => exact ⟨rfl, rfl⟩
  | succ d ih =>
    have : soloPush (40 + (d + 1)) = soloPush (40 + d) := by
      show step _ (soloPush (40 + d)) 1 _ = _
      unfold step; simp only [ih.1]
    rw [this]; exact ih

theorem soloPush_lock : NobodyStarves soloPush := by
  intro n t ht
  by_cases e : t = 1
  · subst e
    refine ⟨40 + n, by omega, ?_⟩
    rw [(soloPush_done n).2]; exact fun h => h
  · exfalso
    have : ∀ n, (soloPush n).ring.pc t = .idle := by
      intro n
      induction n with
      | zero => rfl
      | succ n ih =>
        exact (does_ring_same (c := cfg2 .file true) (s := soloPush n) (d := .step 1 SinkConc.calmCh) (s' := soloPush (n + 1)) rfl (t := t)
          (fun ch e' => by injection e' with e'; exact e e'.symm)).trans ih
    rw [this] at ht; exact ht

example : Endless (cfg2 .file true) true (fun _ => .step 1 SinkConc.calmCh) soloPush ∧ NobodyStarves soloPush ∧
    InCall (soloPush 0) 1 ∧ (soloPush 0).owner = none ∧ 0 < (cfg2 .file true).capacity :=
  ⟨soloPush_endless, soloPush_lock, ⟨by decide, rfl, (fun e => by cases e)⟩, rfl, by decide⟩

/-- an event is queued, all clients are outside, the worker waits -/
def queuedState : St := (exec (cfg2 .file false) [.call 2 (.push (SinkConc.ev ['a'])), .run 2 12] (init (cfg2 .file false) true)).get (by rfl)

theorem queued_idle {u : Tid} (hu : u ≠ 0) : queuedState.pc u = .idle := by
  by_cases h2 : u = 2
  · subst h2; rfl
  · refine (exec_others (c := cfg2 .file false) (s := init (cfg2 .file false) true) (s' := queuedState) (Option.some_get _).symm u (by
      intro a ha
      have : a.who = 2 := by simp at ha; rcases ha with rfl | rfl <;> rfl
      rw [this]; exact h2)).trans ?_
    exact if_neg hu

/-- client 1 destroys it; the worker and client 1 take turns -/
def duoDestroy : Nat → St
  | 0 => setPc { queuedState with owner := some 1 } 1 .dStart
  | n + 1 => step (cfg2 .file false) (duoDestroy n) (if n % 2 = 0 then 0 else 1) SinkConc.calmCh

theorem duo_endless : Endless (cfg2 .file false) true (fun n => .step (if n % 2 = 0 then 0 else 1) SinkConc.calmCh) duoDestroy := by
  refine ⟨.next (exec_reach .init (Option.some_get _).symm) (.destroy _ 1 (by decide) rfl (fun u hu => queued_idle hu)), fun n => rfl, fun n u hu => ?_⟩
  by_cases h0 : u = 0
  · exact ⟨2 * n, _, by omega, by rw [if_pos (by omega), h0]⟩
  · by_cases h1 : u = 1
    · exact ⟨2 * n + 1, _, by omega, by rw [if_neg (by omega), h1]⟩
    · exfalso
      have : ∀ n, (duoDestroy n).pc u = .idle := by
        intro n
        induction n with
        | zero =>
          show upd _ _ _ _ = _
          rw [upd, if_neg h1]; exact queued_idle h0
        | succ n ih =>
          refine (Race.step_pc_other _ _ _ _ u ?_).trans ih
          split <;> assumption
      exact hu.1 (this n)

theorem duo_waits : WaitsEnd duoDestroy := by
  intro n hn
  have hstep : ∀ n, n % 2 = 0 → (duoDestroy n).pc SinkConc.workerTid = .wWait → (duoDestroy (n + 1)).pc SinkConc.workerTid ≠ .wWait := by
    intro n h0 hn
    have : (duoDestroy (n + 1)).pc SinkConc.workerTid = .enter .worker := by
      show (step _ (duoDestroy n) (if n % 2 = 0 then 0 else 1) SinkConc.calmCh).pc SinkConc.workerTid = _
      rw [if_pos h0]
      unfold step; simp only [show (duoDestroy n).pc 0 = .wWait from hn]
      rw [if_pos (by rfl)]; rfl
    rw [this]; simp
  by_cases h0 : n % 2 = 0
  · exact ⟨n + 1, by omega, hstep n h0 hn⟩
  · refine ⟨n + 2, by omega, hstep (n + 1) (by omega) ?_⟩
    refine Eq.trans ?_ hn
    show (step _ (duoDestroy n) (if n % 2 = 0 then 0 else 1) SinkConc.calmCh).pc SinkConc.workerTid = _
    rw [if_neg h0]
    exact Race.step_pc_other _ _ _ _ _ (by decide)

example : Endless (cfg2 .file false) true (fun n => .step (if n % 2 = 0 then 0 else 1) SinkConc.calmCh) duoDestroy ∧
    WaitsEnd duoDestroy ∧ Destroying (duoDestroy 0) 1 ∧ (duoDestroy 0).ring.buf.size = 1 ∧ (duoDestroy 0).pc 0 = .wWait ∧
    ¬ Destroyed (duoDestroy 3) 1 :=
  ⟨duo_endless, duo_waits, rfl, rfl, rfl, (fun e => by cases e)⟩

end SinkFull
end Soralog
