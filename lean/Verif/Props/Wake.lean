import Verif.Proofs.Wake
import Verif.Props.Fair
/-!
# Does the worker hear what it is told?

C96.  The worker's wait is modelled as it is written (Model/Wake.lean).
-/
namespace Soralog
namespace Wake
open SinkConc (Cfg Ch workerTid)
open SinkFull (cfg2)

/-- **C96** when deadlines pass: whatever happens to notifications, a destructor that has been started finishes.  Loads may return old values, if
not for ever. -/
theorem C96_deadlines_partial {c : Cfg} {o : Bool} {σ : Nat → Deed} {R : Nat → St} (h : Endless c o σ R) (hcap : 0 < c.capacity)
    (hd : DeadlinesPass σ R) (hv : StoresSeen σ) {n : Nat} {d : Tid} (ho : SinkFull.Destroying (R n).sink d) :
    ∃ m, n ≤ m ∧ SinkFull.Destroyed (R m).sink d := by
  obtain ⟨N, hv⟩ := hv
  refine h.sink.destructor_ends hcap (h.waits_end hcap hd) ⟨N, fun n hn t ch e => ?_⟩ ho
  obtain ⟨ch', sp, h1, h2⟩ := sinkDeed_newest e
  rw [h2]; exact hv n hn t ch' sp h1

/-! ### the worker is waiting and the queue can be emptied by one flush -/

/-- between the start of the destructor and its notification; `i` counts -/
structure Told (d : Tid) (k i : Nat) (s : St) : Prop where
  asleep : s.asleep = true
  worker : s.sink.pc workerTid = .wWait
  silent : s.notifying workerTid = false
  owner : s.sink.owner = some d
  others : ∀ u, u ≠ workerTid → u ≠ d → s.sink.pc u = .idle ∧ s.notifying u = false
  size : s.sink.ring.buf.size ≤ k
  me : d ≠ workerTid
  phase : (i = 0 ∧ s.sink.pc d = .dStart ∧ s.notifying d = false ∧ s.roused = false) ∨
    (i = 1 ∧ s.sink.pc d = .dAsync ∧ s.notifying d = false ∧ s.sink.needFinalize = true ∧ s.roused = false) ∨
    (i = 2 ∧ s.sink.pc d = .dJoin ∧ s.notifying d = true ∧ s.sink.needFinalize = true ∧ s.roused = false) ∨
    (i = 3 ∧ s.sink.pc d = .dJoin ∧ s.notifying d = false ∧ s.sink.needFinalize = true ∧ s.roused = true)

/-- the worker has been woken -/
structure Woken (d : Tid) (k : Nat) (s : St) : Prop where
  worker : s.sink.pc workerTid = .enter .worker
  owner : s.sink.owner = some d
  fin : s.sink.needFinalize = true
  join : s.sink.pc d = .dJoin
  size : s.sink.ring.buf.size ≤ k

theorem told_step {c : Cfg} {s s' : St} {x : Deed} {d : Tid} {k i : Nat} (hlat : c.latency0 = false) (h : Told d k i s) (hx : Does c s x s')
    (hto : ∀ ch sp, x = .step workerTid ch sp → ch.timeout = false) (hsp : ∀ t ch sp, x = .step t ch sp → sp = false)
    (hnew : ∀ t ch sp, x = .step t ch sp → ch.newest = true) :
    (Told d k i s' ∧ ∀ ch sp, x ≠ .step (if i = 3 then workerTid else d) ch sp) ∨ (i < 3 ∧ Told d k (i + 1) s') ∨ (i = 3 ∧ Woken d k s') := by
  obtain ⟨h1, h2, h3, h4, h5, h6, h7, h8⟩ := h
  have hi3 : i ≤ 3 := by rcases h8 with h | h | h | h <;> omega
  cases x with
  | rest => rw [show s' = s from hx]; exact .inl ⟨⟨h1, h2, h3, h4, h5, h6, h7, h8⟩, fun _ _ e => by cases e⟩
  | call t k => obtain ⟨_, _, _, e, _⟩ := hx; rw [h4] at e; cases e
  | destroy t => obtain ⟨_, e, _⟩ := hx; rw [h4] at e; cases e
  | step t ch sp =>
    rw [show s' = step c s t ch sp from hx]
    have hsp' := hsp t ch sp rfl
    subst hsp'
    by_cases ht : t = workerTid
    · subst ht
      have hto' := hto ch false rfl
      unfold step
      rw [h3, if_neg (by simp), if_pos ⟨rfl, h2⟩, if_pos h1, hto', if_neg (by simp)]
      rcases h8 with ⟨e, h⟩ | ⟨e, h⟩ | ⟨e, h⟩ | ⟨e, hj, hn, hf, hr⟩
      · rw [h.2.2, if_neg (by simp)]
        exact .inl ⟨⟨h1, h2, h3, h4, h5, h6, h7, .inl ⟨e, h⟩⟩, fun _ _ e' => by rw [if_neg (by omega)] at e'; cases e'; exact h7 rfl⟩
      · rw [h.2.2.2, if_neg (by simp)]
        exact .inl ⟨⟨h1, h2, h3, h4, h5, h6, h7, .inr (.inl ⟨e, h⟩)⟩, fun _ _ e' => by rw [if_neg (by omega)] at e'; cases e'; exact h7 rfl⟩
      · rw [h.2.2.2, if_neg (by simp)]
        exact .inl ⟨⟨h1, h2, h3, h4, h5, h6, h7, .inr (.inr (.inl ⟨e, h⟩))⟩, fun _ _ e' => by rw [if_neg (by omega)] at e'; cases e'; exact h7 rfl⟩
      · refine .inr (.inr ⟨e, ?_⟩)
        rw [hr, if_pos (by rfl), hf, if_pos (by rw [hnew _ _ _ rfl]; simp)]
        have hst : SinkFull.step c s.sink workerTid { ch with timeout := true } = SinkFull.setPc s.sink workerTid (.enter .worker) := by
          unfold SinkFull.step; simp only [h2]; rfl
        rw [hst]
        exact ⟨by simp [SinkFull.setPc, upd], h4, hf, by simp [SinkFull.setPc, upd, h7, hj], h6⟩
    · by_cases htd : t = d
      · subst htd
        have hne : ¬ (t = workerTid ∧ s.sink.pc t = .wWait) := fun e => ht e.1
        have hwt : workerTid ≠ t := fun e => ht e.symm
        rcases h8 with ⟨e, hj, hn, hr⟩ | ⟨e, hj, hn, hf, hr⟩ | ⟨e, hj, hn, hf, hr⟩ | ⟨e, hj, hn, hf, hr⟩
        · have hst : SinkFull.step c s.sink t ch = SinkFull.setPc { s.sink with needFinalize := true } t .dAsync := by
            unfold SinkFull.step; simp only [hj]; rw [hlat, if_neg (by simp)]
          have hrq : requests c s.sink t = false := by unfold requests; simp only [hj]
          unfold step
          rw [hn, if_neg (by simp), if_neg hne, hst, hrq, if_neg (by simp)]
          refine .inr (.inl ⟨by omega, h1, ?_, h3, h4, fun u hu1 hu2 => ⟨?_, (h5 u hu1 hu2).2⟩, h6, h7, .inr (.inl ⟨by omega, ?_, hn, rfl, hr⟩)⟩)
          · simp [SinkFull.setPc, upd, hwt, h2]
          · simp [SinkFull.setPc, upd, hu2, (h5 u hu1 hu2).1]
          · simp [SinkFull.setPc, upd]
        · have hst : SinkFull.step c s.sink t ch = SinkFull.setPc { s.sink with needFlush := true } t .dJoin := by
            unfold SinkFull.step; simp only [hj]
          have hrq : requests c s.sink t = true := by unfold requests; simp only [hj]
          unfold step
          rw [hn, if_neg (by simp), if_neg hne, hst, hrq, if_pos rfl]
          refine .inr (.inl ⟨by omega, h1, ?_, ?_, h4, fun u hu1 hu2 => ⟨?_, ?_⟩, h6, h7, .inr (.inr (.inl ⟨by omega, ?_, ?_, hf, hr⟩))⟩)
          · simp [SinkFull.setPc, upd, hwt, h2]
          · simp [upd, hwt, h3]
          · simp [SinkFull.setPc, upd, hu2, (h5 u hu1 hu2).1]
          · simp [upd, hu2, (h5 u hu1 hu2).2]
          · simp [SinkFull.setPc, upd]
          · simp [upd]
        · unfold step
          rw [if_pos hn]
          refine .inr (.inl ⟨by omega, h1, h2, ?_, h4, fun u hu1 hu2 => ⟨(h5 u hu1 hu2).1, ?_⟩, h6, h7, .inr (.inr (.inr ⟨by omega, hj, ?_, hf, ?_⟩))⟩)
          · simp [upd, hwt, h3]
          · simp [upd, hu2, (h5 u hu1 hu2).2]
          · simp [upd]
          · simp [h1]
        · have hst : SinkFull.step c s.sink t ch = s.sink := by
            unfold SinkFull.step; simp only [hj]; rw [h2, if_neg (by simp)]
          have hrq : requests c s.sink t = false := by unfold requests; simp only [hj]
          unfold step
          rw [hn, if_neg (by simp), if_neg hne, hst, hrq, if_neg (by simp)]
          exact .inl ⟨⟨h1, h2, h3, h4, h5, h6, h7, .inr (.inr (.inr ⟨e, hj, hn, hf, hr⟩))⟩, fun _ _ e' => by rw [if_pos e] at e'; cases e'; exact ht rfl⟩
      · have hne : ¬ (t = workerTid ∧ s.sink.pc t = .wWait) := fun e => ht e.1
        have hst : SinkFull.step c s.sink t ch = s.sink := by unfold SinkFull.step; simp only [(h5 t ht htd).1]
        have hrq : requests c s.sink t = false := by unfold requests; simp only [(h5 t ht htd).1]
        unfold step
        rw [(h5 t ht htd).2, if_neg (by simp), if_neg hne, hst, hrq, if_neg (by simp)]
        refine .inl ⟨⟨h1, h2, h3, h4, h5, h6, h7, h8⟩, fun _ _ e' => ?_⟩
        split at e' <;> cases e'
        · exact ht rfl
        · exact htd rfl

theorem told_run {i : Nat} {d : Tid} {k : Nat} {s : St} (h : Told d k i s) :
    SinkFull.Running (s.sink.pc (if i = 3 then workerTid else d)) ∨ s.notifying (if i = 3 then workerTid else d) = true := by
  rcases h.phase with ⟨e, hj, hn⟩ | ⟨e, hj, hn⟩ | ⟨e, hj, hn⟩ | ⟨e, hj, hn⟩
  · rw [if_neg (by omega), hj]; exact .inl ⟨by simp, by simp, by simp⟩
  · rw [if_neg (by omega), hj]; exact .inl ⟨by simp, by simp, by simp⟩
  · rw [if_neg (by omega), hj]; exact .inl ⟨by simp, by simp, by simp⟩
  · rw [if_pos e, h.worker]; exact .inl ⟨by simp, by simp, by simp⟩

/-- **C96** when the worker is inside its wait, and no notification is on its way to it, at the moment the destructor is started, the sink is
a syslog sink or at most one event is queued, and there are neither spurious wake-ups nor loads of old values: the destructor finishes although no wait ever times out. -/
theorem C96_waiting_partial {c : Cfg} {o : Bool} {σ : Nat → Deed} {R : Nat → St} (h : Endless c o σ R) (hcap : 0 < c.capacity)
    (hto : NoTimeouts σ) (hsp : NoSpurious σ) (hnew : NoStale σ) {n : Nat} {d : Tid} (hd : σ n = .destroy d) (hw : (R n).asleep = true)
    (hr : (R n).roused = false) (hwait : (R n).sink.pc workerTid = .wWait) (hq : c.isSyslog = true ∨ (R n).sink.ring.buf.size ≤ 1) :
    ∃ m, n ≤ m ∧ SinkFull.Destroyed (R m).sink d := by
  have hs := h.next n
  rw [hd] at hs
  obtain ⟨e1, e2, e3, e4⟩ := hs
  have hlat : c.latency0 = false := by
    cases e : c.latency0
    · rfl
    · obtain ⟨a, har, hrel⟩ := SinkFull.rel_refines hcap (reach_sink (h.reach n))
      have h1 := (SinkConc.final_reach har).lat0 e
      have h2 := SinkFull.rel_simple_pc hrel (t := workerTid) (by rw [hwait]; rfl)
      rw [h1] at h2; cases h2
  have ne : workerTid ≠ d := fun e => e1 e.symm
  have h0 : Told d (R n).sink.ring.buf.size 0 (R (n + 1)) := by
    have hsil := worker_silent hcap (h.reach n)
    rw [e4]
    refine ⟨hw, ?_, hsil, rfl, fun u hu1 hu2 => ⟨?_, (e3 u hu1).2⟩, Nat.le_refl _, e1, .inl ⟨rfl, ?_, (e3 d e1).2, hr⟩⟩
    · simp [SinkFull.setPc, upd, ne, hwait]
    · simp [SinkFull.setPc, upd, hu2, (e3 u hu1).1]
    · simp [SinkFull.setPc, upd]
  generalize hk : (R n).sink.ring.buf.size = k at h0 hq
  have next : ∀ i, i < 3 → ∀ m, Told d k i (R m) → ∃ m', m ≤ m' ∧ Told d k (i + 1) (R m') := by
    intro i hi m hm
    refine h.advance (P := Told d k i) (Q := Told d k (i + 1)) (if i = 3 then workerTid else d) (fun s hs => told_run hs) (fun n' hn' => ?_) (fun n' ch sp e hn' => ?_) hm
    · rcases told_step hlat hn' (h.next n') (fun ch sp e => hto n' ch sp e) (fun t ch sp e => hsp n' t ch sp e) (fun t ch sp e => hnew n' t ch sp e) with h1 | h1 | h1
      · exact .inl h1.1
      · exact .inr h1.2
      · omega
    · rcases told_step hlat hn' (h.next n') (fun ch sp e => hto n' ch sp e) (fun t ch sp e => hsp n' t ch sp e) (fun t ch sp e => hnew n' t ch sp e) with h1 | h1 | h1
      · exact absurd e (h1.2 ch sp)
      · exact h1.2
      · omega
  obtain ⟨m1, l1, h1⟩ := next 0 (by omega) _ h0
  obtain ⟨m2, l2, h2⟩ := next 1 (by omega) _ h1
  obtain ⟨m3, l3, h3⟩ := next 2 (by omega) _ h2
  obtain ⟨m4, l4, h4⟩ : ∃ m', m3 ≤ m' ∧ Woken d k (R m') := by
    refine h.advance (P := Told d k 3) (Q := Woken d k) (if 3 = 3 then workerTid else d) (fun s hs => told_run hs) (fun n' hn' => ?_) (fun n' ch sp e hn' => ?_) h3
    · rcases told_step hlat hn' (h.next n') (fun ch sp e => hto n' ch sp e) (fun t ch sp e => hsp n' t ch sp e) (fun t ch sp e => hnew n' t ch sp e) with h1 | h1 | h1
      · exact .inl h1.1
      · omega
      · exact .inr h1.2
    · rcases told_step hlat hn' (h.next n') (fun ch sp e => hto n' ch sp e) (fun t ch sp e => hsp n' t ch sp e) (fun t ch sp e => hnew n' t ch sp e) with h1 | h1 | h1
      · exact absurd e (h1.2 ch sp)
      · omega
      · exact h1.2
  have hsk := (h.shift m4).sink
  have hfresh : ∀ j t ch, sinkDeed (R (m4 + j)) (σ (m4 + j)) = .step t ch → ch.newest = true := fun j t ch e => by
    obtain ⟨ch', sp, e1, e2⟩ := sinkDeed_newest e
    rw [e2]; exact hnew _ _ _ _ e1
  obtain ⟨m5, l5, h5⟩ := hsk.destructor_ends_from hcap (N := 0) (d := d) (hv := fun j _ t ch e => hfresh j t ch e) (fun j hj =>
    absurd hj (hsk.never_waits hcap (d := d) h4.owner h4.fin h4.worker h4.join (fun j t ch e => hfresh j t ch e) (hq.imp id fun hq => Nat.le_trans h4.size hq) j)) h4.owner
  exact ⟨m4 + m5, by omega, h5⟩

/-! ### otherwise it may hang -/

/-- no timeout -/
def noCh : Ch := ⟨true, 0, true, false, true⟩

/-- a call of a client, or some steps of a thread in which waits time out -/
inductive Act where
  | call (t : Tid) (k : SinkConc.Call)
  | run (t : Tid) (n : Nat)

def runN (c : Cfg) (s : St) (t : Tid) : Nat → St
  | 0 => s
  | n + 1 => runN c (step c s t SinkConc.calmCh false) t n

def exec (c : Cfg) : List Act → St → Option St
  | [], s => some s
  | .call t k :: l, s =>
    if t ≠ workerTid ∧ s.sink.pc t = .idle ∧ s.notifying t = false ∧ s.sink.owner = none then
      exec c l { s with sink := SinkFull.setPc s.sink t (SinkFull.startPC k) }
    else none
  | .run t n :: l, s => exec c l (runN c s t n)

/-- everybody but the worker and client 1 is away -/
def Away (s : St) : Prop := ∀ u, u ≠ 0 → u ≠ 1 → s.sink.pc u = .idle ∧ s.notifying u = false

theorem away_step {c : Cfg} {s : St} {t : Tid} {ch : Ch} {sp : Bool} (ht : t = 0 ∨ t = 1) (h : Away s) : Away (step c s t ch sp) := by
  intro u h1 h2
  have hu : u ≠ t := by rcases ht with e | e <;> rw [e] <;> assumption
  rw [(step_notifying_other hu).1, (step_notifying_other hu).2]
  exact h u h1 h2

theorem exec_reach {c : Cfg} {o : Bool} : ∀ {l : List Act} {s s' : St}, (∀ a ∈ l, match a with | .call t _ => t = 0 ∨ t = 1 | .run t _ => t = 0 ∨ t = 1) →
    Reach c o s → Away s → exec c l s = some s' → Reach c o s' ∧ Away s' := by
  intro l
  induction l with
  | nil => intro s s' _ h1 h2 h; cases h; exact ⟨h1, h2⟩
  | cons a l ih =>
    intro s s' hl h1 h2 h
    have hl' := fun b hb => hl b (List.mem_cons_of_mem _ hb)
    have ha := hl a List.mem_cons_self
    cases a with
    | call t k =>
      unfold exec at h
      split at h
      · rename_i hc
        refine ih hl' (.next (.call t k) h1 ⟨hc.1, hc.2.1, hc.2.2.1, hc.2.2.2, rfl⟩) (fun u h3 h4 => ?_) h
        have hu : u ≠ t := by rcases ha with e | e <;> rw [e] <;> assumption
        refine ⟨?_, (h2 u h3 h4).2⟩
        show upd _ _ _ _ = _
        rw [upd, if_neg hu]; exact (h2 u h3 h4).1
      · cases h
    | run t n =>
      unfold exec at h
      have key : ∀ n s, Reach c o s → Away s → Reach c o (runN c s t n) ∧ Away (runN c s t n) := by
        intro n
        induction n with
        | zero => intro s h1 h2; exact ⟨h1, h2⟩
        | succ n ihn => intro s h1 h2; exact ihn _ (.next (.step t _ _) h1 rfl) (away_step ha h2)
      exact ih hl' (key n s h1 h2).1 (key n s h1 h2).2 h

theorem init_away (c : Cfg) (o : Bool) : Away (init c o) := fun _ h _ => ⟨if_neg h, rfl⟩

/-- client 1 destroys the sink and gets as far as waiting for the worker; then both are scheduled in turn, and no wait times out -/
def hangDeed (ch : Ch) : Nat → Deed
  | 0 => .destroy 1
  | n + 1 => .step (if n < 3 ∨ n % 2 = 1 then 1 else 0) ch false

def hangRun (c : Cfg) (ch : Ch) (s : St) : Nat → St
  | 0 => s
  | 1 => { s with sink := SinkFull.setPc { s.sink with owner := some 1 } 1 .dStart }
  | n + 2 => step c (hangRun c ch s (n + 1)) (if n < 3 ∨ n % 2 = 1 then 1 else 0) ch false

theorem hang_who (n : Nat) : (if n < 3 ∨ n % 2 = 1 then 1 else 0 : Tid) = 0 ∨ (if n < 3 ∨ n % 2 = 1 then 1 else 0 : Tid) = 1 := by
  split
  · exact .inr rfl
  · exact .inl rfl

theorem hang_away {c : Cfg} {ch : Ch} {s : St} (h : Away s) : ∀ n, Away (hangRun c ch s n)
  | 0 => h
  | 1 => fun u h0 h1 => ⟨by show upd _ _ _ _ = _; rw [upd, if_neg h1]; exact (h u h0 h1).1, (h u h0 h1).2⟩
  | n + 2 => away_step (hang_who n) (hang_away h (n + 1))

theorem hang_endless {c : Cfg} {ch : Ch} {o : Bool} {s : St} (hr : Reach c o s) (h : Away s) (h1 : s.sink.pc 1 = .idle) (h2 : s.notifying 1 = false)
    (h3 : s.sink.owner = none) : Endless c o (hangDeed ch) (hangRun c ch s) := by
  refine ⟨hr, fun n => ?_, fun n t ht => ?_⟩
  · cases n with
    | zero =>
      refine ⟨by decide, h3, fun u hu => ?_, rfl⟩
      by_cases e : u = 1
      · rw [e]; exact ⟨h1, h2⟩
      · exact h u hu e
    | succ n => rfl
  · by_cases e0 : t = 0
    · exact ⟨2 * n + 5, ch, false, by omega, by
        show Deed.step (if 2 * n + 4 < 3 ∨ (2 * n + 4) % 2 = 1 then 1 else 0) ch false = _
        rw [if_neg (by omega), e0]⟩
    · by_cases e1 : t = 1
      · exact ⟨2 * n + 6, ch, false, by omega, by
          show Deed.step (if 2 * n + 5 < 3 ∨ (2 * n + 5) % 2 = 1 then 1 else 0) ch false = _
          rw [if_pos (by omega), e1]⟩
      · have := hang_away (c := c) (ch := ch) h n t e0 e1
        rcases ht with ht | ht
        · exact absurd this.1 ht.1
        · rw [this.2] at ht; cases ht

theorem hang_noTimeouts : NoTimeouts (hangDeed noCh) := by
  intro n ch sp e
  cases n with
  | zero => cases e
  | succ n => injection e with _ h _; rw [← h]; rfl

theorem hang_noStale : NoStale (hangDeed noCh) := by
  intro n t ch sp e
  cases n with
  | zero => cases e
  | succ n => injection e with _ h _; rw [← h]; rfl

theorem hang_noSpurious : NoSpurious (hangDeed noCh) := by
  intro n t ch sp e
  cases n with
  | zero => cases e
  | succ n => injection e with _ _ h; exact h.symm

/-- the worker waits and has not been notified, client 1 waits for it -/
def hangs (s : St) : Bool :=
  decide (s.sink.pc 0 = .wWait) && decide (s.sink.pc 1 = .dJoin) && s.asleep && !s.roused && !s.notifying 0 && !s.notifying 1

theorem hangs_step {c : Cfg} {s : St} {t : Tid} {ch : Ch} (hc : ch.timeout = false) (ht : t = 0 ∨ t = 1) (h : hangs s = true) : step c s t ch false = s := by
  unfold hangs at h
  simp only [Bool.and_eq_true, decide_eq_true_eq, Bool.not_eq_true'] at h
  obtain ⟨⟨⟨⟨⟨h0, h1⟩, h2⟩, h3⟩, h4⟩, h5⟩ := h
  rcases ht with e | e <;> subst e <;> unfold step
  · rw [h4, if_neg (by simp), if_pos ⟨rfl, h0⟩, if_pos h2, if_neg (by simp [hc]), h3, if_neg (by simp)]
  · have hst : SinkFull.step c s.sink 1 ch = s.sink := by
      unfold SinkFull.step; simp only [h1]; rw [show s.sink.pc workerTid = .wWait from h0, if_neg (by simp)]
    have hrq : requests c s.sink 1 = false := by unfold requests; simp only [h1]
    rw [h5, if_neg (by simp), if_neg (by intro e; exact absurd e.1 (by decide)), hst, hrq, if_neg (by simp)]

theorem hang_for_ever {c : Cfg} {s : St} {ch : Ch} (hc : ch.timeout = false) {K : Nat} (hK : hangs (hangRun c ch s (K + 1)) = true) (j : Nat) : hangRun c ch s (K + 1 + j) = hangRun c ch s (K + 1) := by
  induction j with
  | zero => rfl
  | succ j ih =>
    rw [show K + 1 + (j + 1) = (K + j) + 2 by omega]
    show step c (hangRun c ch s (K + j + 1)) _ ch false = _
    rw [show K + j + 1 = K + 1 + j by omega, ih]
    exact hangs_step hc (hang_who _) hK

theorem hang_not_destroyed {c : Cfg} {s : St} {ch : Ch} (hc : ch.timeout = false) {K : Nat} (hK : hangs (hangRun c ch s (K + 1)) = true)
    (hb : ∀ n : Nat, n < K + 1 → (hangRun c ch s n).sink.pc 1 ≠ .dead) (n : Nat) : (hangRun c ch s n).sink.pc 1 ≠ .dead := by
  by_cases h : n < K + 1
  · exact hb n h
  · have e := hang_for_ever hc hK (n - (K + 1))
    rw [show K + 1 + (n - (K + 1)) = n by omega] at e
    rw [e]
    unfold hangs at hK
    simp only [Bool.and_eq_true, decide_eq_true_eq, Bool.not_eq_true'] at hK
    rw [hK.1.1.1.1.2]; simp

/-- The worker has done one lap and is about to wait again; nothing is queued. -/
def lapState : St := (exec (cfg2 .file false) [.run 0 11] (init (cfg2 .file false) true)).get (by decide +kernel)

theorem lap_reach : Reach (cfg2 .file false) true lapState ∧ Away lapState :=
  exec_reach (l := [.run 0 11]) (by simp) .init (init_away _ _) (Option.some_get _).symm

theorem lap_facts : lapState.sink.pc 1 = .idle ∧ lapState.notifying 1 = false ∧ lapState.sink.owner = none ∧ lapState.sink.ring.buf.size = 0 ∧
    lapState.sink.pc 0 = .wWait ∧ lapState.asleep = false := by decide +kernel

theorem lap_hangs : hangs (hangRun (cfg2 .file false) noCh lapState (5 + 1)) = true := by decide +kernel

theorem lap_before : ∀ n : Nat, n < 5 + 1 → (hangRun (cfg2 .file false) noCh lapState n).sink.pc 1 ≠ .dead := by decide +kernel

/-- **C96** is false: the notification is lost if the worker has looked at the requests and is not inside its wait yet.  Nothing is queued,
nobody else uses the sink, everybody keeps being scheduled, and the destructor does not finish unless the deadline passes. -/
theorem C96_refuted : ¬ ∀ (c : Cfg) (σ : Nat → Deed) (R : Nat → St) (d : Tid) (n : Nat), Endless c true σ R → 0 < c.capacity →
    NoSpurious σ → NoStale σ → σ n = .destroy d → (R n).sink.ring.buf.size = 0 → ∃ m, n ≤ m ∧ SinkFull.Destroyed (R m).sink d := by
  intro h
  obtain ⟨h1, h2, h3, h4, _, _⟩ := lap_facts
  obtain ⟨m, _, hm⟩ := h (cfg2 .file false) (hangDeed noCh) (hangRun (cfg2 .file false) noCh lapState) 1 0
    (hang_endless lap_reach.1 lap_reach.2 h1 h2 h3) (by decide) hang_noSpurious hang_noStale rfl h4
  exact hang_not_destroyed rfl lap_hangs lap_before m hm

def twoActs : List Act :=
  [.run 0 11, .call 1 (.push (SinkConc.ev ['a'])), .run 1 12, .call 1 (.push (SinkConc.ev ['b'])), .run 1 12, .run 0 1]

/-- Two events are queued and the worker is inside its wait. -/
def twoState : St := (exec (cfg2 .file false) twoActs (init (cfg2 .file false) true)).get (by decide +kernel)

theorem two_reach : Reach (cfg2 .file false) true twoState ∧ Away twoState :=
  exec_reach (l := twoActs) (by simp [twoActs]) .init (init_away _ _) (Option.some_get _).symm

theorem two_facts : twoState.sink.pc 1 = .idle ∧ twoState.notifying 1 = false ∧ twoState.sink.owner = none ∧ twoState.sink.ring.buf.size = 2 ∧
    twoState.sink.pc 0 = .wWait ∧ twoState.asleep = true ∧ twoState.roused = false := by decide +kernel

theorem two_hangs : hangs (hangRun (cfg2 .file false) noCh twoState (50 + 1)) = true := by decide +kernel

theorem two_before : ∀ n : Nat, n < 50 + 1 → (hangRun (cfg2 .file false) noCh twoState n).sink.pc 1 ≠ .dead := by decide +kernel

/-- **C96** is false also when the worker is inside its wait when the destructor is started: a flush of a console or file sink writes one
event, and for the next one the worker waits for its deadline again. -/
theorem C96_waiting_refuted : ¬ ∀ (c : Cfg) (σ : Nat → Deed) (R : Nat → St) (d : Tid) (n : Nat), Endless c true σ R → 0 < c.capacity →
    NoSpurious σ → NoStale σ → σ n = .destroy d → (R n).asleep = true → (R n).roused = false → (R n).sink.pc workerTid = .wWait →
    ∃ m, n ≤ m ∧ SinkFull.Destroyed (R m).sink d := by
  intro h
  obtain ⟨h1, h2, h3, _, h4, h5, h6⟩ := two_facts
  obtain ⟨m, _, hm⟩ := h (cfg2 .file false) (hangDeed noCh) (hangRun (cfg2 .file false) noCh twoState) 1 0
    (hang_endless two_reach.1 two_reach.2 h1 h2 h3) (by decide) hang_noSpurious hang_noStale rfl h5 h6 h4
  exact hang_not_destroyed rfl two_hangs two_before m hm

/-! The hypotheses of the positive theorems can be met: one event queued, the worker waiting. -/

def oneActs : List Act := [.run 0 11, .call 1 (.push (SinkConc.ev ['a'])), .run 1 12, .run 0 1]

def oneState : St := (exec (cfg2 .file false) oneActs (init (cfg2 .file false) true)).get (by decide +kernel)

theorem one_reach : Reach (cfg2 .file false) true oneState ∧ Away oneState :=
  exec_reach (l := oneActs) (by simp [oneActs]) .init (init_away _ _) (Option.some_get _).symm

theorem one_facts : oneState.sink.pc 1 = .idle ∧ oneState.notifying 1 = false ∧ oneState.sink.owner = none ∧ oneState.sink.ring.buf.size = 1 ∧
    oneState.sink.pc 0 = .wWait ∧ oneState.asleep = true ∧ oneState.roused = false := by decide +kernel

example : ∃ R, Endless (cfg2 .file false) true (hangDeed noCh) R ∧ NoTimeouts (hangDeed noCh) ∧ NoSpurious (hangDeed noCh) ∧ NoStale (hangDeed noCh) ∧ (hangDeed noCh) 0 = .destroy 1 ∧
    (R 0).asleep = true ∧ (R 0).roused = false ∧ (R 0).sink.pc workerTid = .wWait ∧ (R 0).sink.ring.buf.size = 1 := by
  obtain ⟨h1, h2, h3, h4, h5, h6, h7⟩ := one_facts
  exact ⟨hangRun (cfg2 .file false) noCh oneState, hang_endless one_reach.1 one_reach.2 h1 h2 h3, hang_noTimeouts, hang_noSpurious, hang_noStale, rfl, h6, h7, h5, h4⟩

theorem calm_seen : StoresSeen (hangDeed SinkConc.calmCh) := by
  refine ⟨0, fun n _ t ch sp e => ?_⟩
  cases n with
  | zero => cases e
  | succ n => injection e with _ h _; rw [← h]; rfl

theorem calm_deadlines {c : Cfg} {o : Bool} {s : St} (hcap : 0 < c.capacity)
    (h : Endless c o (hangDeed SinkConc.calmCh) (hangRun c SinkConc.calmCh s)) : DeadlinesPass (hangDeed SinkConc.calmCh) (hangRun c SinkConc.calmCh s) := by
  intro n hall
  have hw : ∀ k, hangDeed SinkConc.calmCh (2 * k + 5) = .step workerTid SinkConc.calmCh false := fun k => by
    show Deed.step (if 2 * k + 4 < 3 ∨ (2 * k + 4) % 2 = 1 then 1 else 0) SinkConc.calmCh false = _
    rw [if_neg (by omega)]; rfl
  have hwait := hall (2 * n + 5) (by omega)
  by_cases ha : (hangRun c SinkConc.calmCh s (2 * n + 5)).asleep = true
  · exact ⟨2 * n + 5, _, _, by omega, ha, hw n, rfl⟩
  · refine ⟨2 * (n + 1) + 5, _, _, by omega, ?_, hw (n + 1), rfl⟩
    have h6 : (hangRun c SinkConc.calmCh s (2 * n + 6)).asleep = true := by
      show (step c (hangRun c SinkConc.calmCh s (2 * n + 5)) (if 2 * n + 4 < 3 ∨ (2 * n + 4) % 2 = 1 then 1 else 0) SinkConc.calmCh false).asleep = true
      rw [if_neg (by omega)]
      unfold step
      rw [show (hangRun c SinkConc.calmCh s (2 * n + 5)).notifying 0 = false from worker_silent hcap (h.reach _), if_neg (by simp), if_pos ⟨rfl, hwait⟩, if_neg ha]
    show (step c (hangRun c SinkConc.calmCh s (2 * n + 6)) (if 2 * n + 5 < 3 ∨ (2 * n + 5) % 2 = 1 then 1 else 0) SinkConc.calmCh false).asleep = true
    rw [if_pos (by omega)]
    unfold step
    split
    · exact h6
    · rw [if_neg (by intro e; exact absurd e.1 (by decide))]; exact h6

example : ∃ R, Endless (cfg2 .file false) true (hangDeed SinkConc.calmCh) R ∧ DeadlinesPass (hangDeed SinkConc.calmCh) R ∧
    StoresSeen (hangDeed SinkConc.calmCh) ∧ SinkFull.Destroying (R 1).sink 1 ∧ (R 1).sink.ring.buf.size = 2 ∧ ¬ SinkFull.Destroyed (R 5).sink 1 := by
  obtain ⟨h1, h2, h3, h4, h5, h6, h7⟩ := two_facts
  have h := hang_endless (ch := SinkConc.calmCh) two_reach.1 two_reach.2 h1 h2 h3
  exact ⟨hangRun (cfg2 .file false) SinkConc.calmCh twoState, h, calm_deadlines (by decide) h, calm_seen, rfl, h4, by unfold SinkFull.Destroyed; decide +kernel⟩

/-! ### loads of old values -/

def sleepActs : List Act := [.run 0 12]

/-- Nothing is queued, and the worker is inside its wait. -/
def sleepState : St := (exec (cfg2 .file false) sleepActs (init (cfg2 .file false) true)).get (by decide +kernel)

theorem sleep_reach : Reach (cfg2 .file false) true sleepState ∧ Away sleepState :=
  exec_reach (l := sleepActs) (by simp [sleepActs]) .init (init_away _ _) (Option.some_get _).symm

theorem sleep_facts : sleepState.sink.pc 1 = .idle ∧ sleepState.notifying 1 = false ∧ sleepState.sink.owner = none ∧ sleepState.sink.ring.buf.size = 0 ∧
    sleepState.sink.pc 0 = .wWait ∧ sleepState.asleep = true ∧ sleepState.roused = false := by decide +kernel

/-- no timeout, and loads return old values -/
def oldCh : Ch := { noCh with newest := false }

/-- the destructor as before; the first loads of the worker return old values -/
def oldDeed (n : Nat) : Deed := if n ≤ 8 then hangDeed oldCh n else hangDeed noCh n

theorem old_hangs : hangs (hangRun (cfg2 .file false) oldCh sleepState (8 + 1)) = true := by decide +kernel

theorem old_before : ∀ n : Nat, n < 8 + 1 → (hangRun (cfg2 .file false) oldCh sleepState n).sink.pc 1 ≠ .dead := by decide +kernel

theorem old_endless : Endless (cfg2 .file false) true oldDeed (hangRun (cfg2 .file false) oldCh sleepState) := by
  obtain ⟨h1, h2, h3, _, _, _, _⟩ := sleep_facts
  have h := hang_endless (ch := oldCh) sleep_reach.1 sleep_reach.2 h1 h2 h3
  refine ⟨h.start, fun n => ?_, fun n t ht => ?_⟩
  · unfold oldDeed
    by_cases hn : n ≤ 8
    · rw [if_pos hn]; exact h.next n
    · rw [if_neg hn]
      have e1 := hang_for_ever (ch := oldCh) rfl old_hangs (n - 9)
      have e2 := hang_for_ever (ch := oldCh) rfl old_hangs (n + 1 - 9)
      rw [show 8 + 1 + (n - 9) = n by omega] at e1
      rw [show 8 + 1 + (n + 1 - 9) = n + 1 by omega] at e2
      obtain ⟨k, rfl⟩ : ∃ k, n = k + 1 := ⟨n - 1, by omega⟩
      show hangRun _ _ _ _ = step _ (hangRun _ _ _ _) _ noCh false
      rw [e1, e2]
      exact (hangs_step rfl (hang_who k) old_hangs).symm
  · obtain ⟨m, ch, sp, h4, h5⟩ := h.fair (n + 9) t (by
      rcases ht with ht | ht
      · by_cases e0 : t = 0 ∨ t = 1
        · left
          have := hang_for_ever (ch := oldCh) rfl old_hangs n
          rw [show n + 9 = 8 + 1 + n by omega, this]
          have hh := old_hangs
          unfold hangs at hh
          simp only [Bool.and_eq_true, decide_eq_true_eq, Bool.not_eq_true'] at hh
          rcases e0 with e | e <;> subst e
          · rw [hh.1.1.1.1.1]; exact ⟨by simp, by simp, by simp⟩
          · rw [hh.1.1.1.1.2]; exact ⟨by simp, by simp, by simp⟩
        · exact absurd (hang_away sleep_reach.2 n t (fun e => e0 (.inl e)) (fun e => e0 (.inr e))).1 ht.1
      · by_cases e0 : t = 0 ∨ t = 1
        · left
          have := hang_for_ever (ch := oldCh) rfl old_hangs n
          rw [show n + 9 = 8 + 1 + n by omega, this]
          have hh := old_hangs
          unfold hangs at hh
          simp only [Bool.and_eq_true, decide_eq_true_eq, Bool.not_eq_true'] at hh
          rcases e0 with e | e <;> subst e
          · rw [hh.1.1.1.1.1]; exact ⟨by simp, by simp, by simp⟩
          · rw [hh.1.1.1.1.2]; exact ⟨by simp, by simp, by simp⟩
        · rw [(hang_away sleep_reach.2 n t (fun e => e0 (.inl e)) (fun e => e0 (.inr e))).2] at ht; cases ht)
    obtain ⟨k, rfl⟩ : ∃ k, m = k + 1 := ⟨m - 1, by omega⟩
    refine ⟨k + 1, noCh, false, by omega, ?_⟩
    unfold oldDeed
    rw [if_neg (by omega)]
    injection h5 with h6 _ _
    show Deed.step _ noCh false = _
    rw [h6]

/-- **C96** is false also when the worker is inside its wait and nothing is queued, if loads may return old values: the flags are stored without the mutex of
the condition variable and loaded with relaxed order, so the worker may be woken by the notification of the destructor, load the old values and wait
again.  All stores become visible, but too late. -/
theorem C96_old_values_refuted : ¬ ∀ (c : Cfg) (σ : Nat → Deed) (R : Nat → St) (d : Tid) (n : Nat), Endless c true σ R → 0 < c.capacity →
    NoSpurious σ → StoresSeen σ → σ n = .destroy d → (R n).asleep = true → (R n).roused = false → (R n).sink.pc workerTid = .wWait →
    (R n).sink.ring.buf.size = 0 → ∃ m, n ≤ m ∧ SinkFull.Destroyed (R m).sink d := by
  intro h
  obtain ⟨_, _, _, h4, h5, h6, h7⟩ := sleep_facts
  obtain ⟨m, _, hm⟩ := h (cfg2 .file false) oldDeed (hangRun (cfg2 .file false) oldCh sleepState) 1 0 old_endless (by decide)
    (by
      intro n t ch sp e
      unfold oldDeed at e
      cases n with
      | zero => cases e
      | succ n => split at e <;> (injection e with _ _ h; exact h.symm))
    ⟨9, by
      intro n hn t ch sp e
      unfold oldDeed at e
      rw [if_neg (by omega)] at e
      obtain ⟨k, rfl⟩ : ∃ k, n = k + 1 := ⟨n - 1, by omega⟩
      injection e with _ h _; rw [← h]; rfl⟩ rfl h6 h7 h5 h4
  exact hang_not_destroyed rfl old_hangs old_before m hm

end Wake
end Soralog
