import Verif.Proofs.SinkFull
import Verif.Props.Ring
import Verif.Props.SyslogConc
/-!
# C72: the sinks' guarantees on the queue as it is written

`SinkFull.Reach c opened f`: `f` is reachable by some schedule of any number of client threads, the worker and the destructor, where the
queue is the lock-free-looking `CircularBuffer` executed one atomic access at a time (no atomicity assumed) and events are read through
the `NodeRef`s.  `f.ring.log` is the history of the queue; `Spec.putsOf none f.ring.log` are the accepted events in the order in which
they entered the queue, `Spec.getsOf f.ring.log` those that have left it.
-/
namespace Soralog
namespace SinkFull
open Spec
open SinkConc (Cfg Ret Ch Call)
open Ring (building)

/-- the events the sink has accepted, in queue order -/
def accepted (f : St) : List Event := putsOf none f.ring.log

/-- the events thread `t` has put into the queue, in order -/
def acceptedFrom (t : Tid) (f : St) : List Event := putsOf (some t) f.ring.log

/-! ### concrete executions -/

inductive Act where
  | call (t : Tid) (c : Call)
  | run (t : Tid) (n : Nat)

def runN (c : Cfg) (t : Tid) : Nat → St → St
  | 0, s => s
  | n + 1, s => runN c t n (step c s t SinkConc.calmCh)

def exec (c : Cfg) : List Act → St → Option St
  | [], s => some s
  | .call t call :: as, s =>
    if t ≠ SinkConc.workerTid ∧ s.pc t = .idle ∧ s.owner.isNone then exec c as (setPc s t (startPC call)) else none
  | .run t n :: as, s => exec c as (runN c t n s)

theorem runN_reach {c : Cfg} {o : Bool} {t : Tid} {n : Nat} {s : St} (h : Reach c o s) : Reach c o (runN c t n s) := by
  induction n generalizing s with
  | zero => exact h
  | succ n ih => exact ih (.next h (.step s t SinkConc.calmCh))

theorem exec_reach {c : Cfg} {o : Bool} {as : List Act} {s s' : St} (h : Reach c o s) (he : exec c as s = some s') :
    Reach c o s' := by
  induction as generalizing s with
  | nil => cases he; exact h
  | cons a as ih =>
    cases a with
    | call t call =>
      simp only [exec] at he
      split at he
      · rename_i hc
        exact ih (.next h (Exec.call s t hc.1 hc.2.1 (by simpa using hc.2.2) call)) he
      · cases he
    | run t n => exact ih (runN_reach h) he

def cfg2 (kind : SinkConc.Kind) (latency0 : Bool) : Cfg := ⟨kind, latency0, 2, 100, fun e => e.message ++ ['\n'], fun es => es.flatMap (·.message)⟩

/-- Threads 1 and 2 are inside `put` at the same time, thread 2 spins on the lock; thread 1 publishes its element before it is
constructed and thread 3, inside `flush`, has to spin on the slot; then thread 2 stores its element too, and thread 3 takes "a". -/
def mixActs : List Act :=
  [.call 1 (.push (SinkConc.ev ['a'])), .run 1 3, .call 2 (.push (SinkConc.ev ['b'])), .run 2 3, .run 1 4, .call 3 .flush, .run 3 6,
   .run 1 5, .run 2 12, .run 3 30]

def mixState (kind : SinkConc.Kind) : St := (exec (cfg2 kind false) mixActs (init (cfg2 kind false) true)).get (by cases kind <;> rfl)

theorem mix_reach (kind : SinkConc.Kind) : Reach (cfg2 kind false) true (mixState kind) := exec_reach .init (Option.some_get _).symm

example : (accepted (mixState .file)).map (·.message) = [['a'], ['b']] ∧ (mixState .file).written.map (·.message) = [['a']] ∧
    (mixState .file).ring.buf.size = 1 ∧ (mixState .syslog).calls = [(5, ['a']), (5, ['a', 'b'])] ∧
    (∀ t ∈ [1, 2, 3], (mixState .file).pc t = .idle) := ⟨rfl, rfl, rfl, rfl, by decide⟩

/-! ## C72 -/

/-- **C72**, transport: whatever the sink on the real queue can show to a user -- accepted events in order, how many have left the
queue, events written, contents of the stream and of the file generations, `syslog()` calls, account of buffered bytes -- the sink on an
atomic queue can show too.  So every theorem about `SinkConc.Reach` (C22, C24–C28, C54, C70) holds with the queue as it is written. -/
theorem C72_same_observations (c : Cfg) (o : Bool) (hcap : 0 < c.capacity) (f : St) (h : Reach c o f) :
    ∃ s : SinkConc.St, SinkConc.Reach c o s ∧ s.put = accepted f ∧ s.put.take s.taken = getsOf f.ring.log ∧ s.written = f.written ∧
      s.gens = f.gens ∧ s.dev = f.dev ∧ s.sbuf = f.sbuf ∧ s.calls = f.calls ∧ s.size = f.size ∧ s.flag = f.flag ∧ s.owner = f.owner ∧
      (∀ t, f.pc t = .idle → s.pc t = .idle) ∧ (∀ t, f.pc t = .dead → s.pc t = .dead) := by
  obtain ⟨put, taken, phase, held, apc, base, hr, hR⟩ := refines hcap h
  refine ⟨_, hr, hR.log, ?_, rfl, rfl, rfl, rfl, rfl, rfl, rfl, rfl, ?_, ?_⟩
  · have h1 : put.take taken ++ put.drop taken = getsOf f.ring.log ++ put.drop taken := by
      rw [List.take_append_drop, ← Ring.legal_conserve hR.inv.legal]; exact hR.log
    exact List.append_cancel_right h1
  · intro t ht
    have := hR.pcs t
    rw [ht] at this
    exact (this.of_simple rfl).2.2
  · intro t ht
    have := hR.pcs t
    rw [ht] at this
    exact (this.of_simple rfl).2.2

/-- **C72**, safety of the accesses: under every schedule no slot out of range is accessed, no assertion of the queue fails, no event is
read before it is constructed, after its slot has been given away, or through an empty `NodeRef`; and the queue never holds more than
its capacity. -/
theorem C72_no_undefined_behaviour (c : Cfg) (o : Bool) (hcap : 0 < c.capacity) (f : St) (h : Reach c o f) :
    f.ub = false ∧ f.ring.ub = false ∧ f.ring.buf.size ≤ c.capacity := by
  obtain ⟨put, taken, phase, held, apc, base, hr, hR⟩ := refines hcap h
  exact ⟨hR.ub, hR.inv.ub, hR.inv.sizeLe⟩

/-- **C72**, C24 with the real queue: what has been handed to the stream is a prefix of the accepted events, at most one event that has
left the queue is missing from it, and the bytes handed to the stream are exactly the records of these events. -/
theorem C72_exactly_once_in_order (c : Cfg) (hcap : 0 < c.capacity) (f : St) (h : Reach c true f) :
    f.written <+: accepted f ∧ (accepted f).length ≤ f.written.length + 1 + f.ring.buf.size ∧
    (c.isSyslog = false → f.gens.flatten ++ f.dev ++ f.sbuf = f.written.flatMap c.render) := by
  obtain ⟨put, taken, phase, held, apc, base, hr, hR⟩ := refines hcap h
  obtain ⟨h1, h2⟩ := SinkConc.C24_written_is_prefix c _ hr
  have h3 := SinkConc.C24_stream_contents c true _ hr
  have hl : put = accepted f := hR.log
  refine ⟨hl ▸ h1, ?_, h3⟩
  have h2 : put.length ≤ f.written.length + 1 + (put.drop taken).length := h2
  rw [hR.inv.len] at h2
  rwa [← hl]

/-- **C72**, C28 with the real queue: whenever the process dies, what the operating system has is a prefix of the records of the accepted
events. -/
theorem C72_crash_prefix (c : Cfg) (hcap : 0 < c.capacity) (f : St) (h : Reach c true f) (hk : c.isSyslog = false) :
    f.gens.flatten ++ f.dev <+: (accepted f).flatMap c.render := by
  obtain ⟨put, taken, phase, held, apc, base, hr, hR⟩ := refines hcap h
  have := SinkConc.C28_crash_prefix c _ hr hk
  have hl : put = accepted f := hR.log
  rw [← hl]; exact this

/-- **C72**, C26 with the real queue: when the destructor of a sink with a worker has returned, every accepted event has been written. -/
theorem C72_destructor_writes_all (c : Cfg) (hcap : 0 < c.capacity) (f : St) (h : Reach c true f) (hl : c.latency0 = false) (d : Tid)
    (hd : f.owner = some d) (hdead : f.pc d = .dead) :
    f.written = accepted f ∧ (c.isFile = true → f.gens.flatten ++ f.dev = (accepted f).flatMap c.render) := by
  obtain ⟨put, taken, phase, held, apc, base, hr, hR⟩ := refines hcap h
  have hp := hR.pcs d
  rw [hdead] at hp
  have := SinkConc.C26_destructor_writes_all_partial c _ hr hl d hd (hp.of_simple rfl).2.2
  have hlog : put = accepted f := hR.log
  rw [← hlog]; exact this

/-- is the thread in the part of `flush` that takes events and writes? [file:136-243] -/
def inBody : PC → Bool
  | .get _ | .getIn _ | .uncount _ | .unref _ _ | .write _ _ | .casFlush _ | .sync _ | .casRotate _ | .reopen _ | .leave _
  | .sCall _ | .sUncount _ | .sUnref _ | .sClear _ => true
  | _ => false

theorem PCR.body {c : Cfg} {rp : Ring.PC Event} {ms : List (Ring.Ref Event)} {at_ : Nat → Nat → Prop} {p : PC} {ap : SinkConc.PC}
    (h : PCR c rp ms at_ p ap) : inBody p = ap.inBody ∨ p = .sizeIn := by
  cases p with
  | putIn e => obtain ⟨_, ⟨_, h⟩ | ⟨_, h⟩ | ⟨_, _, _, h, _⟩⟩ := h <;> (rw [h]; exact Or.inl rfl)
  | getIn k =>
    left
    obtain ⟨_, ⟨_, h⟩ | ⟨_, h⟩ | ⟨_, _, _, h⟩⟩ := h
    · rw [h]; rfl
    · rw [h, SinkConc.inBody_nothing]; rfl
    · rw [h, SinkConc.inBody_taking]; rfl
  | count => obtain ⟨_, _, _, _, _, h, _⟩ := h; rw [h]; exact Or.inl rfl
  | release => obtain ⟨_, _, _, _, _, h, _⟩ := h; rw [h]; exact Or.inl rfl
  | uncount k => obtain ⟨_, _, _, _, h⟩ := h; rw [h]; exact Or.inl rfl
  | unref k e => obtain ⟨_, _, _, _, h⟩ := h; rw [h]; exact Or.inl rfl
  | sCall k => obtain ⟨_, _, _, _, h⟩ := h; rw [h]; exact Or.inl rfl
  | sUncount k => obtain ⟨_, _, _, _, h⟩ := h; rw [h]; exact Or.inl rfl
  | sUnref k => obtain ⟨_, _, _, _, h⟩ := h; rw [h]; exact Or.inl rfl
  | sizeIn => exact Or.inr rfl
  | _ => left; rw [(h.of_simple rfl).2.2]; rfl

theorem PCR.body_true {c : Cfg} {rp : Ring.PC Event} {ms : List (Ring.Ref Event)} {at_ : Nat → Nat → Prop} {p : PC} {ap : SinkConc.PC}
    (h : PCR c rp ms at_ p ap) (hb : inBody p = true) : ap.inBody = true := by
  rcases h.body with h | h
  · rw [← h]; exact hb
  · rw [h] at hb; cases hb

/-- **C72**, C25 with the real queue: no two threads are in the guarded part of `flush`. -/
theorem C72_one_writer (c : Cfg) (o : Bool) (hcap : 0 < c.capacity) (f : St) (h : Reach c o f) (t u : Tid)
    (ht : inBody (f.pc t) = true) (hu : inBody (f.pc u) = true) : t = u := by
  obtain ⟨put, taken, phase, held, apc, base, hr, hR⟩ := refines hcap h
  exact (SinkConc.C25_one_writer c o _ hr).1 t u ((hR.pcs t).body_true ht) ((hR.pcs u).body_true hu)

/-- **C72**, C22 with the real queue: when no client is inside a call and the worker is not inside `flush` or the queue, the account of
buffered bytes is the total length of the queued messages -- those accepted and not taken out. -/
theorem C72_account_exact (c : Cfg) (o : Bool) (hcap : 0 < c.capacity) (f : St) (h : Reach c o f)
    (hq : ∀ t, t ≠ SinkConc.workerTid → f.pc t = .idle) (hw : inBody (f.pc SinkConc.workerTid) = false)
    (hw' : f.pc SinkConc.workerTid ≠ .sizeIn) (m : Nat)
    (hm : ∀ e ∈ accepted f, e.message.length ≤ m) (hfit : (c.capacity + 1) * m < 2 ^ 64) :
    ∃ q, accepted f = getsOf f.ring.log ++ q ∧ f.size = totalLength q := by
  obtain ⟨put, taken, phase, held, apc, base, hr, hR⟩ := refines hcap h
  refine ⟨put.drop taken, Ring.legal_conserve hR.inv.legal, ?_⟩
  have hlog : put = accepted f := hR.log
  refine SinkConc.C22_account_exact_concurrent c o _ hr ⟨?_, ?_⟩ m (by rw [← hlog] at hm; exact hm) hfit
  · intro t ht
    have := hR.pcs t
    rw [hq t ht] at this
    exact (this.of_simple rfl).2.2
  · rcases (hR.pcs SinkConc.workerTid).body with h | h
    · show (apc SinkConc.workerTid).inBody = false
      rw [← h]; exact hw
    · exact absurd h hw'

/-- **C72**, C70 with the real queue: the calls of `syslog()` are those of consecutive flushes over a prefix of the accepted events. -/
theorem C72_syslog_texts (c : Cfg) (hcap : 0 < c.capacity) (f : St) (h : Reach c true f) (hk : c.isSyslog = true) :
    ∃ runs : List (List Event), runs.flatten <+: accepted f ∧ f.calls = runs.flatMap (callsOfRun c.sysText) ∧
      (f.flag = false → runs.flatten = getsOf f.ring.log) := by
  obtain ⟨s, hr, h1, h2, _, _, _, _, h3, _, h4, _⟩ := C72_same_observations c true hcap f h
  obtain ⟨runs, r1, r2, r3⟩ := SinkConc.C70_syslog_texts c s hr hk
  exact ⟨runs, h1 ▸ r1, h3 ▸ r2, fun hf => by rw [r3 (by rw [h4]; exact hf), h2]⟩

/-- the hypotheses of the theorems above: a run on the real queue in which two `put`s and a `get` overlap -/
example : 0 < (cfg2 .file false).capacity ∧ Reach (cfg2 .file false) true (mixState .file) ∧ Reach (cfg2 .syslog false) true (mixState .syslog) ∧
    (mixState .file).pc SinkConc.workerTid = .wWait ∧ (mixState .file).size = 1 := ⟨by decide, mix_reach _, mix_reach _, rfl, rfl⟩

/-! ### a push that has returned has been accepted, once -/

/-- actions while thread `t` is inside its call -/
inductive During (c : Cfg) (t : Tid) : St → St → Prop where
  | refl (f : St) : During c t f f
  | more {f m f' : St} (h : f.pc t ≠ .idle) : Exec c f m → During c t m f' → During c t f f'

/-- the caller of `flush` still has to put this event -/
def owedBy : Ret → List Event
  | .retry e => [e]
  | _ => []

/-- what the thread's push still has to put into the queue -/
def owed (rp : Ring.PC Event) : PC → List Event
  | .put e => [e]
  | .putIn e => if (building rp).isSome then [] else [e]
  | .enter k | .get k | .getIn k | .uncount k | .unref k _ | .write k _ | .casFlush k | .sync k | .casRotate k | .reopen k | .leave k
  | .sCall k | .sUncount k | .sUnref k | .sClear k => owedBy k
  | _ => []

theorem putsOf_append (t : Option Tid) (a b : List (Entry Event)) : putsOf t (a ++ b) = putsOf t a ++ putsOf t b := by
  simp [putsOf, List.filterMap_append]

theorem tick_putsOf {cap : Nat} {s : Ring.St Event} {q : List Event} {base : Nat} (hI : Ring.Inv cap s q base) (t u : Tid) :
    putsOf (some u) (Ring.tick s t).log = putsOf (some u) s.log ++ (if u = t then newPuts (s.pc t) else []) := by
  have hpk := hI.pcs t
  unfold Ring.tick
  cases hp : s.pc t with
  | putCount v k =>
    rw [hp] at hpk
    dsimp only
    rw [if_pos hpk.2.1]
    dsimp only
    rw [putsOf_append]
    congr 1
    by_cases h : u = t <;> simp [putsOf, newPuts, h]
  | obsRead x =>
    dsimp only [newPuts]
    rw [putsOf_append]
    cases x <;> simp [putsOf]
  | _ =>
    dsimp only [newPuts]
    (repeat' split) <;> first
      | (rw [List.append_nil]; done)
      | ((try dsimp only); rw [putsOf_append]; rfl)

theorem call_putsOf (s : Ring.St Event) (t u : Tid) (x : Spec.Call Event) :
    putsOf (some u) (Ring.call s t x).log = putsOf (some u) s.log := by
  unfold Ring.call
  split
  · dsimp only; rw [putsOf_append]; simp [putsOf]
  · rfl

theorem drop_putsOf (s : Ring.St Event) (t u : Tid) : putsOf (some u) (dropRef s t).log = putsOf (some u) s.log := by
  unfold dropRef
  rw [(drop_refs s _).2.1]

/-- the event a push has to store is either still owed or in the history, exactly once -/
theorem step_owed {c : Cfg} {f : St} {put : List Event} {taken : Nat} {apc : Tid → SinkConc.PC} {base : Nat}
    (h : R c f put taken apc base) (t : Tid) (ch : Ch) :
    acceptedFrom t (step c f t ch) ++ owed ((step c f t ch).ring.pc t) ((step c f t ch).pc t) =
      acceptedFrom t f ++ owed (f.ring.pc t) (f.pc t) := by
  have hpc := h.pcs t
  have hset : ∀ (g : St) (p : PC), (setPc g t p).pc t = p := fun g p => by simp [setPc, upd]
  -- steps that do not touch the queue
  have plain : ∀ (g : St) (p : PC), step c f t ch = setPc g t p → acceptedFrom t g = acceptedFrom t f →
      owed (g.ring.pc t) p = owed (f.ring.pc t) (f.pc t) → acceptedFrom t (step c f t ch) ++ owed ((step c f t ch).ring.pc t) ((step c f t ch).pc t) =
      acceptedFrom t f ++ owed (f.ring.pc t) (f.pc t) := by
    intro g p hs ha ho
    rw [hs, hset]
    show acceptedFrom t g ++ owed (g.ring.pc t) p = _
    rw [ha, ho]
  have after : ∀ k rp, owed rp (afterFlush k) = owedBy k := by intro k rp; cases k <;> rfl
  cases hp : f.pc t with
  | putIn e =>
    rw [hp] at hpc
    obtain ⟨hms, hpc⟩ := hpc
    have hlog := tick_putsOf h.inv t t
    rw [if_pos rfl] at hlog
    have hmine := tick_mine f.ring t
    rw [hms, List.nil_append] at hmine
    by_cases hout : outside ((Ring.tick f.ring t).pc t) = true
    · by_cases hr : hasRef (Ring.tick f.ring t) t = true
      · have hs : step c f t ch = setPc { f with ring := Ring.tick f.ring t } t .count := by
          unfold step; simp only [hp]; rw [if_pos hout, if_pos hr]
        rw [hs, hset]
        show putsOf (some t) (Ring.tick f.ring t).log ++ [] = _
        rw [hlog]
        have hb : newPuts (f.ring.pc t) = [] ∧ (building (f.ring.pc t)).isSome = true := by
          cases hrp : f.ring.pc t with
          | putBuild v k => exact ⟨rfl, rfl⟩
          | getUnlock k v =>
            rw [hrp] at hpc
            rcases hpc with ⟨h1, _⟩ | ⟨h1, _⟩ | ⟨_, _, h1, _⟩ <;> cases h1
          | _ => rw [hrp] at hmine; rw [hasRef_false hmine] at hr; cases hr
        rw [hb.1]
        simp [owed, hb.2, acceptedFrom]
      · have hs : step c f t ch = setPc { f with ring := Ring.tick f.ring t } t (.enter (.retry e)) := by
          unfold step; simp only [hp]; rw [if_pos hout, if_neg hr]
        rw [hs, hset]
        show putsOf (some t) (Ring.tick f.ring t).log ++ [e] = _
        rw [hlog]
        rcases hpc with ⟨h1, _⟩ | ⟨h1, _⟩ | ⟨k, n, h1, _⟩
        · rcases phase_put_cases h1 with h1 | h1 | h1 | h1 | ⟨k, h1⟩ | ⟨k, h1⟩ | ⟨x, h1 | h1, hx⟩
          case inr.inr.inr.inr.inr.inl =>
            exfalso
            have hpk := h.inv.pcs t
            rw [h1] at hpk
            unfold Ring.tick at hout
            simp only [h1] at hout
            rw [if_pos hpk.2.1] at hout
            simp [upd, outside] at hout
          all_goals (rw [h1]; simp [newPuts, owed, building, acceptedFrom])
        · rw [h1]; simp [newPuts, owed, building, acceptedFrom]
        · exfalso
          cases hrp : f.ring.pc t with
          | putUnlock v k' => unfold Ring.tick at hout; simp [hrp, upd, outside] at hout
          | putInit v k' => unfold Ring.tick at hout; simp [hrp, upd, outside] at hout
          | putBuild v k' =>
            rw [hrp] at hmine
            rw [hasRef_true hmine] at hr
            exact hr rfl
          | _ => rw [hrp] at h1; cases h1
    · have hs : step c f t ch = { f with ring := Ring.tick f.ring t } := by
        unfold step; simp only [hp]; rw [if_neg hout]
      rw [hs]
      show putsOf (some t) (Ring.tick f.ring t).log ++ owed ((Ring.tick f.ring t).pc t) (f.pc t) = _
      rw [hlog, hp]
      rcases hpc with ⟨h1, _⟩ | ⟨h1, _⟩ | ⟨k, n, h1, _⟩
      · rcases phase_put_cases h1 with h1 | h1 | h1 | h1 | ⟨k, h1⟩ | ⟨k, h1⟩ | ⟨x, h1 | h1, hx⟩
        · unfold Ring.tick; simp only [h1]
          split <;> simp [newPuts, owed, building, acceptedFrom, upd, h1]
        · unfold Ring.tick; simp only [h1]
          split <;> simp [newPuts, owed, building, acceptedFrom, upd]
        · unfold Ring.tick; simp only [h1]
          (repeat' split) <;> simp [newPuts, owed, building, acceptedFrom, upd, h1]
        · unfold Ring.tick; simp only [h1]
          simp [newPuts, owed, building, acceptedFrom, upd]
        · unfold Ring.tick; simp only [h1]
          split <;> simp [newPuts, owed, building, acceptedFrom, upd, h1]
        · have hpk := h.inv.pcs t
          rw [h1] at hpk
          unfold Ring.tick; simp only [h1]
          rw [if_pos hpk.2.1]
          simp [newPuts, owed, building, acceptedFrom, upd]
        · unfold Ring.tick; simp only [h1]
          split <;> simp [newPuts, owed, building, acceptedFrom, upd, h1]
        · unfold Ring.tick; simp only [h1]
          simp [newPuts, owed, building, acceptedFrom, upd]
      · unfold Ring.tick at hout; simp [h1, upd, outside] at hout
      · cases hrp : f.ring.pc t with
        | putUnlock v k' => unfold Ring.tick; simp [hrp, newPuts, owed, building, acceptedFrom, upd]
        | putInit v k' => unfold Ring.tick; simp [hrp, newPuts, owed, building, acceptedFrom, upd]
        | putBuild v k' => unfold Ring.tick at hout; simp [hrp, upd, outside] at hout
        | _ => rw [hrp] at h1; cases h1
  | getIn k =>
    rw [hp] at hpc
    obtain ⟨hms, hpc⟩ := hpc
    have hlog := tick_putsOf h.inv t t
    rw [if_pos rfl] at hlog
    have hn : newPuts (f.ring.pc t) = [] := by
      rcases hpc with ⟨h1, _⟩ | ⟨h1, _⟩ | ⟨_, _, h1, _⟩
      · rcases phase_get_cases h1 with h1 | h1 | h1 | h1 | ⟨k, h1⟩ | ⟨k, h1⟩ | ⟨x, h1 | h1, hx⟩ <;> (rw [h1]; rfl)
      · rw [h1]; rfl
      · rw [h1]; rfl
    rw [hn, List.append_nil] at hlog
    by_cases hout : outside ((Ring.tick f.ring t).pc t) = true
    · by_cases hr : hasRef (Ring.tick f.ring t) t = true
      · rw [← hp]
        refine plain { f with ring := Ring.tick f.ring t } (taking c k) (by unfold step; simp only [hp]; rw [if_pos hout, if_pos hr]) hlog ?_
        rw [hp]; unfold taking; split <;> rfl
      · rw [← hp]
        refine plain { f with ring := Ring.tick f.ring t } (nothing c k) (by unfold step; simp only [hp]; rw [if_pos hout, if_neg hr]) hlog ?_
        rw [hp]; unfold nothing; split <;> rfl
    · have hs : step c f t ch = { f with ring := Ring.tick f.ring t } := by
        unfold step; simp only [hp]; rw [if_neg hout]
      rw [hs]
      show putsOf (some t) (Ring.tick f.ring t).log ++ owed ((Ring.tick f.ring t).pc t) (f.pc t) = _
      rw [hlog, hp]; rfl
  | sizeIn =>
    rw [hp] at hpc
    obtain ⟨hms, hpc⟩ := hpc
    have hlog := tick_putsOf h.inv t t
    rw [if_pos rfl] at hlog
    have hn : newPuts (f.ring.pc t) = [] := by
      rcases hpc with ⟨h1, _⟩ | ⟨_, h1, _⟩
      · rcases phase_size_cases h1 with h1 | h1 <;> (rw [h1]; rfl)
      · rw [h1]; rfl
    rw [hn, List.append_nil] at hlog
    rcases hpc with ⟨h1, _⟩ | ⟨n, h1, _⟩
    · have hs : step c f t ch = { f with ring := Ring.tick f.ring t } := by
        unfold step; simp only [hp]
        rcases phase_size_cases h1 with h1 | h1 <;> rw [h1]
      rw [hs]
      show putsOf (some t) (Ring.tick f.ring t).log ++ owed ((Ring.tick f.ring t).pc t) (f.pc t) = _
      rw [hlog, hp]; rfl
    · rw [← hp]
      refine plain { f with ring := Ring.tick f.ring t } (if n = 0 then .wExit else .wWait) (by unfold step; simp only [hp, h1]) hlog ?_
      rw [hp]; split <;> rfl
  | put e =>
    rw [hp] at hpc
    have hidle : f.ring.pc t = .idle := (hpc.of_simple (q := .put e) rfl).1
    rw [← hp]
    refine plain { f with ring := Ring.call f.ring t (.put e) } (.putIn e) (by unfold step; simp only [hp]) (call_putsOf _ _ _ _) ?_
    rw [hp]
    show owed ((Ring.call f.ring t (.put e)).pc t) _ = _
    unfold Ring.call
    simp [hidle, owed, building, upd]
  | get k =>
    rw [← hp]
    exact plain { f with ring := Ring.call f.ring t .get } (.getIn k) (by unfold step; simp only [hp]) (call_putsOf _ _ _ _) (by rw [hp]; rfl)
  | wSize =>
    rw [← hp]
    exact plain { f with ring := Ring.call f.ring t .size } .sizeIn (by unfold step; simp only [hp]) (call_putsOf _ _ _ _) (by rw [hp]; rfl)
  | release =>
    rw [← hp]
    exact plain { f with ring := dropRef f.ring t } .decide (by unfold step; simp only [hp]) (drop_putsOf _ _ _) (by rw [hp]; rfl)
  | unref k e =>
    rw [← hp]
    exact plain { f with ring := dropRef f.ring t } (.write k (some e)) (by unfold step; simp only [hp]) (drop_putsOf _ _ _) (by rw [hp]; rfl)
  | sUnref k =>
    rw [← hp]
    exact plain { f with ring := dropRef f.ring t } (.get k) (by unfold step; simp only [hp]) (drop_putsOf _ _ _) (by rw [hp]; rfl)
  | write k e =>
    cases e with
    | none => unfold step; simp only [hp]; simp [setPc, upd, owed, acceptedFrom]
    | some e => unfold step; simp only [hp]; split <;> simp [setPc, upd, owed, acceptedFrom]
  | enter k =>
    unfold step; simp only [hp]; split
    · rw [hset, after]; rfl
    · rw [hset]; rfl
  | leave k => unfold step; simp only [hp]; rw [hset, after]; rfl
  | _ => unfold step; simp only [hp] <;> (repeat' split) <;> first | rfl | (rw [hset]; rfl) | (rw [hp]; rfl) | (simp [owed, acceptedFrom, hp]; done)

theorem step_other {c : Cfg} {f : St} {put : List Event} {taken : Nat} {apc : Tid → SinkConc.PC} {base : Nat}
    (h : R c f put taken apc base) (t u : Tid) (ch : Ch) (hu : u ≠ t) :
    acceptedFrom u (step c f t ch) = acceptedFrom u f ∧ (step c f t ch).ring.pc u = f.ring.pc u ∧ (step c f t ch).pc u = f.pc u := by
  have hlog := tick_putsOf h.inv t u
  rw [if_neg hu, List.append_nil] at hlog
  have hset : ∀ (g : St) (p : PC), (setPc g t p).pc u = g.pc u := fun g p => by simp [setPc, upd, hu]
  have hdrop : ∀ r : Ring.St Event, (dropRef r t).pc = r.pc := fun r => (drop_refs r _).2.2
  unfold step
  (repeat' split) <;> (try dsimp only) <;> (repeat' split)
  all_goals first
    | exact ⟨rfl, rfl, rfl⟩
    | exact ⟨rfl, rfl, hset _ _⟩
    | exact ⟨hlog, tick_other _ hu, rfl⟩
    | exact ⟨hlog, tick_other _ hu, hset _ _⟩
    | exact ⟨call_putsOf _ _ _ _, call_other _ _ hu, hset _ _⟩
    | exact ⟨drop_putsOf _ _ _, by show (dropRef _ _).pc u = _; rw [hdrop], hset _ _⟩

/-- **C72**, no push is lost or doubled: when a call of `push(e)` of thread `t` has returned -- whatever the other threads, the worker
and the queue did meanwhile -- the events this thread has put into the queue are those before the call, then `e`, once. -/
theorem C72_push_accepts_once (c : Cfg) (o : Bool) (hcap : 0 < c.capacity) (f f' : St) (h : Reach c o f) (t : Tid) (ht : t ≠ SinkConc.workerTid)
    (hi : f.pc t = .idle) (hown : f.owner = none) (e : Event) (hd : During c t (setPc f t (startPC (.push e))) f') (hret : f'.pc t = .idle) :
    acceptedFrom t f' = acceptedFrom t f ++ [e] := by
  have h0 : Reach c o (setPc f t (startPC (.push e))) := .next h (.call f t ht hi hown (.push e))
  suffices H : ∀ {g g' : St}, During c t g g' → Reach c o g → g'.pc t = .idle →
      acceptedFrom t g' = acceptedFrom t g ++ owed (g.ring.pc t) (g.pc t) by
    have := H hd h0 hret
    rw [this]
    simp [setPc, upd, startPC, owed, acceptedFrom]
  intro g g' hd
  induction hd with
  | refl g => intro _ hi; rw [hi]; simp [owed]
  | @more g m g' hne he _ ih =>
    intro hr hret
    rw [ih (.next hr he) hret]
    obtain ⟨put, taken, phase, held, apc, base, _, hR⟩ := refines hcap hr
    cases he with
    | call u hu hi hd call =>
      have hut : t ≠ u := by intro h; subst h; exact hne hi
      simp [setPc, upd, hut, acceptedFrom]
    | destroy u hu hd hi => exact absurd (hi t ht) hne
    | step u ch =>
      by_cases hu : t = u
      · subst hu; exact step_owed hR t ch
      · obtain ⟨h1, h2, h3⟩ := step_other hR u t ch hu
        rw [h1, h2, h3]

theorem putsOf_sublist (t : Tid) (l : List (Entry Event)) : (putsOf (some t) l).Sublist (putsOf none l) := by
  induction l with
  | nil => exact .slnil
  | cons x l ih =>
    cases x with
    | inv u x => exact ih
    | ret u r => exact ih
    | lin u x r =>
      cases x with
      | put v =>
        cases r with
        | stored =>
          by_cases h : t = u
          · subst h; simpa [putsOf] using ih
          · have h1 : putsOf (some t) (Entry.lin u (.put v) .stored :: l) = putsOf (some t) l := by simp [putsOf, h]
            have h2 : putsOf none (Entry.lin u (.put v) .stored :: l) = v :: putsOf none l := by simp [putsOf]
            rw [h1, h2]; exact ih.cons v
        | _ => exact ih
      | _ => exact ih

/-- **C72**, order of one thread: the events of a thread stand among the accepted ones in the order in which the thread pushed them. -/
theorem C72_own_order (f : St) (t : Tid) : (acceptedFrom t f).Sublist (accepted f) := putsOf_sublist t _

/-- **C72**, order of arrival: accepted events keep their positions; with `C72_push_accepts_once`, an event whose push returned before
another push was called stands before the other one. -/
theorem C72_accepted_only_grows (c : Cfg) (o : Bool) (hcap : 0 < c.capacity) (f f' : St) (h : Reach c o f) (he : Exec c f f') :
    accepted f <+: accepted f' := by
  obtain ⟨put, taken, phase, held, apc, base, _, hR⟩ := refines hcap h
  cases he with
  | call t ht hi hd call => exact List.prefix_refl _
  | destroy t ht hd hi => exact List.prefix_refl _
  | step t ch =>
    have hlog : accepted f <+: putsOf none (Ring.tick f.ring t).log := by
      rw [tick_puts hR.inv t]; exact List.prefix_append _ _
    have hcall : ∀ x, accepted f <+: putsOf none (Ring.call f.ring t x).log := fun x => by
      rw [call_log]; exact List.prefix_refl _
    have hdrop : accepted f <+: putsOf none (dropRef f.ring t).log := by
      unfold dropRef; rw [(drop_refs f.ring _).2.1]; exact List.prefix_refl _
    unfold step
    (repeat' split) <;> (try dsimp only) <;> (repeat' split)
    all_goals first
      | exact List.prefix_refl _
      | exact hlog
      | exact hcall _
      | exact hdrop

/-- a push into a full queue that has to flush first: the queue has two places, the third push makes room for itself -/
example : ∃ f f' : St, exec (cfg2 .file false) [.call 1 (.push (SinkConc.ev ['a'])), .run 1 30, .call 1 (.push (SinkConc.ev ['b'])), .run 1 30]
      (init (cfg2 .file false) true) = some f ∧ f.pc 1 = .idle ∧ f.ring.buf.size = 2 ∧
    exec (cfg2 .file false) [.call 1 (.push (SinkConc.ev ['c'])), .run 1 60] f = some f' ∧ f'.pc 1 = .idle ∧
    (acceptedFrom 1 f').map (·.message) = [['a'], ['b'], ['c']] ∧ f'.written.map (·.message) = [['a']] := ⟨_, _, rfl, rfl, rfl, rfl, rfl, rfl, rfl⟩

end SinkFull
end Soralog
