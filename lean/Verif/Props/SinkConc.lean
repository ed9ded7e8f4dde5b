import Verif.Proofs.SinkConcLive
import Verif.Spec.Delivery
/-!
# C20, C21 (refutations), C22, C24–C29, C62: the sink under concurrency

`Reach c opened s`: `s` is reachable by some schedule of any number of client threads, the worker and the
destructor, from a new sink whose file could (`opened = true`; always so for the console) or could not be opened.
In a state, `put` is the sequence of accepted events in queue order, `written` the sequence of events whose records
have been handed to the output stream, `gens` and `dev` the contents the operating system has of the earlier and of
the current file, `sbuf` what is still inside the process.
-/
namespace Soralog
namespace SinkConc
open Spec

/-- a client thread's call has returned or it never made one -/
def Quiet (s : St) : Prop := (∀ t, t ≠ workerTid → s.pc t = .idle) ∧ (s.pc workerTid).inBody = false

/-! ### concrete executions -/

inductive Act where
  | call (t : Tid) (c : Call)
  | run (t : Tid) (n : Nat)

def startPC : Call → PC
  | .push e => .put e
  | .flush => .enter .done
  | .asyncFlush => .async
  | .rotate => .rotate

/-- a spill-free, failure-free choice -/
def calmCh : Ch := ⟨true, 0, true, true, true⟩

def runN (c : Cfg) (t : Tid) : Nat → St → St
  | 0, s => s
  | n + 1, s => runN c t n (step c s t calmCh)

def exec (c : Cfg) : List Act → St → Option St
  | [], s => some s
  | .call t call :: as, s =>
    if t ≠ workerTid ∧ s.pc t = .idle ∧ s.owner.isNone then exec c as (setPc s t (startPC call)) else none
  | .run t n :: as, s => exec c as (runN c t n s)

def Act.tid : Act → Tid
  | .call t _ => t
  | .run t _ => t

theorem runN_reach {c : Cfg} {o : Bool} {t : Tid} {n : Nat} {s : St} (h : Reach c o s) : Reach c o (runN c t n s) := by
  induction n generalizing s with
  | zero => exact h
  | succ n ih => exact ih (.next h (.step s t calmCh))

theorem runN_other {c : Cfg} {t u : Tid} {n : Nat} {s : St} (h : u ≠ t) : (runN c t n s).pc u = s.pc u := by
  induction n generalizing s with
  | zero => rfl
  | succ n ih => rw [runN, ih, step_pc_other c s t calmCh u h]

theorem exec_reach {c : Cfg} {o : Bool} {as : List Act} {s s' : St} (h : Reach c o s) (he : exec c as s = some s') :
    Reach c o s' := by
  induction as generalizing s with
  | nil => cases he; exact h
  | cons a as ih =>
    cases a with
    | call t call =>
      simp only [exec] at he
      split at he
      · rename_i hc
        refine ih ?_ he
        have := Reach.next h (Exec.call s t hc.1 hc.2.1 (by simpa using hc.2.2) call)
        cases call <;> exact this
      · cases he
    | run t n => exact ih (runN_reach h) he

theorem exec_other {c : Cfg} {as : List Act} {s s' : St} (he : exec c as s = some s') (u : Tid)
    (hu : ∀ a ∈ as, a.tid ≠ u) : s'.pc u = s.pc u := by
  induction as generalizing s with
  | nil => cases he; rfl
  | cons a as ih =>
    have h0 := hu a List.mem_cons_self
    cases a with
    | call t call =>
      simp only [exec] at he
      split at he
      · rw [ih he (fun a ha => hu a (List.mem_cons_of_mem _ ha))]
        show upd _ _ _ _ = _
        rw [upd, if_neg (fun h => h0 h.symm)]
      · cases he
    | run t n =>
      rw [ih he (fun a ha => hu a (List.mem_cons_of_mem _ ha))]
      exact runN_other (fun h => h0 h.symm)

def ev (m : Text) : Event := ⟨0, 0, [], [], .info, m⟩
def exampleCfg (latency0 : Bool) : Cfg := ⟨.file, latency0, 4, 100, fun e => e.message ++ ['\n'], fun _ => []⟩

/-- three pushes, two of them while the first thread is inside `flush`; all calls have returned at the end -/
def raceActs : List Act :=
  [.call 1 (.push (ev ['a'])), .run 1 5, .call 2 (.push (ev ['b'])), .run 2 5, .call 3 (.push (ev ['c'])), .run 3 5,
   .run 1 8]

def raceState : St := (exec (exampleCfg true) raceActs (init (exampleCfg true) true)).get rfl

theorem race_reach : Reach (exampleCfg true) true raceState := exec_reach .init (Option.some_get _).symm

theorem race_quiet : ∀ t, t ≠ workerTid → raceState.pc t = .idle := by
  intro t ht
  by_cases h1 : t = 1
  · subst h1; rfl
  by_cases h2 : t = 2
  · subst h2; rfl
  by_cases h3 : t = 3
  · subst h3; rfl
  have := exec_other (c := exampleCfg true) (as := raceActs) (s := init (exampleCfg true) true) (s' := raceState)
    (Option.some_get _).symm t (by
      intro a ha
      simp only [raceActs, List.mem_cons, List.not_mem_nil, or_false] at ha
      rcases ha with rfl | rfl | rfl | rfl | rfl | rfl | rfl <;>
        first | exact fun h => h1 h.symm | exact fun h => h2 h.symm | exact fun h => h3 h.symm)
  rw [this]
  simp only [init, if_neg ht]

/-! ## C20, C21: what concurrency breaks -/

/-- The full C20 is false: latency 0, three threads have pushed, *all* calls have returned, and two of the three
accepted events are still queued, not written. -/
theorem C20_refuted : ∃ (c : Cfg) (s : St), c.latency0 = true ∧ Reach c true s ∧ (∀ t, t ≠ workerTid → s.pc t = .idle) ∧
    s.put.map (·.message) = [['a'], ['b'], ['c']] ∧ s.written.map (·.message) = [['a']] :=
  ⟨exampleCfg true, raceState, rfl, race_reach, race_quiet, rfl, rfl⟩

/-- What remains true of C20 and C21 under concurrency: whenever no thread is writing, each event taken from the
queue has been written; a push or flush that itself got the right to write has written the oldest queued event. -/
theorem C20_taken_is_written_partial (c : Cfg) (s : St) (h : Reach c true s) (hf : s.flag = false) :
    s.written = s.put.take s.taken := ((flow_reach h).free hf).symm

/-- The calls a logger makes: push, then flush (`Logger::push`, logger.hpp).  Thread 2 logs "b" while thread 1 is
inside `flush`: both calls of thread 2 return and its record has not been written, also with latency ≠ 0 -/
def loggerRace : List Act :=
  [.call 1 (.push (ev ['a'])), .run 1 4, .call 1 .flush, .run 1 1, .call 2 (.push (ev ['b'])), .run 2 4, .call 2 .flush,
   .run 2 1]

/-- C21 is false under concurrency: thread 2 has logged "b" (push, then flush, both returned) and the record of "b" is
queued, not written. -/
theorem C21_refuted_concurrent : ∃ (c : Cfg) (s : St), c.latency0 = false ∧ exec c loggerRace (init c true) = some s ∧
    Reach c true s ∧ s.pc 2 = .idle ∧ ev ['b'] ∈ s.put.drop s.taken ∧ s.written = [] := by
  refine ⟨exampleCfg false, (exec (exampleCfg false) loggerRace (init (exampleCfg false) true)).get rfl, rfl,
    (Option.some_get _).symm, exec_reach .init (Option.some_get _).symm, rfl, ?_, rfl⟩
  show ev ['b'] ∈ [ev ['a'], ev ['b']]
  exact List.mem_cons_of_mem _ List.mem_cons_self

/-! ## C22 -/

theorem acc_total {phase : Nat → Phase} {start : Nat} {l : List Event}
    (h : ∀ i, i < l.length → phase (start + i) ≠ .made) : acc phase start l = totalLength l := by
  induction l generalizing start with
  | nil => rfl
  | cons e es ih =>
    rw [acc, if_neg (by simpa using h 0 (by simp)), ih]
    · simp [totalLength]
    · intro i hi
      have := h (i + 1) (by simp; omega)
      rw [show start + 1 + i = start + (i + 1) by omega]; exact this

theorem account_bound {c : Cfg} {o : Bool} {s : St} (h : Reach c o s) (m : Nat)
    (hm : ∀ e ∈ s.put, e.message.length ≤ m) : s.account ≤ c.capacity * m := by
  have htk := tick_reach h
  have h1 := acc_le s.phase s.taken (s.put.drop s.taken) m (fun e he => hm e (List.mem_of_mem_drop he))
  refine Nat.le_trans h1 (Nat.mul_le_mul_right m ?_)
  rw [List.length_drop]
  have := htk.cap
  omega

/-- **C22**, between calls: when no client is inside a call and the worker is not inside `flush`, the account of
buffered bytes is exactly the total length of the queued messages.  `m` bounds the message lengths (C07); a sink with
`capacity * m ≥ 2^64` could not allocate its queue. -/
theorem C22_account_exact_concurrent (c : Cfg) (o : Bool) (s : St) (h : Reach c o s) (hq : Quiet s) (m : Nat)
    (hm : ∀ e ∈ s.put, e.message.length ≤ m) (hfit : (c.capacity + 1) * m < 2 ^ 64) :
    s.size = totalLength (s.put.drop s.taken) := by
  have hnb : ∀ t, (s.pc t).inBody = false := by
    intro t
    by_cases ht : t = workerTid
    · subst ht; exact hq.2
    · rw [hq.1 t ht]; rfl
  have hf : s.flag = false := by
    cases hf : s.flag with
    | false => rfl
    | true => obtain ⟨t, ht⟩ := (excl_reach h).free hf; rw [hnb t] at ht; cases ht
  have htk := tick_reach h
  rw [(size_reach h).free hf, Nat.mod_eq_of_lt]
  · unfold St.account
    apply acc_total
    intro i hi hmade
    rw [List.length_drop] at hi
    obtain ⟨t, ht⟩ := (conv_reach h).made (s.taken + i) (by omega) hmade
    by_cases htw : t = workerTid
    · subst htw; have := (roles_reach h).worker; rw [ht] at this; cases this
    · rw [hq.1 t htw] at ht; cases ht
  · have := account_bound h m hm
    rw [Nat.succ_mul] at hfit
    show _ < 2 ^ 64
    omega

/-- **C22**, never negative: at the moment a thread subtracts the length of the event it has taken, the account is
at least that length, so the subtraction does not wrap around -- under every interleaving. -/
theorem C22_never_negative (c : Cfg) (o : Bool) (s : St) (h : Reach c o s) (t : Tid) (ch : Ch) (k : Ret) (e : Event)
    (hp : s.pc t = .uncount k e ∨ s.pc t = .sUncount k e) (m : Nat) (hm : ∀ e ∈ s.put, e.message.length ≤ m)
    (hfit : (c.capacity + 1) * m < 2 ^ 64) (hem : e.message.length ≤ m) :
    e.message.length ≤ s.size ∧ (step c s t ch).size = s.size - e.message.length := by
  have hb : (s.pc t).inBody = true := by rcases hp with hp | hp <;> rw [hp] <;> rfl
  have hs := (size_reach h).body t hb
  have hacc := account_bound h m hm
  have hpend : (s.pc t).pending = e.message.length := by rcases hp with hp | hp <;> rw [hp] <;> rfl
  rw [hpend] at hs
  have hlt : s.account + e.message.length < Sink.word := by
    rw [Nat.succ_mul] at hfit
    show _ < 2 ^ 64
    omega
  rw [Nat.mod_eq_of_lt hlt] at hs
  refine ⟨by omega, ?_⟩
  have hst : (step c s t ch).size = Sink.subSize s.size e.message.length := by
    rcases hp with hp | hp <;> (unfold step; simp only [hp]; rfl)
  rw [hst]
  have := subSize_mod s.size e.message.length (by omega)
  rw [Nat.mod_eq_of_lt (by omega), Nat.mod_eq_of_lt (by omega)] at this
  exact this

/-- the event being uncounted is one of the accepted ones -/
theorem uncount_mem {c : Cfg} {s : St} (h : Reach c true s) {t : Tid} {k : Ret} {e : Event}
    (hp : s.pc t = .uncount k e) : e ∈ s.put := by
  have := (flow_reach h).body t (by rw [hp]; rfl)
  rw [hp] at this
  apply List.mem_of_mem_take (i := s.taken)
  rw [this]
  simp [PC.flight]

/-- both hypotheses are met by a concrete state of a race: two events queued, all calls returned -/
example : raceState.size = 2 ∧ (∀ e ∈ raceState.put, e.message.length ≤ 1) ∧ ((exampleCfg true).capacity + 1) * 1 < 2 ^ 64 := by
  refine ⟨rfl, ?_, by decide⟩
  intro e he
  have : e ∈ [ev ['a'], ev ['b'], ev ['c']] := he
  simp only [List.mem_cons, List.not_mem_nil, or_false] at this
  rcases this with rfl | rfl | rfl <;> decide

/-! ## C24 -/

/-- **C24**: under every schedule the events whose records have been handed to the stream are a prefix of the accepted
events in queue order -- each exactly once, nothing else, nothing out of order -- and every accepted event that has
left the queue is written or about to be written by the one thread inside `flush`. -/
theorem C24_written_is_prefix (c : Cfg) (s : St) (h : Reach c true s) :
    s.written <+: s.put ∧ s.put.length ≤ s.written.length + 1 + (s.put.drop s.taken).length := by
  have hfl := flow_reach h
  have htk := tick_reach h
  cases hf : s.flag with
  | false =>
    have := hfl.free hf
    refine ⟨by rw [← this]; exact List.take_prefix _ _, ?_⟩
    rw [← this, List.length_take, List.length_drop]; have := htk.taken; omega
  | true =>
    obtain ⟨t, ht⟩ := (excl_reach h).free hf
    have := hfl.body t ht
    refine ⟨((List.prefix_append s.written (s.pc t).flight).trans (by rw [← this]; exact List.take_prefix _ _)), ?_⟩
    have hl : (s.put.take s.taken).length = s.written.length + (s.pc t).flight.length := by
      rw [this, List.length_append]
    have h1 : (s.pc t).flight.length ≤ 1 := by
      cases s.pc t <;> simp [PC.flight]
      rename_i k e; cases e <;> simp [PC.flight]
    rw [List.length_take] at hl
    rw [List.length_drop]; have := htk.taken; omega

/-- The bytes given to the stream -- all file generations, the current file and what is still buffered -- are the
rendered records of exactly those events, in order. -/
theorem C24_stream_contents (c : Cfg) (o : Bool) (s : St) (h : Reach c o s) (hk : c.isSyslog = false) :
    s.gens.flatten ++ s.dev ++ s.sbuf = s.written.flatMap c.render := by
  obtain ⟨parts, last, hs⟩ := streams_reach h
  rw [List.append_assoc, hs.cur, hs.gens, hs.written, List.flatMap_append, bytesOf_render hk]
  congr 1
  clear hs
  induction parts with
  | nil => rfl
  | cons p ps ih => simp only [List.map_cons, List.flatten_cons, List.flatMap_append, ih, bytesOf_render hk]

/-- Accepted events stay accepted and keep their position: no step ever changes what has been put or written before. -/
theorem C24_history_only_grows (c : Cfg) (o : Bool) (s s' : St) (hr : Reach c o s) (h : Exec c s s') : s.put <+: s'.put ∧ s.written <+: s'.written := by
  cases h with
  | call t ht hi hd call => exact ⟨List.prefix_refl _, List.prefix_refl _⟩
  | destroy t ht hd hi => exact ⟨List.prefix_refl _, List.prefix_refl _⟩
  | step t ch =>
    refine ⟨?_, ?_⟩
    · rcases step_queue c s t ch with ⟨h1, _⟩ | ⟨e, _, _, hs⟩ | ⟨n, _, hs⟩ | ⟨n, _, hs⟩ | ⟨k, e, _, _, _, hs⟩
      · rw [h1]; exact List.prefix_refl _
      · rw [hs]; exact List.prefix_append _ _
      · rw [hs]; exact List.prefix_refl _
      · rw [hs]; exact List.prefix_refl _
      · rw [hs]; exact List.prefix_refl _
    · rcases step_streams c s t ch (fits_reach hr t) with ⟨h1, _⟩ | ⟨e, h1, _⟩ | ⟨h1, _⟩
      · rw [h1]; exact List.prefix_refl _
      · rw [h1]; exact List.prefix_append _ _
      · rw [h1]; exact List.prefix_refl _

/-- a reachable state with something written and something queued -/
example : Reach (exampleCfg true) true raceState ∧ raceState.written.length = 1 ∧ raceState.put.length = 3 :=
  ⟨race_reach, rfl, rfl⟩

/-! ## C25 -/

/-- **C25**: at no time are two threads in the part of `flush` that takes events, uses the staging buffer and writes to
the stream; and `written`, the stream and the file generations are changed only by a thread that is there (or by the
destructor closing the stream). -/
theorem C25_one_writer (c : Cfg) (o : Bool) (s : St) (h : Reach c o s) :
    (∀ t u, (s.pc t).inBody = true → (s.pc u).inBody = true → t = u) ∧
    (∀ t ch, (step c s t ch).written ≠ s.written ∨ (step c s t ch).gens ≠ s.gens ∨ (step c s t ch).dev ≠ s.dev ∨
        (step c s t ch).sbuf ≠ s.sbuf ∨ (step c s t ch).taken ≠ s.taken →
      (s.pc t).inBody = true ∨ (s.pc t = .dEnd ∧ ∀ u, (s.pc u).inBody = false)) := by
  refine ⟨(excl_reach h).uniq, ?_⟩
  intro t ch hch
  by_cases hb : (s.pc t).inBody = true
  · exact Or.inl hb
  · right
    have hb : (s.pc t).inBody = false := by simpa using hb
    have hpd : s.pc t = .dEnd := by
      cases hp : s.pc t with
      | dEnd => rfl
      | write k e => rw [hp] at hb; cases hb
      | get k => rw [hp] at hb; cases hb
      | sync k => rw [hp] at hb; cases hb
      | reopen k => rw [hp] at hb; cases hb
      | sCall k e => rw [hp] at hb; cases hb
      | _ =>
        exfalso
        unfold step at hch; simp only [hp] at hch
        first
          | (simp [setPc] at hch; done)
          | (split at hch <;> simp [setPc] at hch; done)
          | (split at hch <;> (try split at hch) <;> simp [setPc] at hch; done)
    refine ⟨hpd, ?_⟩
    intro u
    have hr := roles_reach h
    by_cases hu : u = t
    · subst hu; exact hb
    · cases hown : s.owner with
      | none =>
        by_cases htw : t = workerTid
        · have := hr.worker; rw [← htw, hpd] at this; cases this
        · have := hr.clients hown t htw; rw [hpd] at this; cases this
      | some d =>
        obtain ⟨o1, o2, o3⟩ := hr.owner d hown
        have htd : t = d := by
          by_cases htw : t = workerTid
          · have := hr.worker; rw [← htw, hpd] at this; cases this
          · apply Classical.byContradiction
            intro hne; have := o3 t htw hne; rw [hpd] at this; cases this
        subst htd
        by_cases huw : u = workerTid
        · subst huw
          have hfin := final_reach h
          have : s.pc workerTid = .wExit := by
            cases hl : c.latency0 with
            | true => exact hfin.lat0 hl
            | false => exact hfin.ended t hown hl (Or.inl hpd)
          rw [this]; rfl
        · rw [o3 u huw hu]; rfl

/-- a state in which one thread is inside while another one tries: the second one returns at once -/
example : ∃ s, exec (exampleCfg true) [.call 1 .flush, .run 1 1, .call 2 .flush, .run 2 1] (init (exampleCfg true) true) =
    some s ∧ (s.pc 1).inBody = true ∧ s.pc 2 = .idle := ⟨_, rfl, rfl, rfl⟩

/-! ## C26 -/

/-- **C26**, sinks with a worker (latency ≠ 0, stream open): when the destructor has returned, every event ever
accepted has been written, whatever happened before; for a file all of it has reached the operating system.
Missing: latency 0 (`C26_zero_latency_partial`, `C26_refuted`) and a file that could not be opened
(`C26_unopened_file_refuted`). -/
theorem C26_destructor_writes_all_partial (c : Cfg) (s : St) (h : Reach c true s) (hl : c.latency0 = false) (d : Tid)
    (hd : s.owner = some d) (hdead : s.pc d = .dead) :
    s.written = s.put ∧ (c.isFile = true → s.gens.flatten ++ s.dev = s.put.flatMap c.render) := by
  have hfin := final_reach h
  have hw := hfin.ended d hd hl (Or.inr hdead)
  have hnb : ∀ t, (s.pc t).inBody = false := by
    intro t
    obtain ⟨o1, o2, o3⟩ := (roles_reach h).owner d hd
    by_cases htw : t = workerTid
    · subst htw; rw [hw]; rfl
    · by_cases htd : t = d
      · subst htd; rw [hdead]; rfl
      · rw [o3 t htw htd]; rfl
  have hf : s.flag = false := by
    cases hf : s.flag with
    | false => rfl
    | true => obtain ⟨t, ht⟩ := (excl_reach h).free hf; rw [hnb t] at ht; cases ht
  have hwr : s.written = s.put := by
    rcases hfin.exit hw with h1 | h1 | ⟨_, h2⟩
    · rw [hl] at h1; cases h1
    · cases h1
    · rw [← (flow_reach h).free hf, h2, List.take_length]
  refine ⟨hwr, ?_⟩
  intro hfile
  have := C24_stream_contents c true s h (by
    unfold Cfg.isFile at hfile; unfold Cfg.isSyslog; rw [of_decide_eq_true hfile]; rfl)
  rw [hfin.closed d hd hdead hfile, List.append_nil, hwr] at this
  exact this

/-- **C26**, latency 0: the destructor calls `flush` once, which writes one event; so everything is written if at most
one event is queued when the destructor starts (with one thread at a time none is, C20). -/
theorem C26_zero_latency_partial (c : Cfg) (s0 s : St) (h0 : Reach c true s0) (hl : c.latency0 = true) (d : Tid)
    (hdw : d ≠ workerTid) (hown : s0.owner = none) (hidle : ∀ u, u ≠ workerTid → s0.pc u = .idle) (hq : s0.queued ≤ 1)
    (hs : Steps c (setPc { s0 with owner := some d } d .dStart) s) (hdead : s.pc d = .dead) : s.written = s.put := by
  have hr1 : Reach c true (setPc { s0 with owner := some d } d .dStart) := .next h0 (.destroy s0 d hdw hown hidle)
  have hnt : ∀ t, (s0.pc t).ticket = none := by
    intro t
    by_cases ht : t = workerTid
    · subst ht; rw [(final_reach h0).lat0 hl]; rfl
    · rw [hidle t ht]; rfl
  have hready : ∀ n, n < s0.put.length → s0.phase n = .ready := by
    intro n hn
    cases hp : s0.phase n with
    | ready => rfl
    | made => obtain ⟨t, ht⟩ := (conv_reach h0).made n hn hp; have := hnt t; rw [ht] at this; cases this
    | counted => obtain ⟨t, ht⟩ := (conv_reach h0).counted n hn hp; have := hnt t; rw [ht] at this; cases this
  have hnb0 : ∀ t, (s0.pc t).inBody = false := by
    intro t
    by_cases ht : t = workerTid
    · subst ht; rw [(final_reach h0).lat0 hl]; rfl
    · rw [hidle t ht]; rfl
  have hf0 : s0.flag = false := by
    cases hf : s0.flag with
    | false => rfl
    | true => obtain ⟨t, ht⟩ := (excl_reach h0).free hf; rw [hnb0 t] at ht; cases ht
  -- what holds while the destructor runs
  have key : ∀ {a s : St}, Steps c a s → Reach c true a → a.owner = some d →
      ((a.queued ≤ 1 ∧ (a.pc d = .dStart ∨ a.pc d = .enter .destroy ∨ a.pc d = .get .destroy) ∧
        (a.pc d ≠ .get .destroy → a.flag = false)) ∨ a.queued = 0) → s.pc d = .dead →
      s.written = s.put := by
    intro a s hst
    induction hst with
    | refl a =>
      intro hr ho hor hdead
      have hqz : a.queued = 0 := by
        rcases hor with ⟨_, h2, _⟩ | h
        · rw [hdead] at h2; rcases h2 with h2 | h2 | h2 <;> cases h2
        · exact h
      have hnb : ∀ t, (a.pc t).inBody = false := by
        intro t
        obtain ⟨o1, o2, o3⟩ := (roles_reach hr).owner d ho
        by_cases htw : t = workerTid
        · subst htw; rw [(final_reach hr).lat0 hl]; rfl
        · by_cases htd : t = d
          · subst htd; rw [hdead]; rfl
          · rw [o3 t htw htd]; rfl
      have hf : a.flag = false := by
        cases hf : a.flag with
        | false => rfl
        | true => obtain ⟨t, ht⟩ := (excl_reach hr).free hf; rw [hnb t] at ht; cases ht
      rw [← (flow_reach hr).free hf]
      apply List.take_of_length_le
      unfold St.queued at hqz; omega
    | @more a s t ch hst ih =>
      intro hr ho hor
      have hr' := Reach.next hr (Exec.step a t ch)
      apply ih hr' (by rw [step_owner]; exact ho)
      obtain ⟨o1, o2, o3⟩ := (roles_reach hr).owner d ho
      by_cases htd : t = d
      · subst htd
        rcases hor with ⟨h1, h2 | h2 | h2, h3⟩ | h
        · left
          have : step c a t ch = setPc a t (.enter .destroy) := by unfold step; simp only [h2, hl, if_true]
          rw [this]
          exact ⟨h1, Or.inr (Or.inl (by simp [setPc, upd])), fun _ => h3 (by rw [h2]; simp)⟩
        · left
          have hf := h3 (by rw [h2]; simp)
          have : step c a t ch = setPc { a with flag := true, run := [] } t (.get .destroy) := by
            unfold step; simp only [h2, hf]; rfl
          rw [this]
          refine ⟨h1, Or.inr (Or.inr (by simp [setPc, upd])), fun hne => ?_⟩
          exact absurd (by simp [setPc, upd]) hne
        · unfold step; simp only [h2]
          split
          · rename_i hn
            right
            have := List.getElem?_eq_none_iff.1 hn
            show a.put.length - a.taken = 0
            omega
          · rename_i e he
            have hlt := (List.getElem?_eq_some_iff.1 he).1
            split
            · right
              show a.put.length - (a.taken + 1) = 0
              unfold St.queued at h1
              omega
            · left; exact ⟨h1, Or.inr (Or.inr h2), h3⟩
        · right
          rcases step_queue c a t ch with ⟨q1, q2, _⟩ | ⟨e, hp, _⟩ | ⟨n, hp, _⟩ | ⟨n, hp, _⟩ | ⟨k, e, hp, he, _⟩
          · unfold St.queued; rw [q1, q2]; exact h
          · rw [hp] at o2; cases o2
          · rw [hp] at o2; cases o2
          · rw [hp] at o2; cases o2
          · have := (List.getElem?_eq_some_iff.1 he).1
            unfold St.queued at h; omega
      · have : step c a t ch = a := by
          by_cases htw : t = workerTid
          · subst htw; exact role_wExit_step c a _ ch ((final_reach hr).lat0 hl)
          · unfold step; rw [o3 t htw htd]
        rw [this]; exact hor
  refine key hs hr1 rfl (Or.inl ⟨hq, Or.inl (by simp [setPc, upd]), fun _ => hf0⟩) hdead

/-- the destructor of the sink left by the race above -/
def raceDestroyed : St := runN (exampleCfg true) 1 12 (setPc { raceState with owner := some 1 } 1 .dStart)

/-- The full C26 is false: after the race of `C20_refuted` the sink (latency 0) is destroyed while nobody uses it; the
destructor has returned and the third event has never been written. -/
theorem C26_refuted : ∃ (c : Cfg) (s : St), Reach c true s ∧ s.owner = some 1 ∧ s.pc 1 = .dead ∧
    s.put.map (·.message) = [['a'], ['b'], ['c']] ∧ s.written.map (·.message) = [['a'], ['b']] :=
  ⟨exampleCfg true, raceDestroyed, runN_reach (.next race_reach (.destroy raceState 1 (by decide) rfl race_quiet)),
    rfl, rfl, rfl, rfl⟩

/-- one accepted event, then destruction, for a file that could not be opened -/
def lostState : St :=
  runN (exampleCfg false) 1 4
    (setPc { runN (exampleCfg false) 1 4 (setPc (init (exampleCfg false) false) 1 (.put (ev ['a']))) with owner := some 1 } 1 .dStart)

/-- ... and for a file that could not be opened nothing is ever written. -/
theorem C26_unopened_file_refuted : ∃ (c : Cfg) (s : St), Reach c false s ∧ s.owner = some 1 ∧ s.pc 1 = .dead ∧
    s.put.map (·.message) = [['a']] ∧ s.written = [] := by
  refine ⟨exampleCfg false, lostState, ?_, rfl, rfl, rfl, rfl⟩
  apply runN_reach
  refine .next (runN_reach (.next .init (.call _ 1 (by decide) rfl rfl (.push (ev ['a']))))) (.destroy _ 1 (by decide) rfl ?_)
  intro u hu
  by_cases h1 : u = 1
  · subst h1; rfl
  · rw [runN_other h1]
    show upd _ _ _ _ = _
    rw [upd, if_neg h1]
    simp [init, hu]

/-- a concrete destroyed sink with a worker: two events queued, all written at the end -/
def workerActs : List Act := [.call 1 (.push (ev ['a'])), .run 1 4, .call 1 (.push (ev ['b'])), .run 1 4]
def workerDone : St :=
  let s := (exec (exampleCfg false) workerActs (init (exampleCfg false) true)).get rfl
  let s := runN (exampleCfg false) 1 2 (setPc { s with owner := some 1 } 1 .dStart)
  runN (exampleCfg false) 1 2 (runN (exampleCfg false) workerTid 30 s)
example : workerDone.owner = some 1 ∧ workerDone.pc 1 = .dead ∧ workerDone.written.map (·.message) = [['a'], ['b']] ∧
    workerDone.gens.flatten ++ workerDone.dev = ['a', '\n', 'b', '\n'] := ⟨rfl, rfl, rfl, rfl⟩

/-! ## C27 -/

/-- **C27**: whatever rotations happened, with whatever outcome of re-opening, the sequence of written events is cut
into consecutive parts, and each earlier file generation holds exactly the records of its part; the current file
together with the stream buffer holds the rest. -/
theorem C27_rotation_partitions (c : Cfg) (o : Bool) (s : St) (h : Reach c o s) (hk : c.isSyslog = false) :
    ∃ (parts : List (List Event)) (last : List Event), s.written = parts.flatten ++ last ∧
      s.gens = parts.map (fun p => p.flatMap c.render) ∧ s.dev ++ s.sbuf = last.flatMap c.render := by
  obtain ⟨parts, last, hs⟩ := streams_reach h
  have hb : bytesOf c = fun p => p.flatMap c.render := funext (bytesOf_render hk)
  exact ⟨parts, last, hs.written, by rw [hs.gens, hb], by rw [hs.cur, hb]⟩

/-- A failed re-open keeps the old file in use and changes no contents; a successful one starts a new generation and
passes everything that was buffered to the old one. -/
theorem C27_reopen (c : Cfg) (s : St) (t : Tid) (ch : Ch) (k : Ret) (hp : s.pc t = .reopen k) :
    (ch.openOk = false → (step c s t ch).gens = s.gens ∧ (step c s t ch).dev = s.dev ∧ (step c s t ch).sbuf = s.sbuf ∧
      (step c s t ch).isOpen = s.isOpen) ∧
    (ch.openOk = true → (step c s t ch).gens = s.gens ++ [s.dev ++ s.sbuf] ∧ (step c s t ch).dev = [] ∧
      (step c s t ch).sbuf = [] ∧ (step c s t ch).isOpen = true) := by
  unfold step; simp only [hp]
  refine ⟨?_, ?_⟩
  · intro h; rw [if_neg (by rw [h]; simp)]; exact ⟨rfl, rfl, rfl, rfl⟩
  · intro h; rw [if_pos h]; exact ⟨rfl, rfl, rfl, rfl⟩

/-- a rotation between two records -/
def rotated : St := (exec (exampleCfg false) [.call 1 (.push (ev ['a'])), .run 1 4, .call 1 .rotate, .run 1 2,
  .run workerTid 12, .call 1 (.push (ev ['b'])), .run 1 4, .call 1 .flush, .run 1 9] (init (exampleCfg false) true)).get rfl
example : Reach (exampleCfg false) true rotated ∧ rotated.gens = [['a', '\n']] ∧ rotated.sbuf = ['b', '\n'] :=
  ⟨exec_reach .init (Option.some_get _).symm, rfl, rfl⟩

/-! ## C28 -/

/-- **C28**: whenever the process dies -- in any reachable state, also in the middle of a flush or a rotation -- what
the operating system has (all earlier generations and the current file) is a prefix of the records of the accepted
events in queue order, and every earlier generation is complete: only the end of the current file can be cut. -/
theorem C28_crash_prefix (c : Cfg) (s : St) (h : Reach c true s) (hk : c.isSyslog = false) :
    s.gens.flatten ++ s.dev <+: s.put.flatMap c.render := by
  have h1 := C24_stream_contents c true s h hk
  have h2 := (C24_written_is_prefix c s h).1
  obtain ⟨rest, hr⟩ := h2
  refine ⟨s.sbuf ++ rest.flatMap c.render, ?_⟩
  rw [← List.append_assoc, h1, ← List.flatMap_append, hr]

/-- What the operating system has received is never taken back. -/
theorem C28_device_only_grows (c : Cfg) (s s' : St) (h : Exec c s s') :
    s.gens.flatten ++ s.dev <+: s'.gens.flatten ++ s'.dev := by
  cases h with
  | call t ht hi hd call => exact List.prefix_refl _
  | destroy t ht hd hi => exact List.prefix_refl _
  | step t ch =>
    cases hp : s.pc t with
    | write k e =>
      cases e with
      | none => unfold step; simp only [hp]; exact List.prefix_refl _
      | some e =>
        unfold step; simp only [hp]; split
        · show s.gens.flatten ++ s.dev <+: s.gens.flatten ++ (s.dev ++ _)
          rw [← List.append_assoc]; exact List.prefix_append _ _
        · exact List.prefix_refl _
    | sync k =>
      unfold step; simp only [hp]
      show s.gens.flatten ++ s.dev <+: s.gens.flatten ++ (s.dev ++ _)
      rw [← List.append_assoc]; exact List.prefix_append _ _
    | dEnd =>
      unfold step; simp only [hp]; split
      · show s.gens.flatten ++ s.dev <+: s.gens.flatten ++ (s.dev ++ _)
        rw [← List.append_assoc]; exact List.prefix_append _ _
      · exact List.prefix_refl _
    | reopen k =>
      unfold step; simp only [hp]; split
      · show s.gens.flatten ++ s.dev <+: (s.gens ++ [s.dev ++ s.sbuf]).flatten ++ []
        simp only [List.flatten_append, List.flatten_cons, List.flatten_nil, List.append_nil]
        rw [← List.append_assoc]; exact List.prefix_append _ _
      · exact List.prefix_refl _
    | _ => unfold step; simp only [hp]; (repeat' split) <;> exact List.prefix_refl _

example : Reach (exampleCfg false) true rotated ∧ rotated.gens.flatten ++ rotated.dev = ['a', '\n'] ∧
    rotated.put.flatMap (exampleCfg false).render = ['a', '\n', 'b', '\n'] :=
  ⟨exec_reach .init (Option.some_get _).symm, rfl, rfl⟩

/-! ## C29 -/

/-- The full C29 is false: a record has been written by a flush that has returned, nobody else uses the sink, and the
record is still inside the process (it would be lost by a crash). -/
theorem C29_refuted : ∃ (c : Cfg) (s : St), Reach c true s ∧ s.pc 1 = .idle ∧
    exec c [.call 1 (.push (ev ['a'])), .run 1 4, .call 1 .flush, .run 1 9] (init c true) = some s ∧
    s.written.map (·.message) = [['a']] ∧ s.dev = [] ∧ s.gens = [] := by
  refine ⟨exampleCfg false, (exec (exampleCfg false) [.call 1 (.push (ev ['a'])), .run 1 4, .call 1 .flush, .run 1 9]
    (init (exampleCfg false) true)).get rfl, exec_reach .init (Option.some_get _).symm, rfl, (Option.some_get _).symm, rfl,
    rfl, rfl⟩

/-- **C29**, the true part: if a flush request (`async_flush`, or the high-water mark, C23) is pending when a thread that
is inside `flush` has written its event, and the exchange does not fail spuriously, then everything written so far
leaves the process before that `flush` goes on. -/
theorem C29_requested_flush_durable_partial (c : Cfg) (s : St) (h : Reach c true s) (hk : c.isSyslog = false) (t : Tid) (k : Ret)
    (ch ch' : Ch) (hp : s.pc t = .casFlush k) (hn : s.needFlush = true) (hc : ch.casOk = true) :
    let s' := step c (step c s t ch) t ch'
    s'.written = s.written ∧ s'.gens.flatten ++ s'.dev = s'.written.flatMap c.render := by
  have h1 : step c s t ch = setPc { s with needFlush := false } t (.sync k) := by
    unfold step; simp only [hp]; rw [hn, hc]; rfl
  have hp1 : (step c s t ch).pc t = .sync k := by rw [h1]; simp [setPc, upd]
  have h2 : ∀ x : St, x.pc t = .sync k → step c x t ch' = setPc { x with dev := x.dev ++ x.sbuf, sbuf := [] } t (.casRotate k) := by
    intro x hx; unfold step; simp only [hx]
  have hr : Reach c true (step c (step c s t ch) t ch') := .next (.next h (.step _ _ _)) (.step _ _ _)
  have hc := C24_stream_contents c true _ hr hk
  have hb : (step c (step c s t ch) t ch').sbuf = [] := by rw [h2 _ hp1]; rfl
  rw [hb, List.append_nil] at hc
  refine ⟨?_, hc⟩
  rw [h2 _ hp1, h1]; rfl

/-- the hypotheses are met: a push, a request, then a flush up to the exchange -/
example : ∃ s, exec (exampleCfg false) [.call 1 (.push (ev ['a'])), .run 1 4, .call 1 .asyncFlush, .run 1 1, .call 1 .flush,
    .run 1 5] (init (exampleCfg false) true) = some s ∧ s.pc 1 = .casFlush .done ∧ s.needFlush = true := ⟨_, rfl, rfl, rfl⟩

/-! ## C62 -/

/-- **C62**, no call can be trapped: from every state reachable by any schedule, the call a client is in (push, flush,
async_flush, rotate -- also a push into a full queue) can be completed by letting the threads run. -/
theorem C62_call_can_complete (c : Cfg) (o : Bool) (hcap : 0 < c.capacity) (s : St) (h : Reach c o s) (t : Tid)
    (ht : t ≠ workerTid) (hown : s.owner = none) : ∃ s', Steps c s s' ∧ s'.pc t = .idle :=
  client_completes hcap h t ((roles_reach h).clients hown t ht)

/-- **C62**, destruction: once started, the destructor can always finish (in particular the worker can always be
joined). -/
theorem C62_destructor_can_complete (c : Cfg) (o : Bool) (s : St) (h : Reach c o s) (d : Tid) (hd : s.owner = some d) :
    ∃ s', Steps c s s' ∧ s'.pc d = .dead := destructor_completes h d hd

/-- a push waiting on a full queue while another thread is inside `flush` -/
example : ∃ s, exec { exampleCfg false with capacity := 1 } [.call 1 (.push (ev ['a'])), .run 1 4, .call 1 .flush, .run 1 1,
    .call 2 (.push (ev ['b'])), .run 2 2] (init { exampleCfg false with capacity := 1 } true) = some s ∧
    s.pc 2 = .put (ev ['b']) ∧ s.queued = 1 := ⟨_, rfl, rfl, rfl⟩

end SinkConc
end Soralog
