import Verif.Proofs.RaceSink
import Verif.Props.SinkFull
/-!
# Properties: data races in the queue and the sinks (C79)

Definitions of happens-before and of a data race: `Spec/HappensBefore.lean`.  What each step does to memory: `Model/Race.lean`.
-/
namespace Soralog
namespace Race
open Ring (upd_same upd_ne)
open SinkConc (Cfg Ch workerTid)

/-- **C79**, queue: however many threads put elements, take them, read them through their `NodeRef`s and destroy these, two accesses of the same
slot by different threads, one of them a write, are ordered by happens-before. -/
theorem C79_queue (T : Type) (capacity : Nat) (hc : 0 < capacity) (as : List (QAct T)) (w : Tid) : RaceFree w (queueRun T capacity as).2 :=
  disc_raceFree sinkGuard_total (queue_disc hc as).2.1

/-- **C79**, sinks: in every execution of a console, file or syslog sink - any number of threads in `push`, `flush`, `async_flush` and `rotate`, the
worker, the destructor - there is no data race on the slots of the queue, on the staging buffer or on the output stream. -/
theorem C79_sink (c : Cfg) (opened : Bool) (hc : 0 < c.capacity) (s : SinkFull.St) (tr : Trace) (h : SinkRun c opened s tr) :
    RaceFree workerTid tr := sink_raceFree hc h

/-- The executions are those of C24 and C72, with their traces. -/
theorem C79_runs (c : Cfg) (opened : Bool) (s : SinkFull.St) : SinkFull.Reach c opened s ↔ ∃ tr, SinkRun c opened s tr := by
  constructor
  · intro h
    induction h with
    | init => exact ⟨[], .init⟩
    | next _ he ih =>
      obtain ⟨tr, ih⟩ := ih
      cases he with
      | call t h hi hd call => exact ⟨_, .next ih (.call _ t h hi hd call)⟩
      | step t ch => exact ⟨_, .next ih (.step _ t ch)⟩
      | destroy t h hd hi => exact ⟨_, .next ih (.destroy _ t h hd hi)⟩
  · rintro ⟨tr, h⟩; exact run_reach h

/-- The trace of the queue is complete: an element changes only with a write of its slot, and flags change only with the recorded operations. -/
theorem C79_queue_complete {T : Type} (s : Ring.St T) (t : Tid) :
    (∀ k, (Ring.tick s t).buf.item k ≠ s.buf.item k → GEv.write (.slot k) ∈ tickEvents s t) ∧
    ((Ring.tick s t).buf.busy ≠ s.buf.busy → (if s.buf.busy then GEv.release .lock else GEv.acquire .lock) ∈ tickEvents s t) ∧
    (∀ k, (Ring.tick s t).buf.nodeBusy k ≠ s.buf.nodeBusy k → s.buf.nodeBusy k = false ∧ GEv.acquire (.node k) ∈ tickEvents s t) := by
  have hi : ∀ (k n : Nat) (v : Option T), upd s.buf.item n v k ≠ s.buf.item k → k = n := by
    intro k n v h
    rcases Nat.decEq k n with e | e
    · exact absurd (upd_ne _ _ _ _ e) h
    · exact e
  have hn : ∀ (k n : Nat), upd s.buf.nodeBusy n true k ≠ s.buf.nodeBusy k → k = n := by
    intro k n h
    rcases Nat.decEq k n with e | e
    · exact absurd (upd_ne _ _ _ _ e) h
    · exact e
  unfold Ring.tick tickEvents
  cases hp : s.pc t <;> dsimp only
  case putCapture v =>
    split
    · exact ⟨fun k h => absurd rfl h, fun h => absurd rfl h, fun k h => absurd rfl h⟩
    · split
      · exact ⟨fun k h => absurd rfl h, fun h => absurd rfl h, fun k h => absurd rfl h⟩
      · rename_i hb
        exact ⟨fun k h => absurd rfl h, fun h => absurd rfl h, fun k h => by
          have := hn k _ h; subst this; exact ⟨Bool.eq_false_iff.2 hb, by simp⟩⟩
  case getCapture =>
    split
    · exact ⟨fun k h => absurd rfl h, fun h => absurd rfl h, fun k h => absurd rfl h⟩
    · split
      · exact ⟨fun k h => absurd rfl h, fun h => absurd rfl h, fun k h => absurd rfl h⟩
      · rename_i hb
        exact ⟨fun k h => absurd rfl h, fun h => absurd rfl h, fun k h => by
          have := hn k _ h; subst this; exact ⟨Bool.eq_false_iff.2 hb, by simp⟩⟩
  case putInit v n => exact ⟨fun k h => by have := hi k n _ h; subst this; simp, fun h => absurd rfl h, fun k h => absurd rfl h⟩
  case putBuild v n => exact ⟨fun k h => by have := hi k n _ h; subst this; simp, fun h => absurd rfl h, fun k h => absurd rfl h⟩
  all_goals
    (repeat' split) <;> refine ⟨fun k h => absurd rfl h, fun h => ?_, fun k h => absurd rfl h⟩ <;> first
      | exact absurd rfl h
      | simp_all

/-- The trace of a sink is complete: the queue changes only by the steps of its own methods, `flush_in_progress_` only by the recorded operations, and what
the stream has accepted or passed on, and the file it writes to, change only with a write of the stream. -/
theorem C79_sink_complete (c : Cfg) (s : SinkFull.St) (t : Tid) (ch : Ch) :
    ((SinkFull.step c s t ch).flag ≠ s.flag → (t, if s.flag then GEv.release .flush else GEv.acquire .flush) ∈ stepEvents c s t ch) ∧
    (((SinkFull.step c s t ch).sbuf, (SinkFull.step c s t ch).dev, (SinkFull.step c s t ch).gens, (SinkFull.step c s t ch).isOpen) ≠
      (s.sbuf, s.dev, s.gens, s.isOpen) → (t, GEv.write .stream) ∈ stepEvents c s t ch) ∧
    ((SinkFull.step c s t ch).calls ≠ s.calls → (t, GEv.write .staging) ∈ stepEvents c s t ch) := by
  unfold SinkFull.step stepEvents
  cases hp : s.pc t <;> dsimp only
  case enter k =>
    by_cases hf : s.flag = true
    · rw [if_pos hf, if_pos hf]
      exact ⟨fun h => absurd rfl h, fun h => absurd rfl h, fun h => absurd rfl h⟩
    · rw [if_neg hf, if_neg hf, if_neg hf]
      exact ⟨fun _ => List.mem_singleton.2 rfl, fun h => absurd rfl h, fun h => absurd rfl h⟩
  case leave k =>
    refine ⟨fun h => ?_, fun h => absurd rfl h, fun h => absurd rfl h⟩
    cases hf : s.flag with
    | true => simp
    | false => exact absurd hf.symm h
  case write k e =>
    cases e with
    | none => exact ⟨fun h => absurd rfl h, fun h => absurd rfl h, fun h => absurd rfl h⟩
    | some e =>
      dsimp only
      by_cases hf : s.isOpen = true
      · rw [if_pos hf, if_pos hf]
        exact ⟨fun h => absurd rfl h, fun _ => by simp, fun h => absurd rfl h⟩
      · rw [if_neg hf, if_neg hf]
        exact ⟨fun h => absurd rfl h, fun h => absurd rfl h, fun h => absurd rfl h⟩
  case sync k => exact ⟨fun h => absurd rfl h, fun _ => by simp, fun h => absurd rfl h⟩
  case reopen k =>
    split <;> exact ⟨fun h => absurd rfl h, fun _ => by simp, fun h => absurd rfl h⟩
  case sCall k =>
    split <;> exact ⟨fun h => absurd rfl h, fun h => absurd rfl h, fun _ => by simp⟩
  case dEnd =>
    by_cases hf : c.isFile = true
    · rw [if_pos hf, if_pos hf]
      exact ⟨fun h => absurd rfl h, fun _ => by simp, fun h => absurd rfl h⟩
    · rw [if_neg hf, if_neg hf]
      exact ⟨fun h => absurd rfl h, fun h => absurd rfl h, fun h => absurd rfl h⟩
  all_goals (repeat' split) <;> exact ⟨fun h => absurd rfl h, fun h => absurd rfl h, fun h => absurd rfl h⟩

theorem findIdx_find {l : List (Ring.Ref Event)} {p : Ring.Ref Event → Bool} {x : Ring.Ref Event} (h : l.find? p = some x) :
    l[l.findIdx p]? = some x ∧ p x = true := by
  induction l with
  | nil => cases h
  | cons y l ih =>
    by_cases hy : p y = true
    · rw [List.find?_cons_of_pos hy] at h
      cases h
      simp [List.findIdx_cons, hy]
    · rw [List.find?_cons_of_neg hy] at h
      have : (y :: l).findIdx p = l.findIdx p + 1 := by simp [List.findIdx_cons, Bool.eq_false_iff.2 hy]
      rw [this, List.getElem?_cons_succ]
      exact ih h

/-- `size_` changes only by the length of an event that is read, through a `NodeRef` of the thread. -/
theorem C79_reads_complete (c : Cfg) (s : SinkFull.St) (t : Tid) (ch : Ch) (h : (SinkFull.step c s t ch).size ≠ s.size) :
    ∃ k e, (t, GEv.read (.slot k)) ∈ stepEvents c s t ch ∧ s.ring.buf.item k = some e ∧
      ((SinkFull.step c s t ch).size = Sink.addSize s.size e.message.length ∨ (SinkFull.step c s t ch).size = Sink.subSize s.size e.message.length) := by
  have key : ∀ e, SinkFull.readRef s.ring t = some e → ∃ k, (t, GEv.read (.slot k)) ∈ ownRead s.ring t ∧ s.ring.buf.item k = some e := by
    intro e he
    unfold SinkFull.readRef at he
    cases hf : s.ring.refs.find? (SinkFull.isMine t) with
    | none => rw [hf] at he; cases he
    | some x =>
      rw [hf] at he
      obtain ⟨h1, h2⟩ := findIdx_find hf
      refine ⟨x.slot, ?_, he⟩
      unfold ownRead readEvents
      rw [h1]
      have : x.owner = t := by simpa [SinkFull.isMine] using h2
      simp [this]
  unfold SinkFull.step at h ⊢
  unfold stepEvents
  cases hp : s.pc t
  all_goals simp only [hp] at h ⊢
  case count =>
    cases he : SinkFull.readRef s.ring t with
    | none => rw [he] at h; exact absurd rfl h
    | some e => obtain ⟨k, h1, h2⟩ := key e he; exact ⟨k, e, h1, h2, .inl rfl⟩
  case uncount k' =>
    cases he : SinkFull.readRef s.ring t with
    | none => rw [he] at h; exact absurd rfl h
    | some e => obtain ⟨k, h1, h2⟩ := key e he; exact ⟨k, e, List.mem_append_left _ h1, h2, .inr rfl⟩
  case sUncount k' =>
    cases he : SinkFull.readRef s.ring t with
    | none => rw [he] at h; exact absurd rfl h
    | some e => obtain ⟨k, h1, h2⟩ := key e he; exact ⟨k, e, h1, h2, .inr rfl⟩
  case write k' e =>
    cases e with
    | none => exact absurd rfl h
    | some e => dsimp only at h; split at h <;> exact absurd rfl h
  all_goals (repeat' split at h) <;> exact absurd rfl h

/-- Non-trivial instance: thread 1 puts `'a'`, its `NodeRef` is destroyed; thread 2 takes it, reads it, its `NodeRef` is destroyed; thread 1 puts
`'b'` into the same slot. -/
def demoQueue : Trace :=
  (queueRun Char 1 ([.act (.call 1 (.put 'a'))] ++ List.replicate 8 (.act (.step 1)) ++ [.act (.drop 0), .act (.call 2 .get)] ++
    List.replicate 6 (.act (.step 2)) ++ [.read 0, .act (.drop 0), .act (.call 1 (.put 'b'))] ++ List.replicate 8 (.act (.step 1)))).2

example : (∃ i j k : Nat, i < j ∧ j < k ∧ demoQueue[i]? = some (1, .write (.slot 0)) ∧ demoQueue[j]? = some (2, .read (.slot 0)) ∧
    demoQueue[k]? = some (1, .write (.slot 0))) ∧ RaceFree 0 demoQueue :=
  ⟨⟨4, 9, 14, by decide +kernel⟩, C79_queue Char 1 (by decide) _ 0⟩

/-- Without the flag of the slot these would be races: the trace without the acquisitions has one. -/
example : ¬ RaceFree 0 ([(1, .write (.slot 0)), (2, .read (.slot 0))] : Trace) := by
  intro h
  have hb := h 0 1 1 2 _ _ (by decide) rfl rfl (by decide) ⟨.slot 0, .inl ⟨rfl, .inr rfl⟩⟩
  have key : ∀ i j, HB 0 ([(1, .write (.slot 0)), (2, .read (.slot 0))] : Trace) i j → False := by
    intro i j h
    induction h with
    | trans _ _ ih _ => exact ih
    | @thread i j t a b hij hi hj =>
      match i, j with
      | 0, 1 => cases hi; cases hj
      | 0, 0 => omega
      | 1, 0 => omega
      | 1, 1 => omega
      | _, j + 2 => simp at hj
      | i + 2, _ => simp at hi
    | @flag i j t u f hij hi hj _ =>
      match i with
      | 0 => cases hi
      | 1 => cases hi
      | i + 2 => simp at hi
    | @destroy i j t u a hij hi ht hj =>
      match j with
      | 0 => cases hj
      | 1 => cases hj
      | j + 2 => simp at hj
    | @join i j u a hij hi hj =>
      match j with
      | 0 => cases hj
      | 1 => cases hj
      | j + 2 => simp at hj
  exact key _ _ hb

/-- schedules of a sink with the client threads 1, 2 and 3, for the instance below -/
inductive SAct where
  | call (t : Tid) (c : SinkConc.Call)
  | run (t : Tid) (n : Nat)
  | destroy (t : Tid)

def runTr (c : Cfg) (t : Tid) : Nat → SinkFull.St × Trace → SinkFull.St × Trace
  | 0, x => x
  | n + 1, x => runTr c t n (SinkFull.step c x.1 t SinkConc.calmCh, x.2 ++ stepEvents c x.1 t SinkConc.calmCh)

def execTr (c : Cfg) : List SAct → SinkFull.St × Trace → Option (SinkFull.St × Trace)
  | [], x => some x
  | .call t call :: as, x =>
    if (t < 4 ∧ t ≠ workerTid) ∧ x.1.pc t = .idle ∧ x.1.owner.isNone then
      execTr c as (SinkFull.setPc x.1 t (SinkFull.startPC call), x.2 ++ []) else none
  | .run t n :: as, x => if t < 4 then execTr c as (runTr c t n x) else none
  | .destroy t :: as, x =>
    if (t < 4 ∧ t ≠ workerTid) ∧ (x.1.pc 1 = .idle ∧ x.1.pc 2 = .idle ∧ x.1.pc 3 = .idle) ∧ x.1.owner.isNone then
      execTr c as (SinkFull.setPc { x.1 with owner := some t } t .dStart, x.2 ++ [(t, .destroy)]) else none

theorem runTr_run {c : Cfg} {o : Bool} {t : Tid} {n : Nat} {x : SinkFull.St × Trace} (h : SinkRun c o x.1 x.2) :
    SinkRun c o (runTr c t n x).1 (runTr c t n x).2 ∧ ∀ u, u ≠ t → (runTr c t n x).1.pc u = x.1.pc u := by
  induction n generalizing x with
  | zero => exact ⟨h, fun _ _ => rfl⟩
  | succ n ih =>
    obtain ⟨h1, h2⟩ := ih (x := (SinkFull.step c x.1 t SinkConc.calmCh, x.2 ++ stepEvents c x.1 t SinkConc.calmCh)) (.next h (.step x.1 t SinkConc.calmCh))
    exact ⟨h1, fun u hu => (h2 u hu).trans (step_pc_other c x.1 t _ u hu)⟩

theorem execTr_run {c : Cfg} {o : Bool} {as : List SAct} {x y : SinkFull.St × Trace} (h : SinkRun c o x.1 x.2)
    (hq : ∀ u, 4 ≤ u → x.1.pc u = .idle) (he : execTr c as x = some y) : SinkRun c o y.1 y.2 := by
  induction as generalizing x with
  | nil => cases he; exact h
  | cons a as ih =>
    cases a with
    | call t call =>
      simp only [execTr] at he
      split at he
      · rename_i hc
        refine ih (x := (_, _)) (.next h (.call x.1 t hc.1.2 hc.2.1 (by simpa using hc.2.2) call)) (fun u hu => ?_) he
        show upd _ _ _ _ = _
        rw [upd_ne _ _ _ _ (Nat.ne_of_gt (Nat.lt_of_lt_of_le hc.1.1 hu))]; exact hq u hu
      · cases he
    | run t n =>
      simp only [execTr] at he
      split at he
      · rename_i hc
        exact ih (runTr_run h).1 (fun u hu => ((runTr_run h).2 u (Nat.ne_of_gt (Nat.lt_of_lt_of_le hc hu))).trans (hq u hu)) he
      · cases he
    | destroy t =>
      simp only [execTr] at he
      split at he
      · rename_i hc
        refine ih (x := (_, _)) (.next h (.destroy x.1 t hc.1.2 (by simpa using hc.2.2) fun u hu => ?_)) (fun u hu => ?_) he
        · obtain ⟨h1, h2, h3⟩ := hc.2.1
          match u with
          | 0 => exact absurd rfl hu
          | 1 => exact h1
          | 2 => exact h2
          | 3 => exact h3
          | n + 4 => exact hq (n + 4) (Nat.le_add_left 4 n)
        · show upd _ _ _ _ = _
          rw [upd_ne _ _ _ _ (Nat.ne_of_gt (Nat.lt_of_lt_of_le hc.1.1 hu))]; exact hq u hu
      · cases he

/-- Thread 1 pushes, the worker writes the event; thread 2 pushes, thread 3 flushes; thread 1 pushes again and the sink is destroyed by thread 2, the worker
writes the rest. -/
def lifeActs : List SAct :=
  [.call 1 (.push (SinkConc.ev ['a'])), .run 1 20, .run 0 16, .call 2 (.push (SinkConc.ev ['b'])), .run 2 20, .call 3 .flush, .run 3 40,
   .call 1 (.push (SinkConc.ev ['c'])), .run 1 20, .destroy 2, .run 2 2, .run 0 80, .run 2 2]

def lifeCfg : Cfg := SinkFull.cfg2 .file false
def life : SinkFull.St × Trace := (execTr lifeCfg lifeActs (SinkFull.init lifeCfg true, [])).getD (SinkFull.init lifeCfg true, [])

/-- the worker (0), thread 3 and the destructor of thread 2 use the staging buffer; threads 1, 0 and 2 use slot 0 -/
example : SinkRun lifeCfg true life.1 life.2 ∧ life.1.pc 2 = .dead ∧ life.1.written.map (·.message) = [['a'], ['b'], ['c']] ∧
    life.2[12]? = some (0, .write .staging) ∧ life.2[29]? = some (3, .write .staging) ∧ life.2[57]? = some (2, .write .staging) ∧
    life.2[4]? = some (1, .write (.slot 0)) ∧ life.2[11]? = some (0, .read (.slot 0)) ∧ life.2[58]? = some (2, .write (.slot 0)) ∧
    RaceFree workerTid life.2 := by
  have hs : (execTr lifeCfg lifeActs (SinkFull.init lifeCfg true, [])).isSome = true := by decide +kernel
  have he : execTr lifeCfg lifeActs (SinkFull.init lifeCfg true, []) = some life := by
    unfold life
    cases h : execTr lifeCfg lifeActs (SinkFull.init lifeCfg true, []) with
    | none => rw [h] at hs; cases hs
    | some y => rfl
  have hr : SinkRun lifeCfg true life.1 life.2 := execTr_run (x := (_, _)) .init (fun u hu => by
    show (if u = workerTid then _ else SinkFull.PC.idle) = _
    rw [if_neg (fun h => by rw [h] at hu; exact absurd hu (by decide))]) he
  exact ⟨hr, by decide +kernel, by decide +kernel, by decide +kernel, by decide +kernel, by decide +kernel, by decide +kernel, by decide +kernel,
    by decide +kernel, C79_sink _ _ (by decide) _ _ hr⟩

end Race
end Soralog
