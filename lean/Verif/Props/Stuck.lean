import Verif.Proofs.SinkStuck
import Verif.Props.SinkFull
/-!
# C81: a log call that does not finish formatting its message

The message is formatted inside `put`, after the place in the queue is taken and the lock released (circular_buffer.hpp:156-168).
`Asleep t as`: thread `t` takes no step during `as` -- its formatter runs on, waits, or is itself logging.  `SinkFull.Others c t f f'`:
`f'` comes from `f` by anything the other threads may do.
-/
namespace Soralog
namespace Ring
open Spec
variable {T : Type}

/-- **C81** (part): from every state, a call of `put`, `size`, … (anything but `get`) can return without any thread that is constructing an
element taking a step. -/
theorem C81_put_returns_partial (cap : Nat) (hc : 0 < cap) (as : List (Act T)) (u : Tid) (hu : ¬ InsideGet ((exec (init T cap) as).pc u)) :
    ∃ bs, NoCalls bs ∧ (∀ t k, t ≠ u → Constructing (exec (init T cap) as) t k → Asleep t bs) ∧
      (exec (init T cap) (as ++ bs)).pc u = .idle := by
  obtain ⟨q, base, h⟩ := inv_reach (T := T) hc as
  obtain ⟨bs, hf, h1 | h1⟩ := avoid h u
  · refine ⟨bs, hf.1, fun t k ht hk => hf.2 t ht ?_, by rw [exec_append]; exact h1⟩
    obtain ⟨v, hk | hk⟩ := hk <;> rw [hk] <;> rfl
  · exact absurd h1.1 hu

/-- **C81** (part): a call of `get` too, unless the oldest element is the one being constructed. -/
theorem C81_get_returns_partial (cap : Nat) (hc : 0 < cap) (as : List (Act T)) (u : Tid) :
    ∃ bs, NoCalls bs ∧ (∀ t k, t ≠ u → Constructing (exec (init T cap) as) t k → Asleep t bs) ∧
      ((exec (init T cap) (as ++ bs)).pc u = .idle ∨
        ∃ t, Constructing (exec (init T cap) (as ++ bs)) t (exec (init T cap) (as ++ bs)).buf.popIdx) := by
  obtain ⟨q, base, h⟩ := inv_reach (T := T) hc as
  obtain ⟨bs, hf, h1⟩ := avoid h u
  refine ⟨bs, hf.1, fun t k ht hk => hf.2 t ht ?_, ?_⟩
  · obtain ⟨v, hk | hk⟩ := hk <;> rw [hk] <;> rfl
  · rw [exec_append]
    rcases h1 with h1 | ⟨_, _, _, h1⟩
    · exact .inl h1
    · exact .inr h1

/-- **C81**, refuted for `get`: while the oldest element is under construction no `get` of any thread returns, neither with an element nor
empty-handed, and no element leaves the queue, however many are ready behind it. -/
theorem C81_get_refuted (cap : Nat) (hc : 0 < cap) (as : List (Act T)) (hb : (exec (init T cap) as).buf.busy = false) (t : Tid)
    (ht : Constructing (exec (init T cap) as) t (exec (init T cap) as).buf.popIdx) (bs : List (Act T)) (hs : Asleep t bs) :
    ∃ l, (exec (init T cap) (as ++ bs)).log = (exec (init T cap) as).log ++ l ∧
      (∀ u r, Entry.ret u r ∈ l → r ≠ .empty ∧ ∀ v, r ≠ .got v) ∧
      getsOf (exec (init T cap) (as ++ bs)).log = getsOf (exec (init T cap) as).log := by
  obtain ⟨q, base, h⟩ := inv_reach (T := T) hc as
  obtain ⟨_, l, h1, h2⟩ := (jam_of_free h hb ht).exec bs hs
  rw [exec_append]
  refine ⟨l, h1, h2.1, ?_⟩
  have := h2.2
  rw [h1]
  unfold getsOf at this ⊢
  rw [List.filterMap_append, this, List.append_nil]

/-- thread 0 is constructing 7, thread 1 has stored 8 and is inside `get`, thread 2 is inside `put` -/
def stuckRun : List (Act Nat) :=
  [.call 0 (.put 7)] ++ List.replicate 6 (.step 0) ++ [.call 1 (.put 8)] ++ List.replicate 8 (.step 1) ++
    [.call 1 .get, .step 1, .call 2 (.put 9), .step 1, .step 1, .step 1]

example : 0 < 3 ∧ (exec (init Nat 3) stuckRun).buf.busy = false ∧
    Constructing (exec (init Nat 3) stuckRun) 0 (exec (init Nat 3) stuckRun).buf.popIdx ∧
    InsideGet ((exec (init Nat 3) stuckRun).pc 1) ∧ ¬ InsideGet ((exec (init Nat 3) stuckRun).pc 2) ∧
    (exec (init Nat 3) stuckRun).pc 2 ≠ .idle ∧ (exec (init Nat 3) stuckRun).buf.size = 2 ∧
    Asleep 0 (List.replicate 50 (Act.step (T := Nat) 1) ++ List.replicate 50 (.step 2)) := by
  refine ⟨by decide, rfl, ⟨7, .inl rfl⟩, trivial, id, by simp [stuckRun, exec, init, act, call, tick, upd], rfl, ?_⟩
  intro a ha
  rcases List.mem_append.1 ha with ha | ha <;> rw [List.eq_of_mem_replicate ha] <;> decide

end Ring

namespace SinkFull
open Spec
open SinkConc (Cfg Ret Ch Call)

/-- **C81** (part): with a worker, from every state a log call that is storing its message can return, or is told that the queue is full, without
any thread that is formatting a message taking a step. -/
theorem C81_push_returns_partial (c : Cfg) (o : Bool) (hcap : 0 < c.capacity) (hl : c.latency0 = false) (f : St) (h : Reach c o f) (u : Tid)
    (e : Event) (hu : f.pc u = .putIn e) :
    ∃ f', StepsBy c (fun v => v = u ∨ ¬ Formatting f v) f f' ∧ (f'.pc u = .idle ∨ f'.pc u = .enter (.retry e)) := by
  obtain ⟨f1, s1, h1 | h1⟩ := push_through hcap h hu
  · obtain ⟨f2, s2, h2⟩ := push_returns hcap hl (s1.reach h) h1
    exact ⟨f2, s1.trans (s2.mono fun v hv => .inl hv), .inl h2⟩
  · exact ⟨f1, s1, .inr h1⟩

theorem next_jam {c : Cfg} {o : Bool} (hcap : 0 < c.capacity) {f : St} (h : Reach c o f) (hb : f.ring.buf.busy = false) {t : Tid}
    (ht : FormattingNext f t) : Ring.Jam c.capacity t f.ring.buf.popIdx f.ring := by
  obtain ⟨a, _, _, base, hR⟩ := rel_refines hcap h
  exact Ring.jam_of_free hR.inv hb ht

/-- **C81**, refuted for writing: while the message next to be written is being formatted, nothing leaves the queue, whatever the other threads,
the worker and the destructor do. -/
theorem C81_nothing_leaves_refuted (c : Cfg) (o : Bool) (hcap : 0 < c.capacity) (f : St) (h : Reach c o f) (hb : f.ring.buf.busy = false) (t : Tid)
    (ht : FormattingNext f t) (f' : St) (hs : Others c t f f') : getsOf f'.ring.log = getsOf f.ring.log := by
  obtain ⟨as, ha, hx⟩ := others_asleep hs
  obtain ⟨_, l, h1, h2⟩ := (next_jam hcap h hb ht).exec as ha
  have := h2.2
  rw [hx, h1]
  unfold getsOf at this ⊢
  rw [List.filterMap_append, this, List.append_nil]

/-- **C81**, refuted for `flush`: a `flush()` (also of the worker and of the destructor) that is taking from the queue does not return. -/
theorem C81_flush_refuted (c : Cfg) (o : Bool) (hcap : 0 < c.capacity) (f : St) (h : Reach c o f) (hb : f.ring.buf.busy = false) (t : Tid)
    (ht : FormattingNext f t) (u : Tid) (k : Ret) (hu : f.pc u = .getIn k) (f' : St) (hs : Others c t f f') : f'.pc u = .getIn k :=
  stuck_stays hcap h (next_jam hcap h hb ht) hs hu

/-- **C81**, refuted for log calls once the queue is full: no log call that still has to store its message returns. -/
theorem C81_push_refuted (c : Cfg) (o : Bool) (hcap : 0 < c.capacity) (f : St) (h : Reach c o f) (hb : f.ring.buf.busy = false) (t : Tid)
    (ht : FormattingNext f t) (hfull : f.ring.buf.size = c.capacity) (u : Tid) (e : Event) (hu : f.pc u = .put e) (f' : St)
    (hs : Others c t f f') : f'.pc u ≠ .idle :=
  retrying_busy (retrying_stays hcap h (next_jam hcap h hb ht) hfull (.inl hu) hs)

/-- **C81**, refuted for a formatter that logs: thread `t` is formatting the next message and, from inside the formatter, makes a call that
flushes the sink (`u` stands for that nested call; every `Logger` call flushes).  Nobody else is around.  The nested call never returns, so the
outer one never does. -/
theorem C81_nested_refuted (c : Cfg) (o : Bool) (hcap : 0 < c.capacity) (f : St) (h : Reach c o f) (hb : f.ring.buf.busy = false) (t : Tid)
    (ht : FormattingNext f t) (hfl : f.flag = false) (u : Tid) (hw : u ≠ SinkConc.workerTid) (hi : f.pc u = .idle) (hd : f.owner = none) (f' : St)
    (hs : StepsBy c (fun v => v = u) (setPc f u (startPC .flush)) f') : f'.pc u ≠ .idle := by
  have hj := next_jam hcap h hb ht
  have hut : u ≠ t := by
    rintro rfl
    obtain ⟨a, _, _, base, hR⟩ := rel_refines hcap h
    have hpc := hR.pcs u
    rw [hi] at hpc
    have hidle := (hpc.of_simple rfl).1
    obtain ⟨e, ht | ht⟩ := ht <;> rw [hidle] at ht <;> cases ht
  exact nested_stays hcap hut hs (o := o) (.next h (.call f u hw hi hd .flush)) hj (.inl ⟨setPc_self _ _ _, hfl⟩)

/-- Thread 1 formats "a"; thread 2 has stored "b", so the queue of two is full; thread 3 is inside `flush()`; thread 4 is about to store "d". -/
def stuckActs : List Act :=
  [.call 1 (.push (SinkConc.ev ['a'])), .run 1 7, .call 2 (.push (SinkConc.ev ['b'])), .run 2 30, .call 3 .flush, .run 3 6,
   .call 4 (.push (SinkConc.ev ['d']))]

def stuckState : St := (exec (cfg2 .file false) stuckActs (init (cfg2 .file false) true)).get rfl

theorem stuck_reach : Reach (cfg2 .file false) true stuckState := exec_reach .init (Option.some_get _).symm

example : FormattingNext stuckState 1 ∧ stuckState.ring.buf.busy = false ∧ stuckState.ring.buf.size = (cfg2 .file false).capacity ∧
    stuckState.pc 2 = .idle ∧ stuckState.pc 3 = .getIn .done ∧ stuckState.pc 4 = .put (SinkConc.ev ['d']) ∧ stuckState.pc 5 = .idle ∧
    stuckState.owner = none :=
  ⟨⟨_, .inl rfl⟩, rfl, rfl, rfl, rfl, rfl, rfl, rfl⟩

/-- a console sink without delay: thread 1 formats "a", nobody else is inside the sink; 5 stands for a call made by the formatter -/
def nestedState : St :=
  (exec (cfg2 .console true) [.call 1 (.push (SinkConc.ev ['a'])), .run 1 7] (init (cfg2 .console true) true)).get rfl

theorem nested_reach : Reach (cfg2 .console true) true nestedState := exec_reach .init (Option.some_get _).symm

example : FormattingNext nestedState 1 ∧ nestedState.ring.buf.busy = false ∧ nestedState.flag = false ∧ nestedState.pc 5 = .idle ∧
    nestedState.owner = none ∧ 5 ≠ SinkConc.workerTid :=
  ⟨⟨_, .inl rfl⟩, rfl, rfl, rfl, rfl, by decide⟩

/-- the hypotheses of `C81_push_returns_partial`: thread 2 is inside `put` while thread 1 formats -/
example : ∃ f, Reach (cfg2 .file false) true f ∧ f.pc 2 = .putIn (SinkConc.ev ['b']) ∧ Formatting f 1 :=
  ⟨(exec (cfg2 .file false) (stuckActs.take 3 ++ [.run 2 2]) (init (cfg2 .file false) true)).get rfl,
    exec_reach .init (Option.some_get _).symm, rfl, _, _, .inl rfl⟩

end SinkFull
end Soralog
