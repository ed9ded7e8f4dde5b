import Verif.Proofs.SinkClock
/-!
# C82–C84: the order of log calls, their times, and the order of the lines

`During c t f f'`: an execution from `f` to `f'` during which thread `t` is inside its call.  `Later c f f'`: `f'` comes after `f` in some
execution.  `SinkClock`: the same executions beside a clock that is never set back; an event carries the reading at the moment its
constructor begins.
-/
namespace Soralog
namespace SinkFull
open Spec
open SinkConc (Cfg Ret Ch Call)

theorem During.later {c : Cfg} {t : Tid} {f f' : St} (h : During c t f f') : Later c f f' := by
  suffices H : ∀ {g}, Later c g f → Later c g f' from H .refl
  induction h with
  | refl => exact fun h => h
  | more _ he _ ih => exact fun hg => ih (.next hg he)

/-- **C82** Thread `t1` logs `e1`; the call returns in `f1`.  After that, from `f2` on, thread `t2` (perhaps `t1` itself) logs `e2`; that call
returns in `f3`.  Whatever all other threads do all the time: from then on `e1` is before `e2` in the order in which events are
accepted, and what is written is a prefix of that order.  So `e2` is never written before `e1`. -/
theorem C82_returned_first_written_first (c : Cfg) (hcap : 0 < c.capacity) (f0 f1 f2 f3 : St) (h0 : Reach c true f0) (t1 t2 : Tid) (e1 e2 : Event)
    (h1 : t1 ≠ SinkConc.workerTid) (i1 : f0.pc t1 = .idle) (o1 : f0.owner = none)
    (d1 : During c t1 (setPc f0 t1 (startPC (.push e1))) f1) (r1 : f1.pc t1 = .idle) (hl : Later c f1 f2)
    (h2 : t2 ≠ SinkConc.workerTid) (i2 : f2.pc t2 = .idle) (o2 : f2.owner = none)
    (d2 : During c t2 (setPc f2 t2 (startPC (.push e2))) f3) (r2 : f3.pc t2 = .idle) :
    ∃ before between, ∀ f4, Later c f3 f4 → ∃ after, accepted f4 = before ++ e1 :: between ++ e2 :: after ∧ f4.written <+: accepted f4 := by
  have hf1' : Reach c true (setPc f0 t1 (startPC (.push e1))) := .next h0 (.call f0 t1 h1 i1 o1 (.push e1))
  have hf1 := later_reach hf1' d1.later
  have hf2 := later_reach hf1 hl
  have hf3' : Reach c true (setPc f2 t2 (startPC (.push e2))) := .next hf2 (.call f2 t2 h2 i2 o2 (.push e2))
  have hf3 := later_reach hf3' d2.later
  have a1 := C72_push_accepts_once c true hcap f0 f1 h0 t1 h1 i1 o1 e1 d1 r1
  have a2 := C72_push_accepts_once c true hcap f2 f3 hf2 t2 h2 i2 o2 e2 d2 r2
  obtain ⟨l1, b1, s1⟩ := later_accepted hcap hf1' d1.later
  obtain ⟨l2, b2, _⟩ := later_accepted hcap hf1 hl
  obtain ⟨l3, b3, s3⟩ := later_accepted hcap hf3' d2.later
  have m1 : e1 ∈ l1 := by
    obtain ⟨lu, x, y⟩ := s1 t1
    have : acceptedFrom t1 f1 = acceptedFrom t1 f0 ++ lu := x
    rw [a1] at this
    have := List.append_cancel_left this
    exact y.subset (this ▸ List.mem_singleton.2 rfl)
  have m3 : e2 ∈ l3 := by
    obtain ⟨lu, x, y⟩ := s3 t2
    have : acceptedFrom t2 f3 = acceptedFrom t2 f2 ++ lu := x
    rw [a2] at this
    have := List.append_cancel_left this
    exact y.subset (this ▸ List.mem_singleton.2 rfl)
  obtain ⟨x1, y1, z1⟩ := List.append_of_mem m1
  obtain ⟨x3, y3, z3⟩ := List.append_of_mem m3
  refine ⟨accepted f0 ++ x1, y1 ++ l2 ++ x3, fun f4 h4 => ?_⟩
  obtain ⟨l4, b4, _⟩ := later_accepted hcap hf3 h4
  refine ⟨y3 ++ l4, ?_, (C72_exactly_once_in_order c hcap f4 (later_reach hf3 h4)).1⟩
  have c1 : accepted f1 = accepted f0 ++ l1 := b1
  have c3 : accepted f3 = accepted f2 ++ l3 := b3
  rw [b4, c3, b2, c1, z1, z3]
  simp [List.append_assoc]

theorem During.snoc {c : Cfg} {t : Tid} {f m f' : St} (h : During c t f m) (hm : m.pc t ≠ .idle) (he : Exec c m f') : During c t f f' := by
  induction h with
  | refl => exact .more hm he (.refl _)
  | more h1 h2 _ ih => exact .more h1 h2 (ih hm he)

/-- runs thread `t` until its call returns -/
def runCall (c : Cfg) (t : Tid) : Nat → St → Option St
  | 0, s => if s.pc t = .idle then some s else none
  | n + 1, s => if s.pc t = .idle then some s else runCall c t n (step c s t SinkConc.calmCh)

theorem runCall_during {c : Cfg} {t : Tid} {n : Nat} {s s' : St} (h : runCall c t n s = some s') : During c t s s' ∧ s'.pc t = .idle := by
  induction n generalizing s with
  | zero =>
    unfold runCall at h
    split at h
    · rename_i hi; cases h; exact ⟨.refl _, hi⟩
    · cases h
  | succ n ih =>
    unfold runCall at h
    split at h
    · rename_i hi; cases h; exact ⟨.refl _, hi⟩
    · rename_i hi
      obtain ⟨h1, h2⟩ := ih h
      exact ⟨.more hi (.step _ t _) h1, h2⟩

/-- thread 3 is inside `flush()` -/
def ord0 : Option St := exec (cfg2 .file false) [.call 3 .flush, .run 3 1] (init (cfg2 .file false) true)
theorem ord0_some : ord0.isSome = true := by decide +kernel
def ordA : St := ord0.get ord0_some
/-- thread 1 logs "c" meanwhile -/
def ord1 : Option St := runCall (cfg2 .file false) 1 30 (setPc ordA 1 (startPC (.push (SinkConc.ev ['c']))))
theorem ord1_some : ord1.isSome = true := by decide +kernel
def ordB : St := ord1.get ord1_some
/-- then thread 2 logs "d" -/
def ord2 : Option St := runCall (cfg2 .file false) 2 30 (setPc ordB 2 (startPC (.push (SinkConc.ev ['d']))))
theorem ord2_some : ord2.isSome = true := by decide +kernel
def ordC : St := ord2.get ord2_some

/-- the hypotheses of C82: thread 3 is inside `flush()` while threads 1 and 2 log "c" and "d" one after the other -/
example : Reach (cfg2 .file false) true ordA ∧ During (cfg2 .file false) 1 (setPc ordA 1 (startPC (.push (SinkConc.ev ['c'])))) ordB ∧
    During (cfg2 .file false) 2 (setPc ordB 2 (startPC (.push (SinkConc.ev ['d'])))) ordC :=
  ⟨exec_reach .init (Option.some_get _).symm, (runCall_during (n := 30) (Option.some_get _).symm).1, (runCall_during (n := 30) (Option.some_get _).symm).1⟩

example : (ordA.pc 1 = .idle ∧ ordA.pc 2 = .idle ∧ ordA.pc 3 = .get .done ∧ ordA.owner.isNone = true) ∧
    (ordB.pc 1 = .idle ∧ ordB.pc 2 = .idle ∧ ordB.owner.isNone = true) ∧ ordC.pc 2 = .idle ∧
    (accepted ordC).map (·.message) = [['c'], ['d']] := by decide +kernel

end SinkFull

namespace SinkClock
open Spec
open SinkConc (Cfg Ret Ch Call)
open SinkFull (accepted acceptedFrom)

/-- **C83** Thread `t` is outside the sink in `s` and again in the later `s'`: the messages it has logged in between carry times between the
reading of the clock in `s` and that in `s'`.  (Take `s` just before a log call and `s'` just after it.) -/
theorem C83_time_of_the_call (c : Cfg) (o : Bool) (start : Int) (hcap : 0 < c.capacity) (s s' : St) (h : Reach c o start s) (hs : Later c s s')
    (t : Tid) (hi : s.sink.pc t = .idle) (hi' : s'.sink.pc t = .idle) :
    ∃ es, acceptedFrom t s'.sink = acceptedFrom t s.sink ++ es ∧ ∀ e ∈ es, s.now ≤ e.timestamp ∧ e.timestamp ≤ s'.now := by
  have r1 := SinkFull.idle_ring hcap (reach_sink h) hi
  have r2 := SinkFull.idle_ring hcap (reach_sink (later_reach h hs)) hi'
  obtain ⟨⟨d, h1, _, h3⟩, _⟩ := timely_later hcap h (Int.le_refl _)
    (⟨[], by rw [r1]; simp [pend], .nil, fun e he => (by cases he)⟩ : Timely s.now (acceptedFrom t s.sink) t s) hs
  rw [r2] at h1
  refine ⟨d, by rw [h1]; simp [pend], h3⟩

/-- **C84** (part): the times of one thread's messages never decrease. -/
theorem C84_thread_times_partial (c : Cfg) (o : Bool) (start : Int) (hcap : 0 < c.capacity) (s : St) (h : Reach c o start s) (t : Tid)
    (hi : s.sink.pc t = .idle) : (acceptedFrom t s.sink).Pairwise (fun a b => a.timestamp ≤ b.timestamp) := by
  have r1 := SinkFull.idle_ring hcap (reach_sink h) hi
  obtain ⟨⟨d, h1, h2, _⟩, _⟩ := timely_reach hcap h t
  rw [r1] at h1
  rw [h1]
  simpa [pend] using h2

/-- **C84** (part): messages whose calls do not overlap are in the order of their times: those `t1` has logged before `s` come before those
`t2` logs after `s`, and their times are not later. -/
theorem C84_separate_calls_partial (c : Cfg) (o : Bool) (start : Int) (hcap : 0 < c.capacity) (s s' : St) (h : Reach c o start s)
    (hs : Later c s s') (t1 t2 : Tid) (h1 : s.sink.pc t1 = .idle) (h2 : s.sink.pc t2 = .idle) (h3 : s'.sink.pc t2 = .idle) :
    ∃ later es, accepted s'.sink = accepted s.sink ++ later ∧ (acceptedFrom t1 s.sink).Sublist (accepted s.sink) ∧
      acceptedFrom t2 s'.sink = acceptedFrom t2 s.sink ++ es ∧ es.Sublist later ∧
      ∀ e1 ∈ acceptedFrom t1 s.sink, ∀ e2 ∈ es, e1.timestamp ≤ e2.timestamp := by
  obtain ⟨later, a1, a2⟩ := SinkFull.later_accepted hcap (reach_sink h) (later_sink hs)
  obtain ⟨es, a3, a4⟩ := a2 t2
  obtain ⟨es', b1, b2⟩ := C83_time_of_the_call c o start hcap s s' h hs t2 h2 h3
  have hes : es' = es := by rw [a3] at b1; exact (List.append_cancel_left b1).symm
  subst hes
  refine ⟨later, es', a1, SinkFull.from_sublist t1 _, a3, a4, fun e1 m1 e2 m2 => ?_⟩
  have r1 := SinkFull.idle_ring hcap (reach_sink h) h1
  obtain ⟨⟨d, c1, _, c3⟩, _⟩ := timely_reach hcap h t1
  rw [r1] at c1
  have c1 : acceptedFrom t1 s.sink = d := by rw [c1]; simp [pend]
  rw [c1] at m1
  exact Int.le_trans (c3 e1 m1).2 (b2 e2 m2).1

/-! ### concrete executions -/

inductive Act where
  | wait (n : Nat)
  | call (t : Tid) (c : Call)
  | run (t : Tid) (n : Nat)

/-- may thread `t` take its next step now? -/
def onTime (s : St) (t : Tid) : Bool :=
  match s.sink.ring.pc t with
  | .putInit e _ => decide (e.timestamp = s.now)
  | _ => true

def runN (c : Cfg) (t : Tid) : Nat → St → Option St
  | 0, s => some s
  | n + 1, s => if onTime s t then runN c t n { s with sink := SinkFull.step c s.sink t SinkConc.calmCh } else none

def exec (c : Cfg) : List Act → St → Option St
  | [], s => some s
  | .wait n :: as, s => exec c as { s with now := s.now + n }
  | .call t call :: as, s =>
    if t ≠ SinkConc.workerTid ∧ s.sink.pc t = .idle ∧ s.sink.owner.isNone then
      exec c as { s with sink := SinkFull.setPc s.sink t (SinkFull.startPC call) } else none
  | .run t n :: as, s => (runN c t n s).bind (exec c as)

theorem runN_later {c : Cfg} {t : Tid} {n : Nat} {s0 s s' : St} (h : Later c s0 s) (he : runN c t n s = some s') : Later c s0 s' := by
  induction n generalizing s with
  | zero => cases he; exact h
  | succ n ih =>
    unfold runN at he
    split at he
    · rename_i ho
      refine ih (.next h (.step s t SinkConc.calmCh fun e k hp => ?_)) he
      unfold onTime at ho
      rw [hp] at ho
      exact of_decide_eq_true ho
    · cases he

theorem exec_later {c : Cfg} {as : List Act} {s0 s s' : St} (h : Later c s0 s) (he : exec c as s = some s') : Later c s0 s' := by
  induction as generalizing s with
  | nil => cases he; exact h
  | cons a as ih =>
    cases a with
    | wait n => exact ih (.next h (.wait s _ (by omega))) he
    | call t call =>
      simp only [exec] at he
      split at he
      · rename_i hc
        exact ih (.next h (.call s t hc.1 hc.2.1 (by simpa using hc.2.2) call)) he
      · cases he
    | run t n =>
      simp only [exec] at he
      cases hr : runN c t n s with
      | none => rw [hr] at he; cases he
      | some m => rw [hr] at he; exact ih (runN_later h hr) he

/-- an event with text `m` of time `ts` -/
def evAt (ts : Int) (m : Text) : Event := { SinkConc.ev m with timestamp := ts }

def start0 : St := ⟨0, SinkFull.init (SinkFull.cfg2 .file false) true⟩

/-- Thread 1 takes its place in the queue and is interrupted before it reads the clock; thread 2 logs "b" at time 1; thread 1 goes on at
time 2; both messages are written. -/
def inverted : Option St :=
  exec (SinkFull.cfg2 .file false)
    [.call 1 (.push (evAt 2 ['a'])), .run 1 7, .wait 1, .call 2 (.push (evAt 1 ['b'])), .run 2 30, .wait 1, .run 1 30,
     .call 3 .flush, .run 3 30, .call 3 .flush, .run 3 30] start0

/-- **C84**, refuted for overlapping calls: a reachable state in which the message of time 2 is written before that of time 1, although the clock was
never set back. -/
theorem C84_refuted : ∃ s, Reach (SinkFull.cfg2 .file false) true 0 s ∧ s.sink.written.map (fun e => (e.timestamp, e.message)) = [(2, ['a']), (1, ['b'])] := by
  have hl : Later (SinkFull.cfg2 .file false) start0 (inverted.get rfl) := exec_later .refl (Option.some_get _).symm
  exact ⟨inverted.get rfl, later_reach (.init) hl, rfl⟩

/-- the hypotheses of C83 and C84: thread 1 logs at time 1 while thread 2 is inside `put`, then, outside the sink, waits, and logs again at time 4 -/
def twoTimes : Option St :=
  exec (SinkFull.cfg2 .file false) [.call 2 (.push (evAt 4 ['x'])), .run 2 4, .wait 1] start0

theorem twoTimes_some : twoTimes.isSome = true := by decide +kernel
def timeA : St := twoTimes.get twoTimes_some
def twoTimes' : Option St :=
  exec (SinkFull.cfg2 .file false) [.run 2 3, .call 1 (.push (evAt 1 ['a'])), .run 1 30, .call 3 .flush, .run 3 3, .wait 3, .run 2 30,
    .run 3 30, .call 1 (.push (evAt 4 ['b'])), .run 1 30] timeA
theorem twoTimes'_some : twoTimes'.isSome = true := by decide +kernel
def timeB : St := twoTimes'.get twoTimes'_some

example : Reach (SinkFull.cfg2 .file false) true 0 timeA ∧ Later (SinkFull.cfg2 .file false) timeA timeB :=
  ⟨later_reach .init (exec_later .refl (Option.some_get _).symm), exec_later .refl (Option.some_get _).symm⟩

example : (timeA.sink.pc 1, timeB.sink.pc 1, (acceptedFrom 1 timeB.sink).map (·.timestamp), timeA.now, timeB.now, decide (timeA.sink.pc 2 = .idle)) =
    (.idle, .idle, [1, 4], 1, 4, false) := by decide +kernel

end SinkClock
end Soralog
