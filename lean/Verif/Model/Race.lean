import Verif.Model.SinkFull
import Verif.Spec.HappensBefore
/-!
# What the queue and the sinks do to flags and to memory that is not atomic

For each step of `Model/Ring.lean` and `Model/SinkFull.lean`: the successful `test_and_set`s and the `clear`s it makes, and the accesses to slots,
staging buffer and output stream.  All flags use the default memory order in the code.  A failed `test_and_set` is left out (it could only add
happens-before); the other atomics (`size_`, `push_index_`, `pop_index_`, `need_to_…`, `next_flush_`) are left out for the same reason.
-/
namespace Soralog
namespace Race

open Ring (PC)

/-- circular_buffer.hpp:107-206 -/
def tickEvents {T : Type} (s : Ring.St T) (t : Tid) : List Ev :=
  match s.pc t with
  | .putSpin _ | .getSpin | .obsSpin _ => if s.buf.busy then [] else [.acquire .lock]                  -- 108, 117, 126, 136, 175
  | .putFull _ | .putRetry _ | .putUnlock _ _ | .getEmpty | .getRetry | .getUnlock _ _ | .obsUnlock _ _ => [.release .lock]
  | .putCapture _ =>                                                                                   -- 153
    if s.buf.capacity ≤ s.buf.pushIdx then [] else if s.buf.nodeBusy s.buf.pushIdx then [] else [.acquire (.node s.buf.pushIdx)]
  | .getCapture =>                                                                                     -- 191
    if s.buf.capacity ≤ s.buf.popIdx then [] else if s.buf.nodeBusy s.buf.popIdx then [] else [.acquire (.node s.buf.popIdx)]
  | .putInit _ k | .putBuild _ k => [.write (.slot k)]                                                 -- 167
  | _ => []

/-- The `i`-th live `NodeRef` is destroyed by its owner, circular_buffer.hpp:60-64. -/
def dropEvents {T : Type} (s : Ring.St T) (i : Nat) : Trace :=
  match s.refs[i]? with
  | none => []
  | some r => [(r.owner, .release (.node r.slot))]

/-- The element is read through the `i`-th live `NodeRef` by its owner, circular_buffer.hpp:66-74. -/
def readEvents {T : Type} (s : Ring.St T) (i : Nat) : Trace :=
  match s.refs[i]? with
  | none => []
  | some r => [(r.owner, .read (.slot r.slot))]

/-- an action on the queue, or a use of a `NodeRef`. [circular_buffer.hpp:60-206] -/
inductive QAct (T : Type) where
  | act (a : Ring.Act T)
  | read (i : Nat)

/-- state and trace after one more action. [circular_buffer.hpp:60-206] -/
def queueAct {T : Type} (x : Ring.St T × Trace) : QAct T → Ring.St T × Trace
  | .act (.call t c) => (Ring.call x.1 t c, x.2)
  | .act (.step t) => (Ring.tick x.1 t, x.2 ++ (tickEvents x.1 t).map (t, ·))
  | .act (.drop i) => (Ring.drop x.1 i, x.2 ++ dropEvents x.1 i)
  | .read i => (x.1, x.2 ++ readEvents x.1 i)

/-- a whole execution of a new queue. [circular_buffer.hpp:60-206] -/
def queueRun (T : Type) (capacity : Nat) (as : List (QAct T)) : Ring.St T × Trace := as.foldl queueAct (Ring.init T capacity, [])

/-- reading the event through the thread's own `NodeRef`. [circular_buffer.hpp:66-74] -/
def ownRead (r : Ring.St Event) (t : Tid) : Trace := readEvents r (r.refs.findIdx (SinkFull.isMine t))

/-- One step of a thread of a sink, in the order of the code.
[sink.hpp:117-149, file:99-277, console:160-349, syslog:105-282] -/
def stepEvents (c : SinkConc.Cfg) (s : SinkFull.St) (t : Tid) (_ch : SinkConc.Ch) : Trace :=
  match s.pc t with
  | .putIn _ | .getIn _ | .sizeIn => (tickEvents s.ring t).map (t, ·)
  | .count => ownRead s.ring t                                                                         -- sink.hpp:137
  | .release | .unref _ _ | .sUnref _ => dropEvents s.ring (s.ring.refs.findIdx (SinkFull.isMine t))
  | .enter _ => if s.flag then [] else [(t, .acquire .flush)]                                          -- file:121, console:182, syslog:130
  | .uncount _ => ownRead s.ring t ++ [(t, .write .staging)]                                           -- file:137-200
  | .write _ none => []
  | .write _ (some _) => if s.isOpen then [(t, .read .staging), (t, .write .stream)] else []           -- file:204-213
  | .sync _ => [(t, .write .stream)]                                                                   -- file:219-221
  | .reopen _ => [(t, .write .stream)]                                                                 -- file:228-240
  | .leave _ => [(t, .release .flush)]                                                                 -- file:243
  | .sCall _ => ownRead s.ring t ++ [(t, .write .staging)]                                             -- syslog:145-241
  | .sUncount _ => ownRead s.ring t                                                                    -- syslog:244
  | .dJoin => if s.pc SinkConc.workerTid = .wExit then [(t, .join)] else []                            -- file:103-106
  | .dEnd =>                                                                                           -- file:110, the data members are destroyed
    (if c.isFile then [(t, .write .stream)] else []) ++ (t, .write .staging) :: (List.range c.capacity).map fun k => (t, .write (.slot k))
  | _ => []

/-- One action of a schedule of a sink, with what it does to memory; see `SinkFull.Exec`. [sink.hpp:117-170, file:99-277] -/
inductive SinkExec (c : SinkConc.Cfg) : SinkFull.St → Trace → SinkFull.St → Prop where
  | call (s : SinkFull.St) (t : Tid) (h : t ≠ SinkConc.workerTid) (hi : s.pc t = .idle) (hd : s.owner = none) (call : SinkConc.Call) :
      SinkExec c s [] (SinkFull.setPc s t (SinkFull.startPC call))
  | step (s : SinkFull.St) (t : Tid) (ch : SinkConc.Ch) : SinkExec c s (stepEvents c s t ch) (SinkFull.step c s t ch)
  | destroy (s : SinkFull.St) (t : Tid) (h : t ≠ SinkConc.workerTid) (hd : s.owner = none)
      (hi : ∀ u, u ≠ SinkConc.workerTid → s.pc u = .idle) :
      SinkExec c s [(t, .destroy)] (SinkFull.setPc { s with owner := some t } t .dStart)

/-- The executions of a sink with their traces. [file:73-277] -/
inductive SinkRun (c : SinkConc.Cfg) (opened : Bool) : SinkFull.St → Trace → Prop where
  | init : SinkRun c opened (SinkFull.init c opened) []
  | next {s s' : SinkFull.St} {tr l : Trace} : SinkRun c opened s tr → SinkExec c s l s' → SinkRun c opened s' (tr ++ l)

end Race
end Soralog
