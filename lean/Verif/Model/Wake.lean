import Verif.Model.SinkFull
/-!
# Model of the worker's condition variable

`Model/SinkFull.lean` lets the wait of the worker end at any moment.  Here the wait is modelled as it is written: the worker waits without
a predicate, and the threads that have something for it store a flag and then call `notify_one` without holding the mutex.  A notification
that is sent while the worker is not inside the wait is lost; wake-ups may be spurious.  Everything else is `Model/SinkFull.lean`.

Simplifications.  Waking up and the two loads that follow are one step.  Nobody but the worker locks the mutex, so locking it is not a step.
-/
namespace Soralog
namespace Wake
open SinkConc (Cfg Ch Call workerTid)

/-- [sink.hpp:174-182, sink_to_file.hpp:48-62] -/
structure St where
  sink : SinkFull.St
  /-- the worker is inside `condvar_.wait_until`, file:260 -/
  asleep : Bool
  /-- `notify_one` has been called since it is -/
  roused : Bool
  /-- the thread has stored its request and is about to call `notify_one`, file:114 -/
  notifying : Tid → Bool

/-- A new sink; its worker is in front of its first wait. [file:73-97, 251-257] -/
def init (c : Cfg) (opened : Bool) : St := ⟨SinkFull.init c opened, false, false, fun _ => false⟩

/-- Is the next step of the thread the store of a request that is followed by `notify_one`? [file:112-119, 102; console:173-180; syslog:120-127] -/
def requests (c : Cfg) (s : SinkFull.St) (t : Tid) : Bool :=
  match s.pc t with
  | .async => !c.latency0
  | .dAsync => true
  | _ => false

/-- The next step of a thread; `ch.timeout`: the deadline of the wait has passed; `spurious`: a spurious wake-up.
[file:112-119, 251-277, console:173-180, 323-349, syslog:120-127, 256-282] -/
def step (c : Cfg) (s : St) (t : Tid) (ch : Ch) (spurious : Bool) : St :=
  if s.notifying t then { s with notifying := upd s.notifying t false, roused := s.roused || s.asleep }
  else if t = workerTid ∧ s.sink.pc t = .wWait then
    if s.asleep then
      if ch.timeout then { s with asleep := false, sink := SinkFull.step c s.sink t ch }
      else if s.roused || spurious then
        -- `no_timeout`: on with the loop body only if the relaxed loads show a request, file:262-266
        if (s.sink.needFlush || s.sink.needFinalize) && ch.newest then
          { s with asleep := false, sink := SinkFull.step c s.sink t { ch with timeout := true } }
        else { s with asleep := false }
      else s
    else { s with asleep := true, roused := false }
  else { s with sink := SinkFull.step c s.sink t ch, notifying := if requests c s.sink t then upd s.notifying t true else s.notifying }

/-- What happens next: a client starts a call, a thread takes a step, a client starts the destructor, or nothing. [no code of its own] -/
inductive Deed where
  | call (t : Tid) (k : Call)
  | step (t : Tid) (ch : Ch) (spurious : Bool)
  | destroy (t : Tid)
  | rest

/-- `s'` comes from `s` by this; the usage rules are those of `SinkFull.Exec`. [sink.hpp:117-170, file:99-277] -/
def Does (c : Cfg) (s : St) : Deed → St → Prop
  | .call t k, s' => t ≠ workerTid ∧ s.sink.pc t = .idle ∧ s.notifying t = false ∧ s.sink.owner = none ∧
      s' = { s with sink := SinkFull.setPc s.sink t (SinkFull.startPC k) }
  | .step t ch sp, s' => s' = step c s t ch sp
  | .destroy t, s' => t ≠ workerTid ∧ s.sink.owner = none ∧ (∀ u, u ≠ workerTid → s.sink.pc u = .idle ∧ s.notifying u = false) ∧
      s' = { s with sink := SinkFull.setPc { s.sink with owner := some t } t .dStart }
  | .rest, s' => s' = s

/-- States reachable from a newly constructed sink. [file:73-277] -/
inductive Reach (c : Cfg) (opened : Bool) : St → Prop where
  | init : Reach c opened (init c opened)
  | next {s s' : St} (d : Deed) : Reach c opened s → Does c s d s' → Reach c opened s'

end Wake
end Soralog
