import Verif.Model.SinkFull
/-!
# The concurrent sink with a clock

`SinkFull` chooses the event a push will construct when the push starts.  Its timestamp is read from the clock later, when the constructor
of the event begins (event.hpp:52, `timestamp_` is the first member initialised), which is after the place in the queue is taken
(circular_buffer.hpp:148-167).  Here an execution of `SinkFull` runs beside a clock, and only those executions are kept in which every
event carries the reading of the clock at that step.

Sources: include/soralog/event.hpp:46-52, include/soralog/circular_buffer.hpp:134-171.

Simplification: the clock (`std::chrono::system_clock`) is never set back.
-/
namespace Soralog
namespace SinkClock
open SinkConc (Cfg Ch Call)
open SinkFull (setPc startPC step)

/-- The clock and the sink. [event.hpp:52] -/
structure St where
  now : Int
  sink : SinkFull.St

/-- One action of a schedule, as `SinkFull.Exec`, or time passes. [event.hpp:46-52, circular_buffer.hpp:164-169] -/
inductive Exec (c : Cfg) : St → St → Prop where
  | wait (s : St) (now : Int) (h : s.now ≤ now) : Exec c s { s with now }
  | call (s : St) (t : Tid) (h : t ≠ SinkConc.workerTid) (hi : s.sink.pc t = .idle) (hd : s.sink.owner = none) (call : Call) :
      Exec c s { s with sink := setPc s.sink t (startPC call) }
  /-- the step that begins the construction of an event reads the clock -/
  | step (s : St) (t : Tid) (ch : Ch) (h : ∀ e k, s.sink.ring.pc t = .putInit e k → e.timestamp = s.now) :
      Exec c s { s with sink := step c s.sink t ch }
  | destroy (s : St) (t : Tid) (h : t ≠ SinkConc.workerTid) (hd : s.sink.owner = none)
      (hi : ∀ u, u ≠ SinkConc.workerTid → s.sink.pc u = .idle) :
      Exec c s { s with sink := setPc { s.sink with owner := some t } t .dStart }

/-- States reachable from a newly constructed sink; `start`: the reading of the clock then. [sink_to_file.cpp:73-277] -/
inductive Reach (c : Cfg) (opened : Bool) (start : Int) : St → Prop where
  | init : Reach c opened start ⟨start, SinkFull.init c opened⟩
  | next {s s' : St} : Reach c opened start s → Exec c s s' → Reach c opened start s'

end SinkClock
end Soralog
