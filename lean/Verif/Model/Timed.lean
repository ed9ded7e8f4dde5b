/-!
# Model of the deadlines of a sink with a worker thread

One sink with latency ≠ 0 and its worker, with explicit time.  Calls take no time (a flush and a push are one step); the worker is allowed to
run `slack` late after the moment at which `wait_until` has to return.  What is written, and the races of calls, are the business of
`Model/SinkConc.lean`; here the queue holds only when each event was pushed.
-/
namespace Soralog
namespace Timed

/-- Parameters. [latency_, sink.hpp:178; `slack` bounds the delays of the scheduler] -/
structure Cfg where
  /-- `SinkToSyslog`; otherwise console or file -/
  syslog : Bool
  latency : Nat
  slack : Nat

/-- A queued event: the moment of its push, and how many events were queued before it then. [no code of its own] -/
structure Ev where
  at_ : Nat
  ahead : Nat
deriving DecidableEq

/-- [sink.hpp:174-182, impl/sink_to_console.hpp:63-65, impl/sink_to_syslog.hpp:57-59] -/
structure St where
  now : Nat
  queue : List Ev
  /-- `next_flush_` -/
  next : Nat
  /-- the value of `next_flush_` the worker has loaded for its present `wait_until` -/
  deadline : Nat
  /-- since when the worker has been waiting -/
  since : Nat
  needFlush : Bool
  /-- the events written, with the moment of writing, oldest first -/
  written : List (Ev × Nat)
  /-- how often `wait_until` of the worker has ended with a timeout -/
  timeouts : Nat

/-- What can happen. [console:173-349, file:112-277, syslog:120-282, sink.hpp:117-155] -/
inductive Act where
  /-- time passes -/
  | tick (d : Nat)
  /-- `push`; `full`: its size account asks for `async_flush` -/
  | push (full : Bool)
  /-- `flush()` by another thread than the worker; `cas`: whether `compare_exchange_weak` succeeds -/
  | flush (cas : Bool)
  /-- `async_flush()` -/
  | async
  /-- `wait_until` returns `no_timeout`: a notification or a spurious wake-up before the deadline -/
  | wake (cas : Bool)
  /-- `wait_until` returns `timeout` -/
  | timeout (cas : Bool)
deriving DecidableEq

/-- The worker has stored `next_flush_ = now` and waits, console:323-333, file:251-261, syslog:256-266. -/
def init (t : Nat) : St := ⟨t, [], t, t, t, false, [], 0⟩

/-- `flush()`: console and file write at most one event and advance `next_flush_` if they wrote or the deadline has passed, console:182-321,
file:121-244; syslog writes everything and does not touch `next_flush_`, syslog:129-254. -/
def flush (c : Cfg) (cas : Bool) (s : St) : St :=
  if c.syslog then { s with queue := [], written := s.written ++ s.queue.map (·, s.now), needFlush := false }
  else
    match s.queue with
    | [] => if s.next ≤ s.now then { s with next := s.now + c.latency } else s
    | e :: q => { s with queue := q, written := s.written ++ [(e, s.now)], next := s.now + c.latency, needFlush := s.needFlush && !cas }

/-- the worker loads `next_flush_` and waits again, console:330-333, file:258-261, syslog:263-266 -/
def waitAgain (s : St) : St := { s with deadline := s.next, since := s.now }

/-- One step; `none`: not possible.  Time passes only as long as the worker is not more than `slack` late: its `wait_until` has to return
when the deadline has been reached, or at once if it had passed when the wait began. [console:323-349, file:251-277, syslog:256-282] -/
def step (c : Cfg) (s : St) : Act → Option St
  | .tick d => if s.now + d ≤ max s.deadline s.since + c.slack then some { s with now := s.now + d } else none
  | .push full => some { s with queue := s.queue ++ [⟨s.now, s.queue.length⟩], needFlush := s.needFlush || full }
  | .flush cas => some (flush c cas s)
  | .async => some { s with needFlush := true }
  | .wake cas => if s.now < s.deadline then some (waitAgain (if s.needFlush then flush c cas s else s)) else none
  | .timeout cas => if s.deadline ≤ s.now then some (waitAgain { flush c cas s with timeouts := s.timeouts + 1 }) else none

/-- [all executions] -/
inductive Reach (c : Cfg) : St → Prop
  | init (t : Nat) : Reach c (init t)
  | step {s s' : St} (a : Act) (h : Reach c s) (hs : step c s a = some s') : Reach c s'

/-- the state after some steps. [no code of its own] -/
def run (c : Cfg) : List Act → St → Option St
  | [], s => some s
  | a :: as, s => (step c s a).bind (run c as)

end Timed
end Soralog
