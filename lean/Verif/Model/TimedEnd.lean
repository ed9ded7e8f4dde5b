import Verif.Model.Timed
/-!
# Model of the deadlines while a sink is being destroyed

What `Model/Timed.lean` describes goes on after the destructor has been started, with three differences: nobody else calls the sink, the
worker does not go back to its wait after a wake-up because `need_to_finalize_` is set, and it ends when it finds the queue empty after a flush.
-/
namespace Soralog
namespace TimedEnd
open Timed (Cfg)

/-- [sink_to_file.cpp:99-110] -/
structure St where
  base : Timed.St
  /-- the worker has ended, so `join` returns -/
  ended : Bool

/-- The destructor stores both requests. [console:160-162, file:100-102, syslog:107-109] -/
def start (b : Timed.St) : St := ⟨{ b with needFlush := true }, false⟩

/-- What can happen. [console:323-349, file:251-277, syslog:256-282] -/
inductive Act where
  /-- time passes -/
  | tick (d : Nat)
  /-- `wait_until` returns `no_timeout`: the notification of the destructor, or a spurious wake-up, before the deadline -/
  | wake (cas : Bool)
  /-- `wait_until` returns `timeout` -/
  | timeout (cas : Bool)
deriving DecidableEq

/-- A flush, and the check after it. [console:341-347, file:270-275, syslog:275-280] -/
def lap (c : Cfg) (cas : Bool) (b : Timed.St) : St :=
  let b' := Timed.flush c cas b
  if b'.queue.isEmpty then ⟨b', true⟩ else ⟨Timed.waitAgain b', false⟩

/-- One step; `none`: not possible. [console:323-349, file:251-277, syslog:256-282] -/
def step (c : Cfg) (s : St) (a : Act) : Option St :=
  if s.ended then none
  else
    match a with
    | .tick d => if s.base.now + d ≤ max s.base.deadline s.base.since + c.slack then some { s with base := { s.base with now := s.base.now + d } } else none
    | .wake cas => if s.base.now < s.base.deadline then some (lap c cas s.base) else none
    | .timeout cas => if s.base.deadline ≤ s.base.now then some (lap c cas s.base) else none

/-- the state after some steps. [no code of its own] -/
def run (c : Cfg) : List Act → St → Option St
  | [], s => some s
  | a :: as, s => (step c s a).bind (run c as)

end TimedEnd
end Soralog
