/-!
# Model of the process-wide flag `SinkToSyslog::syslog_is_opened_` (src/impl/sink_to_syslog.cpp)

Any number of syslog sinks (numbered) are constructed and destroyed by any threads; every access of the flag is one step.
-/
namespace Soralog
namespace SyslogOpen

/-- where the life of one sink object is. [syslog:75-118] -/
inductive Phase where
  /-- the constructor has not been called -/
  | absent
  /-- the constructor has set the flag, before `openlog`, syslog:92-98 -/
  | opening
  /-- constructed -/
  | live
  /-- the destructor has called `closelog`, syslog:116 -/
  | closing
  /-- destroyed -/
  | gone
  /-- the constructor has thrown, syslog:95-96 -/
  | failed
deriving DecidableEq, Repr

/-- The flag (syslog:73) and all syslog sinks of the process. -/
structure State where
  /-- `syslog_is_opened_`, syslog:73 -/
  flag : Bool
  phase : Nat → Phase

/-- syslog:73 -/
def init : State := { flag := false, phase := fun _ => .absent }

/-- no code of its own -/
def State.set (s : State) (i : Nat) (p : Phase) : State := { s with phase := fun j => if j = i then p else s.phase j }

/-- One step of the constructor or the destructor of sink `i`. [syslog:75-118] -/
inductive Step : State → State → Prop
  /-- `compare_exchange_strong(false, true)` succeeds, syslog:92-94 -/
  | acquire (s : State) (i : Nat) (h : s.phase i = .absent) (hf : s.flag = false) : Step s { s.set i .opening with flag := true }
  /-- it fails, the constructor throws, syslog:92-97 -/
  | refuse (s : State) (i : Nat) (h : s.phase i = .absent) (hf : s.flag = true) : Step s (s.set i .failed)
  /-- `openlog`, syslog:98 -/
  | openlog (s : State) (i : Nat) (h : s.phase i = .opening) : Step s (s.set i .live)
  /-- the destructor up to `closelog`, syslog:105-116 -/
  | closelog (s : State) (i : Nat) (h : s.phase i = .live) : Step s (s.set i .closing)
  /-- `syslog_is_opened_.store(true)`, syslog:117 -/
  | release (s : State) (i : Nat) (h : s.phase i = .closing) : Step s { s.set i .gone with flag := true }

/-- the states that can occur. [syslog:73-118] -/
inductive Reach : State → Prop
  | init : Reach init
  | step {s s' : State} (h : Reach s) (hs : Step s s') : Reach s'

end SyslogOpen
end Soralog
