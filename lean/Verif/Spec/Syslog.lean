import Verif.Model.Level
import Verif.Model.Event
/-!
# Specification: what syslog should receive
-/
namespace Soralog
namespace Spec

/-- The priorities of syslog(3) for the levels: EMERG 0, ALERT 1, WARNING 4, NOTICE 5, INFO 6, DEBUG 7.  TRACE is not for syslog. -/
def priorities : List (Level × Nat) :=
  [(.critical, 0), (.error, 1), (.warn, 4), (.info, 5), (.verbose, 6), (.debug, 7)]

/-- the priority of a level, if it has one -/
def syslogPriority (l : Level) : Option Nat := (priorities.find? (·.1 = l)).map (·.2)

/-- one call for each event that has a priority, with the text given by `text`, in order -/
def callsFor (text : Event → List Char) (es : List Event) : List (Nat × List Char) :=
  es.filterMap fun e => (syslogPriority e.level).map fun p => (p, text e)

end Spec
end Soralog
