import Verif.Spec.Syslog
/-!
# Specification: the calls one run of a syslog flush makes
-/
namespace Soralog
namespace Spec

/-- the calls made by one flush that processes the events `r`, oldest first: one for each event that has a priority, in order, whose
text is given by the events processed by this flush up to and including it -/
def callsOfRun (text : List Event → List Char) (r : List Event) : List (Nat × List Char) :=
  (List.range r.length).filterMap fun i =>
    r[i]?.bind fun e => (syslogPriority e.level).map fun p => (p, text (r.take (i + 1)))

end Spec
end Soralog
