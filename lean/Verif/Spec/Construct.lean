import Verif.Model.Construct
/-!
# What the arguments of a sink's constructor mean (C94)
-/
namespace Soralog
namespace Construct

/-- the arguments a user writes who looks at the header and gives the parameter named `q` there the value `val q` -/
def asDeclared (k : Class) (val : Param → Option Nat) : List (Option Nat) := (declared k).map val

/-- documented defaults: events in the queue, bytes of a message, bytes of the buffer, milliseconds -/
def default : Class → Param → Nat
  | .console, .capacity => 64
  | _, .capacity => 2048
  | _, .maxMessageLength => 1024
  | .console, .bufferSize => 128 * 1024
  | _, .bufferSize => 4 * 1024 * 1024
  | .console, .latency => 200
  | _, .latency => 1000

/-- the value meant for a parameter: the one given, else the default -/
def meant (k : Class) (val : Param → Option Nat) (q : Param) : Nat := (val q).getD (default k q)

/-- the sink is set up as the named values say; the buffer has room for two messages at least -/
structure Honoured (k : Class) (val : Param → Option Nat) (c : Sink.Cfg) : Prop where
  capacity : c.capacity = meant k val .capacity
  maxLen : c.maxLen = meant k val .maxMessageLength
  buffer : c.maxBuffer = max (meant k val .bufferSize) (2 * meant k val .maxMessageLength)
  latency : c.latency = meant k val .latency

end Construct
end Soralog
