import Verif.Model.Yaml
/-!
# The constructors of the sinks as they are declared and as they are defined

The declarations a user reads are in the headers, the names that decide what a value is used for are those of the
definitions in the .cpp files.  C++ matches the two by position only.
-/
namespace Soralog
namespace Construct

/-- the four optional numbers a constructor takes after the thread info. [sink_to_console.hpp:38-41] -/
inductive Param where
  | capacity | maxMessageLength | bufferSize | latency
deriving DecidableEq, Repr

/-- the three classes with these parameters. [sink_to_console.hpp:20, sink_to_file.hpp:22, sink_to_syslog.hpp:20] -/
inductive Class where
  | console | file | syslog
deriving DecidableEq, Repr

/-- the parameters in the order of the declaration. [sink_to_console.hpp:38-41, sink_to_file.hpp:34-37, sink_to_syslog.hpp:32-35] -/
def declared : Class → List Param
  | .console => [.capacity, .maxMessageLength, .bufferSize, .latency]
  | .file => [.capacity, .bufferSize, .maxMessageLength, .latency]
  | .syslog => [.capacity, .maxMessageLength, .bufferSize, .latency]

/-- the parameters in the order of the definition. [console:141-144, file:77-80, syslog:79-82] -/
def defined : Class → List Param
  | .console => [.capacity, .maxMessageLength, .bufferSize, .latency]
  | .file => [.capacity, .maxMessageLength, .bufferSize, .latency]
  | .syslog => [.capacity, .maxMessageLength, .bufferSize, .latency]

/-- the value a parameter of the definition receives from arguments given by position; arguments not given are empty.
[rule of C++; `= {}` of sink_to_console.hpp:37-41] -/
def received (k : Class) (args : List (Option Nat)) (q : Param) : Option Nat :=
  (((defined k).zip args).find? (fun a => a.1 = q)).bind (·.2)

/-- `value_or` of each parameter. [console:148-151, file:84-87, syslog:86-89] -/
def standard : Class → Yaml.Defaults
  | .console => Yaml.consoleDefaults
  | .file => Yaml.fileDefaults
  | .syslog => Yaml.fileDefaults

/-- the constructor: what a sink built from these arguments is configured with. [console:136-158, file:73-98, syslog:75-103, sink.hpp:62-81] -/
def construct (k : Class) (kind : Sink.Kind) (level : Level) (ti : ThreadInfo) (args : List (Option Nat)) : Sink.Cfg :=
  Yaml.mkCfg kind level (standard k)
    { ti, capacity := received k args .capacity, maxLen := received k args .maxMessageLength,
      buffer := received k args .bufferSize, latency := received k args .latency }

/-- the call made by the configurator. [configurator_from_yaml.cpp:454-462, 624-631, 793-800] -/
def fromDocument (k : Class) (kind : Sink.Kind) (level : Level) (a : Yaml.Args) : Sink.Cfg :=
  construct k kind level a.ti [a.capacity, a.maxLen, a.buffer, a.latency]

end Construct
end Soralog
