import Verif.Model.Many
/-!
# The sinks of a configured system as sinks of a program with many threads

`Yaml.configure` gives a logging system and the parameters of its sinks; `Many` is a program with many threads over given sinks.  Here the first
provides what the second is given.
-/
namespace Soralog
namespace Many

/-- Which class a sink is.  The sink to nowhere is taken as one that has no worker and, its level being `off`, accepts and writes nothing.
[sink_to_console.hpp, sink_to_file.hpp, sink_to_syslog.hpp, sink_to_nowhere.cpp:14-30] -/
def kindOf : Sink.Kind → SinkConc.Kind
  | .console _ _ => .console
  | .file => .file
  | .syslog => .syslog
  | .nowhere => .console

/-- A sink with these parameters, rendering as the sequential model does with an event of its own (file:137-198, console:198-294,
syslog:137-200); constructed in a file system in which the file can(not) be opened. [sink.hpp:62-82, file:73-98, console:136-154, syslog:75-91] -/
def leafOf (w : Sink.World) (opened : Bool) (c : Sink.Cfg) : LeafCfg where
  conc := { kind := kindOf c.kind, latency0 := decide (c.latency = 0), capacity := c.capacity, mark := c.maxBuffer * 4 / 5
            render := fun e => ((Sink.Leaf.new c w true).record e).out
            sysText := Sink.runText w.lt c.ti c.maxBuffer }
  level := c.level
  ti := c.ti
  maxLen := c.maxLen
  opened := match c.kind with | .file => opened | _ => true

/-- The sink to nowhere as a sink of `Many`. [sink_to_nowhere.cpp:14-30] -/
def leafNowhere : LeafCfg where
  conc := { kind := .console, latency0 := true, capacity := 1024, mark := 0, render := fun _ => [] }
  level := .off
  ti := .none
  maxLen := 0
  opened := true

/-- The sinks of a configured system: multisinks hold the sinks they were made of; `E` says what formatting gives, `format`, `fmt` as in `Setup`.
[logging_system.hpp:117-123, multisink.cpp:16-19] -/
def setupOf (E : Whole.Env) (format : System.Conc.Rec → Text) (fmt : System.Conc.Rec → FmtResult) (specs : Nat → Yaml.Spec) : Setup where
  snk := Whole.tree specs
  leaf i := match (specs i).cfg with
    | some c => leafOf (E.world i) (E.opened i) c
    | none => leafNowhere
  format := format
  fmt := fmt

/-- The program when the call of `configure` has returned: the configured system, its sinks just constructed; no thread is inside a call and
nothing has been logged. `done`: the calls the configurator has made. [logging_system.cpp:60-97] -/
def configured (S : Setup) (sys : System.Sys) (done : List System.Conc.Done) : St :=
  { sys := { sys := sys, pc := fun _ => .idle, done := done, out := [] }
    leaf := fun i => SinkFull.init (S.leaf i).conc (S.leaf i).opened
    todo := fun _ => [], said := [] }

end Many
end Soralog
