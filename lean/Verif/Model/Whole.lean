import Verif.Model.Yaml
/-!
# Model of a whole program: configuration, the logging system, its loggers and its sinks together

The models of the configurators and of `LoggingSystem` (`Yaml`, `System`) know a sink by its number; the model of the sinks (`Sink`) knows a
heap of queue-owning sinks and nestings of multisinks.  Here they are one program: a sink that is created by the configurator or by the user
is constructed in the heap, and a log call on a logger of the system goes to the sink the logger holds.

One thread; the worker threads of the sinks appear as calls of `flush` between two calls.  Sinks are never destroyed (a sink nobody holds
any more has no observable effect except that its destructor flushes it, see C26).
-/
namespace Soralog
namespace Whole

/-- What the environment decides: documents and conversions; clock, threads, file system as seen by the `k`-th sink. [a parameter of the model] -/
structure Env where
  W : Yaml.World
  world : Nat → Sink.World
  /-- whether the constructor of the `k`-th sink can open its file, file:91-95 -/
  opened : Nat → Bool

/-- The logging system with the parameters of its sinks, and the sinks themselves. [logging_system.hpp:276-281, sink.hpp:174-182] -/
structure State where
  st : Yaml.St
  heap : Sink.Heap

/-- The sink number `k` as an object; `depth` bounds the nesting.  [Multisink holds the pointers it is given, multisink.cpp:16-19, sink.hpp:83-93] -/
def treeUpTo (specs : Nat → Yaml.Spec) : Nat → Nat → Sink.Snk
  | 0, k => .leaf k
  | depth + 1, k =>
    match specs k with
    | .multi level subs => .multi level (subs.map (treeUpTo specs depth))
    | _ => .leaf k

/-- A multisink is constructed from sinks that exist, so their numbers are smaller than its own: the bound is never reached. [multisink.cpp:16-19] -/
def tree (specs : Nat → Yaml.Spec) (k : Nat) : Sink.Snk := treeUpTo specs (k + 1) k

/-- A newly constructed sink; a multisink has no queue that is used, and the sink to nowhere is the one of logging_system.cpp:22-25.
[console:136-180, file:73-119, syslog:75-118, sink_to_nowhere.cpp:14-21] -/
def leafFor (E : Env) (k : Nat) (spec : Yaml.Spec) : Sink.Leaf :=
  match spec.cfg with
  | some c => Sink.Leaf.new c (E.world k) (E.opened k)
  | none => Sink.Leaf.new Sink.Cfg.nowhere (E.world k) true

/-- the sinks created by a call are constructed. [logging_system.hpp:117-123] -/
def construct (E : Env) (before : Nat) (st : Yaml.St) (h : Sink.Heap) : Sink.Heap :=
  { h with leaf := fun k => if before ≤ k ∧ k < st.sys.nsinks then leafFor E k (st.specs k) else h.leaf k }

/-- the text of a warning of `getLogger`, logging_system.cpp:115-118, 132-138 -/
def warningText : System.Warning → Text
  | .deprecated _ =>
    "Default group (calling with name '*') is deprecated and should not used anymore; Define existing group explicitly".toList
  | .unknownGroup _ group logger fallback =>
    "Group '".toList ++ group ++ "' for logger '".toList ++ logger ++
      "' is not found. Fallback group will be used (it is group '".toList ++ fallback ++ "' right now).".toList

/-- the format of that warning: `warn(const Arg &)` uses "{}" (logger.hpp:150-152) -/
def warningFormat : System.Warning → Text
  | .deprecated _ => "{}".toList
  | .unknownGroup _ _ _ _ =>
    "Group '{}' for logger '{}' is not found. Fallback group will be used (it is group '{}' right now).".toList

/-- the sink the warning goes to: the one of the fallback group. [logging_system.cpp:122-125, 129-138] -/
def warningSink : System.Warning → Nat
  | .deprecated k => k
  | .unknownGroup k _ _ _ => k

/-- `logger->warn(…)` of the temporary logger "Soralog", logging_system.cpp:124-125, 131-138.  That its level admits warnings has been tested
when the warning was recorded (`System.warnThrough`). -/
def warnAll (specs : Nat → Yaml.Spec) (F : Nat) : List System.Warning → Sink.Heap → Option Sink.Heap
  | [], h => some h
  | w :: ws, h =>
    (Sink.Logger.log F ⟨"Soralog".toList, .warn, tree specs (warningSink w)⟩ .warn (warningFormat w) (.ok (warningText w)) h).bind
      (warnAll specs F ws)

/-- A call of the program. [the public API: logging_system.hpp:40-226, logger.hpp:57-292, sink.hpp:110-170] -/
inductive Call where
  /-- `LoggingSystem::configure()`; `what`: the text of an exception -/
  | configure (what : Text) (c : Yaml.Configurator)
  /-- `makeSink<…>(name, …)` by the user -/
  | makeSink (name : Text) (spec : Yaml.Spec)
  /-- the other calls of `LoggingSystem`, methods of loggers, dropping a logger (`.makeSink n`: a further sink to nowhere) -/
  | system (op : System.Op)
  /-- `log`, `trace` … `critical` of a logger -/
  | log (logger : Nat) (level : Level) (format : Text) (fmt : FmtResult)
  /-- `flush()` of a sink, by a logger, by the user or by its worker -/
  | flush (sink : Nat)
  /-- `rotate()` of a sink -/
  | rotate (sink : Nat)

/-- How a call ends. [no code of its own] -/
inductive Out where
  | ok (s : State)
  | throw (s : State)
  | ub
  | diverge

/-- `Logger::push` on the logger number `i` of the system, logger.hpp:44-55.  A null `sink_` is dereferenced if the level admits the event. -/
def logCall (F : Nat) (s : State) (i : Nat) (v : Level) (format : Text) (fmt : FmtResult) : Out :=
  let l := s.st.sys.lgr i
  match l.sink with
  | none => if v ≤ l.level ∧ v ≠ Level.off ∧ v ≠ Level.ignore then .ub else .ok s
  | some k =>
    match Sink.Logger.log F ⟨l.name, l.level, tree s.st.specs k⟩ v format fmt s.heap with
    | some h => .ok { s with heap := h }
    | none => .diverge

/-- One call. `F` bounds the recursions and the loops.  Calls on objects that do not exist are not made. [logging_system.cpp:27-557, logger.hpp:44-55, multisink.cpp:21-34] -/
def step (E : Env) (F : Nat) (s : State) : Call → Out
  | .configure what c =>
    match Yaml.configure E.W F what c s.st with
    | .ok _ y => .ok ⟨y, construct E s.st.sys.nsinks y s.heap⟩
    | .throw y => .throw ⟨y, construct E s.st.sys.nsinks y s.heap⟩
    | .ub => .ub
    | .diverge => .diverge
  | .makeSink name spec =>
    match Yaml.createSink E.W name spec s.st with
    | .ok _ y => .ok ⟨y, construct E s.st.sys.nsinks y s.heap⟩
    | .throw y => .throw ⟨y, construct E s.st.sys.nsinks y s.heap⟩
    | .ub => .ub
    | .diverge => .diverge
  | .system op =>
    match System.step F s.st.sys op with
    | .ret _ y =>
      match warnAll s.st.specs F (y.warned.drop s.st.sys.warned.length) (construct E s.st.sys.nsinks { s.st with sys := y } s.heap) with
      | some h => .ok ⟨{ s.st with sys := y }, h⟩
      | none => .diverge
    | .throw y => .throw ⟨{ s.st with sys := y }, construct E s.st.sys.nsinks { s.st with sys := y } s.heap⟩
    | .ub => .ub
    | .diverge => .diverge
  | .log i v format fmt => if i < s.st.sys.nloggers ∧ s.st.sys.alive i then logCall F s i v format fmt else .ok s
  | .flush k => if k < s.st.sys.nsinks then .ok { s with heap := (tree s.st.specs k).flush s.heap } else .ok s
  | .rotate k => if k < s.st.sys.nsinks then .ok { s with heap := (tree s.st.specs k).rotate s.heap } else .ok s

/-- a new logging system with its sink to nowhere. [logging_system.cpp:22-25] -/
def new (E : Env) (debug : Bool) (ord : List Nat → List Nat) (syslogOpen : Bool) : State :=
  ⟨Yaml.new debug ord syslogOpen, ⟨fun k => leafFor E k .nowhere, false⟩⟩

end Whole
end Soralog
