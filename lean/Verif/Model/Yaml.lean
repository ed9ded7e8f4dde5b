import Verif.Model.System
import Verif.Model.Sink
import Verif.Model.Layout
/-!
# Model of ConfiguratorFromYAML (src/impl/configurator_from_yaml.cpp), FallbackConfigurator and LoggingSystem::configure

The YAML library is not modelled: a parsed document is a graph of nodes (YAML has anchors and aliases, so nodes can be
shared and a node can contain itself), and the conversions of scalars to `int` and `bool` are parameters.  Text of
messages is modelled literally.
-/
namespace Soralog
namespace Yaml

open Soralog.System

/-- A node of a parsed document.  The entries of a map are kept in document order with duplicates, as yaml-cpp does;
`map["key"]` finds the first one with that key. -/
inductive Node where
  | null
  | scalar (text : Text)
  | seq (items : List Nat)
  | map (entries : List (Nat × Nat))
deriving DecidableEq

/-- What is configured for a sink (constructors of SinkToConsole, SinkToFile, SinkToSyslog, Multisink). [console:136-154, file:73-89, syslog:75-91, multisink.cpp:16-19] -/
inductive Spec where
  /-- `stderr` or `stdout` -/
  | console (err : Bool) (cfg : Sink.Cfg)
  | file (path : Text) (cfg : Sink.Cfg)
  | syslog (ident : Text) (cfg : Sink.Cfg)
  | multi (level : Level) (sinks : List Nat)
  | nowhere
deriving DecidableEq

/-- the queue and buffer parameters of a sink, if it has a queue. [sink.hpp:62-81] -/
def Spec.cfg : Spec → Option Sink.Cfg
  | .console _ c => some c
  | .file _ c => some c
  | .syslog _ c => some c
  | .multi _ _ => none
  | .nowhere => none

/-- The environment of a configuration: the documents, the conversions of the YAML library, the compile options. [configurator_from_yaml.cpp:55-1030] -/
structure World where
  node : Nat → Node
  /-- `as<int>()` of a scalar; `none`: it throws -/
  asInt : Text → Option Int
  asInt_range : ∀ t i, asInt t = some i → -2 ^ 31 ≤ i ∧ i < 2 ^ 31
  /-- `as<bool>()` of a scalar; `none`: it throws -/
  asBool : Text → Option Bool
  /-- `as<std::string>()` of a null node: newer versions of yaml-cpp give "null", older ones throw -/
  nullText : Option Text
  /-- the memory for a sink with these parameters can be allocated (and its thread started); otherwise its
  constructor throws -/
  alloc : Sink.Cfg → Bool
  /-- `std::vector<char>` refuses sizes above `PTRDIFF_MAX` -/
  alloc_max : ∀ c, alloc c = true → c.maxBuffer < 2 ^ 63
  /-- unspecified evaluation order, see `Sink.Kind` -/
  boldFirst : Bool
  /-- WITHOUT_DEBUG_LOG_LEVEL, WITHOUT_TRACE_LOG_LEVEL -/
  debugOff : Bool
  traceOff : Bool

/-- `std::to_string(int)`, `<<` of an integer. [:157, :226, :395, :895] -/
def intText (i : Int) : Text := (toString i).toList

/-- conversion of an `int` to `size_t`. [:343, :360, :378, :401] -/
def toSize (i : Int) : Nat := (i % 2 ^ 64).toNat

/-- The problems that are written to `errors_`. [the texts are in `Problem.text`, with their lines] -/
inductive Problem where
  | cannotParseFile (path what : Text)
  | cannotParse (what : Text)
  | configNotMap
  | groupsUndefined
  | unknownProperty (key : Text)
  | sinksEmpty
  | sinksNotSeq
  | sinkNotMap (i : Nat)
  | levelNotScalar (target : Text)
  | levelOff (level target : Text)
  | levelInvalid (target level : Text)
  | sinkNoName (i : Nat)
  | sinkNameNotScalar (i : Nat)
  | sinkNoType (i : Nat)
  | sinkTypeNotScalar (i : Nat)
  | sinkReserved
  | sinkUnknownType (name type : Text)
  | colorNotScalar
  | streamWrong
  | notScalar (prop : Text)
  | threadWrong (name value : Text)
  | wrongValue (prop name value : Text)
  | latencyWrong (name value : Text)
  | consoleUnknownProperty (name key : Text)
  | sinkUnknownProperty (name key : Text)
  | sinkExists (name : Text)
  | notFound (prop name : Text)
  | neededNotScalar (prop name : Text)
  | multiNotList (name : Text)
  | multiMissing (sink name : Text)
  | groupsEmpty
  | groupsNotSeq
  | groupNotMap (i : Nat)
  | groupNoName (group : Text)
  | groupPropNotScalar (prop group : Text)
  | groupSinkUndefined (sink group : Text)
  | groupNoLevel (group : Text)
  | childrenNotSeq (group : Text)
  | groupUnknownProperty (group key : Text)
  | groupUnknownSink (group sink : Text)
  | moreBugs (group : Text)
  | groupReserved
deriving DecidableEq

/-- the text written to `errors_`. [lines of configurator_from_yaml.cpp beside each] -/
def Problem.text : Problem → Text
  | .cannotParseFile p w => "E: Can't parse file ".toList ++ p ++ ": ".toList ++ w ++ "\n".toList             -- :73-75
  | .cannotParse w => "E: Can't parse content: ".toList ++ w ++ "\n".toList                                    -- :83
  | .configNotMap => "E: Config is not YAML map\n".toList                                                      -- :107
  | .groupsUndefined => "E: Groups are undefined\n".toList                                                     -- :116
  | .unknownProperty k => "W: Unknown property: ".toList ++ k ++ "\n".toList                                   -- :128
  | .sinksEmpty => "E: Sinks list is empty\n".toList                                                           -- :143
  | .sinksNotSeq => "E: Sinks is not a YAML sequence\n".toList                                                 -- :149
  | .sinkNotMap i => "W: Element #".toList ++ intText i ++ " of 'sinks' is not a YAML map\n".toList            -- :157
  | .levelNotScalar t => "E: Property 'level' of ".toList ++ t ++ " is not scalar\n".toList                    -- :171
  | .levelOff l t => "W: Level '".toList ++ l ++ "' in ".toList ++ t ++
      " won't work: it has disabled with compile option\n".toList                                              -- :198, :207
  | .levelInvalid t l => "E: Invalid level in ".toList ++ t ++ ": ".toList ++ l ++ "\n".toList                 -- :214
  | .sinkNoName i => "E: Not found 'name' of sink node #".toList ++ intText i ++ "\n".toList                   -- :226
  | .sinkNameNotScalar i => "E: Property 'name' of sink node #".toList ++ intText i ++ " is not scalar\n".toList -- :230
  | .sinkNoType i => "E: Not found 'type' of sink node #".toList ++ intText i ++ "\n".toList                   -- :238
  | .sinkTypeNotScalar i => "E: Property 'type' of sink node #".toList ++ intText i ++ "is not scalar\n".toList -- :242
  | .sinkReserved => "E: Sink name '*' is reserved; Try to use some other else\n".toList                       -- :255
  | .sinkUnknownType n t => "E: Unknown 'type' of sink node '".toList ++ n ++ "': ".toList ++ t ++ "\n".toList -- :270
  | .colorNotScalar => "W: Property 'color' of sink node is not true or false\n".toList                        -- :289
  | .streamWrong => "W: Property 'stream' of sink node is not stdout or stderr\n".toList                       -- :300, :310
  | .notScalar p => "W: Property '".toList ++ p ++ "' of sink node is not scalar\n".toList                     -- :319, …
  | .threadWrong n v => "W: Wrong property 'thread' value of sink '".toList ++ n ++ "': ".toList ++ v ++ "\n".toList
  | .wrongValue p n v => "W: Wrong property '".toList ++ p ++ "' value of sink '".toList ++ n ++ "': ".toList ++ v ++
      "\n".toList                                                                                              -- :345, …
  | .latencyWrong n v => "W: Wrong value of property 'latency' value of sink '".toList ++ n ++ "': ".toList ++ v ++
      "\n".toList                                                                                              -- :397, …
  | .consoleUnknownProperty n k => "W: Unknown property of sink '".toList ++ n ++ "' with type 'console': ".toList ++ k ++
      "\n".toList                                                                                              -- :443
  | .sinkUnknownProperty n k => "W: Unknown property of sink '".toList ++ n ++ "': ".toList ++ k ++ "\n".toList -- :604, …
  | .sinkExists n => "W: Already exists sink with name '".toList ++ n ++
      "'; Previous version will be overridden\n".toList                                                        -- :449, …
  | .notFound p n => "E: Not found '".toList ++ p ++ "' of sink '".toList ++ n ++ "'\n".toList                 -- :477, …
  | .neededNotScalar p n => "E: Property '".toList ++ p ++ "' of sink '".toList ++ n ++ "' is not scalar\n".toList
  | .multiNotList n => "E: Property 'sinks' of sink '".toList ++ n ++ "' is not list\n".toList                 -- :814
  | .multiMissing k n => "E: Sink '".toList ++ k ++ "' must be defined before sink '".toList ++ n ++ "'\n".toList -- :850
  | .groupsEmpty => "E: Node 'groups' is empty\n".toList                                                       -- :864
  | .groupsNotSeq => "E: Node 'groups' is not a sequence\n".toList                                             -- :870
  | .groupNotMap i => "E: Element #".toList ++ intText i ++ " of 'groups' is not a map\n".toList               -- :878
  | .groupNoName g => "W: Not found 'name' of group ".toList ++ g ++ "\n".toList                               -- :898
  | .groupPropNotScalar p g => "E: Property '".toList ++ p ++ "' of group ".toList ++ g ++ " is not scalar\n".toList
  | .groupSinkUndefined k g => "E: Sink '".toList ++ k ++ "' of group ".toList ++ g ++ " is undefined\n".toList -- :934
  | .groupNoLevel g => "E: Not found 'level' of root group ".toList ++ g ++ "\n".toList                        -- :946
  | .childrenNotSeq g => "E: Property 'children' of group ".toList ++ g ++ " is not sequence\n".toList         -- :955
  | .groupUnknownProperty g k => "W: Unknown property of group ".toList ++ g ++ ": ".toList ++ k ++ "\n".toList -- :979
  | .groupUnknownSink g k => "E: Unknown sink in group ".toList ++ g ++ ": ".toList ++ k ++ "\n".toList        -- :986
  | .moreBugs g => "W: There are probably more bugs in the group ".toList ++ g ++
      "; Fix the existing ones first.\n".toList                                                                -- :993
  | .groupReserved => "E: Group name '*' is reserved; Try to use some other else\n".toList                     -- :1002

/-- The state of a run: the logging system with what its sinks are, the global flag of SinkToSyslog
(sink_to_syslog.cpp:73), and the members of the Applicator, configurator_from_yaml.hpp:106-112. -/
structure St where
  sys : Sys
  specs : Nat → Spec
  syslogOpen : Bool
  errors : List Problem
  hasError : Bool
  hasWarning : Bool

/-- Outcome of a part of the configuration, logging_system.cpp:66-79. -/
inductive Out (α : Type) where
  | ok (a : α) (s : St)
  /-- an exception -/
  | throw (s : St)
  | ub
  | diverge

/-- A part of the run of the Applicator, configurator_from_yaml.hpp:40-112. -/
def M (α : Type) : Type := St → Out α

/-- no code of its own -/
def M.pure {α : Type} (a : α) : M α := fun s => .ok a s

/-- sequence; an exception ends it, logging_system.cpp:70-79 -/
def M.bind {α β : Type} (m : M α) (f : α → M β) : M β := fun s =>
  match m s with
  | .ok a s => f a s
  | .throw s => .throw s
  | .ub => .ub
  | .diverge => .diverge

instance : Monad M where
  pure := M.pure
  bind := M.bind

/-- an exception of the YAML library or of a constructor -/
def throw {α : Type} : M α := fun s => .throw s
/-- a recursion without end, :1025-1027 -/
def diverge {α : Type} : M α := fun _ => .diverge
/-- `errors_ << …`, configurator_from_yaml.hpp:112 -/
def report (p : Problem) : M Unit := fun s => .ok () { s with errors := s.errors ++ [p] }
/-- `has_error_ = true`, configurator_from_yaml.hpp:111 -/
def setError : M Unit := fun s => .ok () { s with hasError := true }
/-- `has_warning_ = true`, configurator_from_yaml.hpp:110 -/
def setWarning : M Unit := fun s => .ok () { s with hasWarning := true }
/-- an error, e.g. :107-108 -/
def error (p : Problem) : M Unit := do report p; setError
/-- a warning, e.g. :128-129 -/
def warning (p : Problem) : M Unit := do report p; setWarning

/-- a call of the logging system; `F` bounds the recursion inside it, see `Model/System.lean`
(the values returned are not used). [:1007-1023] -/
def call (F : Nat) (op : Op) : M Unit := fun s =>
  match step F s.sys op with
  | .ret _ y => .ok () { s with sys := y }
  | .throw y => .throw { s with sys := y }
  | .ub => .ub
  | .diverge => .diverge

/-- `system_.getSink(name)`, :448, :848, :931, :984 -/
def lookSink (name : Text) : M (Option Nat) := fun s => .ok (getSink name s.sys) s
/-- `system_.getGroup(name)`, :1007 -/
def lookGroup (name : Text) : M (Option Nat) := fun s => .ok (getGroup name s.sys) s

/-- the memory and the thread a sink needs. [sink.hpp:75, file:89, 95, console:154, 156, syslog:91, 101] -/
def allocate (W : World) (spec : Spec) : M Unit := fun s =>
  match spec.cfg with
  | some c => if W.alloc c then .ok () s else .throw s
  | none => .ok () s

/-- the test of the constructor of SinkToSyslog, sink_to_syslog.cpp:92-97 -/
def openSyslog (spec : Spec) : M Unit := fun s =>
  match spec with
  | .syslog _ _ => if s.syslogOpen then .throw s else .ok () { s with syslogOpen := true }
  | _ => .ok () s

/-- the registration of the new sink, logging_system.hpp:117-123 -/
def register (name : Text) (spec : Spec) : M Unit := fun s =>
  match makeSink name s.sys with
  | .ret k y => .ok () { s with sys := y, specs := upd s.specs k spec }
  | .throw y => .throw { s with sys := y }
  | .ub => .ub
  | .diverge => .diverge

/-- `makeSink<SinkType>(name, …)`: the constructor runs first and may throw (logging_system.hpp:117-123). -/
def createSink (W : World) (name : Text) (spec : Spec) : M Unit := do
  allocate W spec
  openSyslog spec
  register name spec

/-- `as<std::string>()`; `none`: it throws. [:121, :251-252, :616, :844] -/
def asText (W : World) (n : Nat) : Option Text :=
  match W.node n with
  | .scalar t => some t
  | .null => W.nullText
  | _ => none

/-- `node["key"]` of a map (a null or other key is never equal to these keys); `none`: not `IsDefined()`. [:112, :114, :166, :286, …] -/
def prop (W : World) (entries : List (Nat × Nat)) (key : Text) : Option Node :=
  (entries.find? fun e => W.node e.1 == .scalar key).map fun e => W.node e.2

/-- The loops over all keys of a map with a list of known ones, :120-130, :409-446, :578-610, :747-779, :821-838,
:960-981. -/
def checkKeys (W : World) (known : List Text) (p : Text → Problem) : List (Nat × Nat) → M Unit
  | [] => pure ()
  | e :: es => do
    (match asText W e.1 with
      | none => throw
      | some k => if known.contains k then pure () else warning (p k) : M Unit)
    checkKeys W known p es

/-- the names of levels, :178-212 -/
def levelOf (t : Text) : Option Level :=
  if t = "off".toList then some .off
  else if t = "critical".toList ∨ t = "crit".toList then some .critical
  else if t = "error".toList then some .error
  else if t = "warning".toList ∨ t = "warn".toList then some .warn
  else if t = "info".toList then some .info
  else if t = "verbose".toList then some .verbose
  else if t = "debug".toList ∨ t = "deb".toList then some .debug
  else if t = "trace".toList then some .trace
  else none

/-- `parseLevel`, :164-218 -/
def parseLevel (W : World) (target : Text) (entries : List (Nat × Nat)) : M (Option Level) :=
  match prop W entries "level".toList with
  | none => pure none
  | some (.scalar t) =>
    match levelOf t with
    | some l => do
      (if l = .debug ∧ W.debugOff = true then warning (.levelOff "debug".toList target) else pure () : M Unit)
      (if l = .trace ∧ W.traceOff = true then warning (.levelOff "trace".toList target) else pure () : M Unit)
      pure (some l)
    | none => do
      error (.levelInvalid target t)
      pure none
  | some _ => do
    error (.levelNotScalar target)
    pure none

/-! ### sinks -/

/-- Property 'thread', :316-334, :485-503, :654-672 -/
def parseThread (W : World) (name : Text) (entries : List (Nat × Nat)) : M ThreadInfo :=
  match prop W entries "thread".toList with
  | none => pure .none
  | some (.scalar t) =>
    if t = "name".toList then pure .name
    else if t = "id".toList then pure .id
    else if t = "none".toList then pure .none
    else do
      warning (.threadWrong name t)
      pure .none
  | some _ => do
    warning (.notScalar "thread".toList)
    pure .none

/-- A numeric property: 'capacity' :335-350, :504-519, :673-688; 'buffer' :352-367, :521-536, :690-705;
'max_message_length' :369-386, :538-555, :707-724; 'latency' :388-404, :557-571, :726-740.  `accept` is the test on the
number and the text. -/
def parseNumber (W : World) (key : Text) (accept : Int → Text → Bool) (wrong : Text → Problem)
    (entries : List (Nat × Nat)) : M (Option Nat) :=
  match prop W entries key with
  | none => pure none
  | some (.scalar t) =>
    match W.asInt t with
    | none => throw
    | some i =>
      if accept i t then pure (some (toSize i))
      else do
        warning (wrong t)
        pure none
  | some _ => do
    warning (.notScalar key)
    pure none

/-- `capacity_int >= 4`. [:342, :511, :680] -/
def acceptCapacity (i : Int) (_ : Text) : Bool := decide (4 ≤ i)
/-- `buffer_int >= sizeof(Event) * 4`: the comparison is made in `size_t`. [:359, :528, :697] -/
def acceptBuffer (i : Int) (_ : Text) : Bool := decide (Layout.eventSize * 4 ≤ toSize i)
/-- `max_message_length_int > 64` for console (:377), `>= 64` for the others (:546, :715) -/
def acceptLength (console : Bool) (i : Int) (_ : Text) : Bool := decide (if console then 64 < i else 64 ≤ i)
/-- not (`std::to_string(latency_int) != text or latency_int < 0`). [:394-396, :563-565, :732-734] -/
def acceptLatency (i : Int) (t : Text) : Bool := decide (intText i = t ∧ 0 ≤ i)

/-- the defaults of a constructor: console:148-151, file:84-87, syslog:86-89 -/
structure Defaults where
  capacity : Nat
  maxLen : Nat
  buffer : Nat
  latency : Nat

/-- sink_to_console.cpp:148-151 -/
def consoleDefaults : Defaults := ⟨64, 1024, 2 ^ 17, 200⟩
/-- sink_to_file.cpp:84-87, sink_to_syslog.cpp:86-89 -/
def fileDefaults : Defaults := ⟨2048, 1024, 2 ^ 22, 1000⟩

/-- the optional arguments of a constructor. [console:140-144, file:76-80, syslog:78-82] -/
structure Args where
  ti : ThreadInfo
  capacity : Option Nat
  maxLen : Option Nat
  buffer : Option Nat
  latency : Option Nat
deriving DecidableEq

/-- constructor of the base class with the auto-fix of the buffer size, sink.hpp:62-81 -/
def mkCfg (kind : Sink.Kind) (level : Level) (d : Defaults) (a : Args) : Sink.Cfg :=
  let maxLen := a.maxLen.getD d.maxLen
  let buffer := a.buffer.getD d.buffer
  { kind, level, ti := a.ti, capacity := a.capacity.getD d.capacity, maxLen,
    maxBuffer := if buffer < maxLen * 2 then maxLen * 2 else buffer,
    latency := a.latency.getD d.latency }

/-- the part common to console, file and syslog. [:316-404, :485-571, :654-740] -/
def parseArgs (W : World) (console : Bool) (name : Text) (entries : List (Nat × Nat)) : M Args := do
  let ti ← parseThread W name entries
  let capacity ← parseNumber W "capacity".toList acceptCapacity (.wrongValue "capacity".toList name) entries
  let buffer ← parseNumber W "buffer".toList acceptBuffer (.wrongValue "buffer".toList name) entries
  let maxLen ← parseNumber W "max_message_length".toList (acceptLength console)
    (.wrongValue "max_message_length".toList name) entries
  let latency ← parseNumber W "latency".toList acceptLatency (.latencyWrong name) entries
  pure { ti, capacity, maxLen, buffer, latency }

/-- argument of `parseLevel`, :406, :575, :744 -/
def sinkTarget (name : Text) : Text := "sink '".toList ++ name ++ "'".toList

/-- :448-452, :618-622, :787-791 -/
def warnIfExists (name : Text) : M Unit := do
  let old ← lookSink name
  if old.isSome then warning (.sinkExists name) else pure ()

/-- 'color', :286-294 -/
def parseColor (W : World) (entries : List (Nat × Nat)) : M Bool :=
  match prop W entries "color".toList with
  | none => pure false
  | some (.scalar t) => (match W.asBool t with | none => throw | some b => pure b)
  | some _ => do
    warning .colorNotScalar
    pure false

/-- 'stream', :296-314; `true` is stderr -/
def parseStream (W : World) (entries : List (Nat × Nat)) : M Bool :=
  match prop W entries "stream".toList with
  | none => pure false
  | some (.scalar t) =>
    if t = "stdout".toList then pure false
    else if t = "stderr".toList then pure true
    else do
      warning .streamWrong
      pure false
  | some _ => do
    warning .streamWrong
    pure false

/-- :409-446, :578-610, :747-779 -/
def commonKeys : List Text :=
  ["name".toList, "type".toList, "thread".toList, "capacity".toList, "buffer".toList, "max_message_length".toList,
   "latency".toList, "level".toList]

/-- `parseSinkToConsole`, :276-463 -/
def parseSinkToConsole (W : World) (name : Text) (entries : List (Nat × Nat)) : M Unit := do
  let color ← parseColor W entries
  let err ← parseStream W entries
  let args ← parseArgs W true name entries
  let level ← parseLevel W (sinkTarget name) entries
  checkKeys W ("stream".toList :: "color".toList :: commonKeys) (.consoleUnknownProperty name) entries
  warnIfExists name
  createSink W name (.console err (mkCfg (.console color W.boldFirst) (level.getD .trace) consoleDefaults args))

/-- A needed scalar property ('path' :474-483, 'ident' :643-652); `none`: `fail` -/
def parseNeeded (W : World) (key name : Text) (entries : List (Nat × Nat)) : M (Option Text) :=
  match prop W entries key with
  | none => do
    error (.notFound key name)
    pure none
  | some (.scalar t) => pure (some t)
  | some _ => do
    error (.neededNotScalar key name)
    pure none

/-- `parseSinkToFile`, :465-632 -/
def parseSinkToFile (W : World) (name : Text) (entries : List (Nat × Nat)) : M Unit := do
  let path ← parseNeeded W "path".toList name entries
  let args ← parseArgs W false name entries
  let level ← parseLevel W (sinkTarget name) entries
  checkKeys W ("path".toList :: commonKeys) (.sinkUnknownProperty name) entries
  match path with
  | none => pure ()
  | some path => do
    warnIfExists name
    createSink W name (.file path (mkCfg .file (level.getD .trace) fileDefaults args))

/-- `parseSinkToSyslog`, :634-801 -/
def parseSinkToSyslog (W : World) (name : Text) (entries : List (Nat × Nat)) : M Unit := do
  let ident ← parseNeeded W "ident".toList name entries
  let args ← parseArgs W false name entries
  let level ← parseLevel W (sinkTarget name) entries
  checkKeys W ("ident".toList :: commonKeys) (.sinkUnknownProperty name) entries
  match ident with
  | none => pure ()
  | some ident => do
    warnIfExists name
    createSink W name (.syslog ident (mkCfg .syslog (level.getD .trace) fileDefaults args))

/-- A missing sink of a multisink, :850-852: the flag set is the warning one although the text says error. -/
def multiMissing (k name : Text) : M Unit := do
  report (.multiMissing k name)
  setWarning

/-- The sinks of a multisink that exist, :846-857. -/
def collect (name : Text) : List Text → M (List Nat)
  | [] => pure []
  | k :: ks => do
    let sink ← lookSink k
    match sink with
    | some i => do
      let rest ← collect name ks
      pure (i :: rest)
    | none => do
      multiMissing k name
      collect name ks

/-- `parseMultisink`, :803-859; 'sinks' of :844 is `as<std::vector<std::string>>()`, which throws on an element that is
not a string. -/
def parseMultisink (W : World) (name : Text) (entries : List (Nat × Nat)) : M Unit := do
  let items ← (match prop W entries "sinks".toList with
    | none => do
      error (.notFound "sinks".toList name)
      pure none
    | some (.seq items) => pure (some items)
    | some _ => do
      error (.multiNotList name)
      pure none : M (Option (List Nat)))
  let level ← parseLevel W (sinkTarget name) entries
  checkKeys W ["name".toList, "type".toList, "sinks".toList, "level".toList] (.sinkUnknownProperty name) entries
  match items with
  | none => pure ()
  | some items =>
    match items.mapM (asText W) with
    | none => throw
    | some names => do
      let sinks ← collect name names
      createSink W name (.multi (level.getD .trace) sinks)

/-- `parseSink`, :220-274 -/
def parseSink (W : World) (i : Nat) (entries : List (Nat × Nat)) : M Unit := do
  let name ← (match prop W entries "name".toList with
    | none => do
      report (.sinkNoName i)                                   -- :225-227: has_error_ is not set
      pure none
    | some (.scalar t) => pure (some t)
    | some _ => do
      error (.sinkNameNotScalar i)
      pure none : M (Option Text))
  let type ← (match prop W entries "type".toList with
    | none => do
      error (.sinkNoType i)
      pure none
    | some (.scalar t) => pure (some t)
    | some _ => do
      error (.sinkTypeNotScalar i)
      pure none : M (Option Text))
  match name, type with
  | some name, some type =>
    if name = star then error .sinkReserved
    else if type = "console".toList then parseSinkToConsole W name entries
    else if type = "file".toList then parseSinkToFile W name entries
    else if type = "syslog".toList then parseSinkToSyslog W name entries
    else if type = "multisink".toList then parseMultisink W name entries
    else error (.sinkUnknownType name type)
  | _, _ => pure ()

/-- one element of the list of sinks, :154-160; a node that is not a map is reported without setting a flag -/
def parseSinkItem (W : World) (i n : Nat) : M Unit :=
  match W.node n with
  | .map entries => parseSink W i entries
  | _ => report (.sinkNotMap i)

/-- the loop of `parseSinks`, :153-161 -/
def parseSinkList (W : World) : Nat → List Nat → M Unit
  | _, [] => pure ()
  | i, n :: ns => do
    parseSinkItem W i n
    parseSinkList W (i + 1) ns

/-- `parseSinks`, :141-162 -/
def parseSinks (W : World) : Node → M Unit
  | .null => error .sinksEmpty
  | .seq items => parseSinkList W 0 items
  | _ => error .sinksNotSeq

/-! ### groups -/

/-- What `parseGroup` reads from its node before it acts, :886-996. -/
structure GroupNode where
  /-- the value of `name_node.as<std::string>()` -/
  name : Text
  isFallback : Bool
  sink : Option Text
  level : Option Level
  children : Option (List Nat)
deriving DecidableEq

/-- A group without name, :898-899: the text says warning, the flag set is the error one. -/
def groupNoName (tmp : Text) : M Unit := do
  report (.groupNoName tmp)
  setError

/-- `parseGroup`, :886-996, up to the end of the checks; `none` is `fail`. -/
def readGroup (W : World) (i : Nat) (entries : List (Nat × Nat)) (parent : Option Text) : M (Option GroupNode) := do
  -- :894-907
  let tmp0 := "node #".toList ++ intText i
  let name ← (match prop W entries "name".toList with
    | none => do
      groupNoName tmp0
      pure none
    | some (.scalar t) => pure (some t)
    | some _ => do
      error (.groupPropNotScalar "name".toList tmp0)
      pure none : M (Option Text))
  let tmp := match name with | some t => "'".toList ++ t ++ "'".toList | none => tmp0
  -- :909-919
  let isFallback ← (match prop W entries "is_fallback".toList with
    | none => pure (some false)
    | some (.scalar t) => (match W.asBool t with | none => throw | some b => pure (some b))
    | some _ => do
      error (.groupPropNotScalar "is_fallback".toList tmp)
      pure none : M (Option Bool))
  -- :921-940; the second component is whether it is in order
  let sink ← (match prop W entries "sink".toList with
    | none => pure (if parent.isNone then some star else none, true)
    | some (.scalar t) => do
      let k ← lookSink t
      if k.isSome then pure (some t, true)
      else do
        error (.groupSinkUndefined t tmp)
        pure (some t, false)
    | some _ => do
      error (.groupPropNotScalar "sink".toList tmp)
      pure (none, false) : M (Option Text × Bool))
  -- :942-947
  let levelOk ← (if (prop W entries "level".toList).isNone ∧ parent.isNone then do
      error (.groupNoLevel tmp)
      pure false
    else pure true : M Bool)
  -- 948
  let level ← parseLevel W ("group '".toList ++ tmp ++ "'".toList) entries
  -- :950-958
  let children ← (match prop W entries "children".toList with
    | none => pure (some none)
    | some .null => pure (some none)
    | some (.seq items) => pure (some (some items))
    | some _ => do
      error (.childrenNotSeq tmp)
      pure none : M (Option (Option (List Nat))))
  -- :960-981
  checkKeys W ["name".toList, "is_fallback".toList, "sink".toList, "level".toList, "children".toList]
    (.groupUnknownProperty tmp) entries
  -- :983-989
  (match sink.1 with
    | some k => do
      let o ← lookSink k
      if o.isSome then pure () else error (.groupUnknownSink tmp k)
    | none => pure () : M Unit)
  -- :991-996
  match name, isFallback, sink.2, levelOk, children with
  | some name, some isFallback, true, true, some children =>
    pure (some { name, isFallback, sink := sink.1, level, children })
  | _, _, _, _, _ => do
    warning (.moreBugs tmp)
    pure none

/-- What is done for a node naming a group that exists, :1007-1017. -/
def updateGroup (F : Nat) (g : GroupNode) (parent : Option Text) : M Unit := do
  (match parent with | some p => call F (.setParentOfGroup g.name p) | none => pure () : M Unit)
  (match g.sink with | some k => call F (.setSinkOfGroup g.name k) | none => pure () : M Unit)
  (match g.level with | some l => call F (.setLevelOfGroup g.name l) | none => pure () : M Unit)

/-- What is done for a usable node, :1007-1023. -/
def applyGroup (F : Nat) (g : GroupNode) (parent : Option Text) : M Unit := do
  let old ← lookGroup g.name
  (match old with
    | some _ => updateGroup F g parent
    | none => call F (.makeGroup g.name parent g.sink g.level) : M Unit)
  if g.isFallback then call F (.setFallbackGroup g.name) else pure ()

/-- one element of a list of groups, :876-882; `one` is `parseGroup` -/
def parseGroupItem (W : World) (one : Nat → List (Nat × Nat) → M Unit) (i n : Nat) : M Unit :=
  match W.node n with
  | .map entries => one i entries
  | _ => error (.groupNotMap i)

/-- the loop of `parseGroups`, :875-883 -/
def parseGroupList (W : World) (one : Nat → List (Nat × Nat) → M Unit) : Nat → List Nat → M Unit
  | _, [] => pure ()
  | i, n :: ns => do
    parseGroupItem W one i n
    parseGroupList W one (i + 1) ns

/-- `parseGroup`, :886-1030, with `parseGroups` for the children (:1025-1027).  The second number bounds the depth of
the nesting; a document with more levels (or endless ones) is the outcome `diverge`. -/
def parseGroup (W : World) (F : Nat) : Nat → Option Text → Nat → List (Nat × Nat) → M Unit
  | 0, _, _, _ => diverge
  | f + 1, parent, i, entries => do
    let o ← readGroup W i entries parent
    match o with
    | none => pure ()
    | some g =>
      if g.name = star then error .groupReserved                 -- :1000-1005
      else do
        applyGroup F g parent
        match g.children with
        | some items => parseGroupList W (parseGroup W F f (some g.name)) 0 items
        | none => pure ()

/-- `parseGroups` of the property 'groups' of the document, :861-884 -/
def parseGroups (W : World) (F : Nat) (n : Node) : M Unit :=
  match n with
  | .null => error .groupsEmpty
  | .seq items => parseGroupList W (parseGroup W F F none) 0 items
  | _ => error .groupsNotSeq

/-- `parse`, :105-139 -/
def parse (W : World) (F : Nat) (root : Node) : M Unit :=
  match root with
  | .map entries => do
    let sinks := prop W entries "sinks".toList
    let groups := prop W entries "groups".toList
    (if groups.isNone then error .groupsUndefined else pure () : M Unit)
    checkKeys W ["sinks".toList, "groups".toList] .unknownProperty entries
    (match sinks with | some n => parseSinks W n | none => pure () : M Unit)
    match groups with | some n => parseGroups W F n | none => pure ()
  | _ => error .configNotMap

/-! ### configurators -/

/-- Where the configuration comes from, after the YAML library has read it. [:60-86] -/
inductive Source where
  | document (root : Nat)
  /-- unreadable file with its path, or content; with the text of the exception -/
  | unreadable (path : Option Text) (what : Text)

/-- `Configurator::Result`, configurator.hpp:25-32 -/
structure Result where
  error : Bool
  warning : Bool
  message : Text
deriving DecidableEq

/-- configurator_from_yaml.hpp:28-60, fallback_configurator.hpp -/
inductive Configurator where
  | fallback (level : Level) (color : Bool)
  | yaml (src : Source)
  | yamlAfter (previous : Configurator) (src : Source)

/-- `FallbackConfigurator::applyOn`, fallback_configurator.cpp:16-30 -/
def applyFallback (W : World) (F : Nat) (level : Level) (color : Bool) : M Result := do
  createSink W "console".toList
    (.console false (mkCfg (.console color W.boldFirst) level consoleDefaults ⟨.none, none, none, none, none⟩))
  call F (.makeGroup star none (some "console".toList) (some level))
  pure { error := false, warning := true,
         message := "I: Using fallback configurator for logger system\nI: All logs will be write into ".toList ++
           (if color then "color ".toList else []) ++ "standard output with '".toList ++
           (level.toStr?.getD "").toList ++ "' level".toList }

/-- the part of `Applicator::run`, :55-103, after the previous configurator has been applied; the Applicator starts with no
problems and no flags -/
def runOn (W : World) (F : Nat) (src : Source) (previous : Result) : M Result := do
  (fun s => .ok () { s with errors := [], hasError := false, hasWarning := false } : M Unit)
  (match src with
    | .document root => parse W F (W.node root)
    | .unreadable (some p) what => error (.cannotParseFile p what)
    | .unreadable none what => error (.cannotParse what) : M Unit)
  fun s => .ok
    { error := previous.error || s.hasError, warning := previous.warning || s.hasWarning,
      message := previous.message ++
        if s.hasError || s.hasWarning then
          "I: Some problems are found in config:\n".toList ++ (s.errors.map Problem.text).flatten
        else [] } s

/-- `applyOn` of the configurators, :50-53 -/
def applyOn (W : World) (F : Nat) : Configurator → M Result
  | .fallback level color => applyFallback W F level color
  | .yaml src => runOn W F src ⟨false, false, []⟩
  | .yamlAfter previous src => do
    let r ← applyOn W F previous
    runOn W F src r

/-- the loop of `configure`, logging_system.cpp:84-93; `none`: a null sink is dereferenced -/
def warnNowhere (s : Sys) : List (Text × Nat) → Result → Option Result
  | [], r => some r
  | (n, g) :: es, r =>
    if n = star then warnNowhere s es r
    else match (s.grp g).sink with
      | none => none
      | some k =>
        if s.sinkName k = star then
          warnNowhere s es { r with
            warning := true,
            message := r.message ++ "W: Group '".toList ++ n ++ "' has undefined sink; Sink to nowhere will be used\n".toList }
        else warnNowhere s es r

/-- `LoggingSystem::configure`, logging_system.cpp:60-97; `what` is the text of an exception thrown by `applyOn` -/
def configure (W : World) (F : Nat) (what : Text) (c : Configurator) (s : St) : Out Result :=
  if s.sys.configured then .throw s
  else
    match applyOn W F c { s with sys := { s.sys with configured := true } } with
    | .ub => .ub
    | .diverge => .diverge
    | .throw s =>
      .ok ⟨true, false, "E: Configure is failed: ".toList ++ what ++ "; Logging system is unworkable\n".toList⟩ s
    | .ok r s =>
      if s.sys.groups.isEmpty then
        .ok ⟨true, r.warning, r.message ++ "E: No one group is defined; Logging system is unworkable\n".toList⟩ s
      else
        match warnNowhere s.sys s.sys.groups r with
        | none => .ub
        | some r => .ok r s

/-- a new logging system in a process in which syslog is (not) open. [logging_system.cpp:22-25] -/
def new (debug : Bool) (ord : List Nat → List Nat) (syslogOpen : Bool) : St :=
  { sys := System.new debug ord, specs := fun _ => .nowhere, syslogOpen, errors := [], hasError := false, hasWarning := false }

end Yaml
end Soralog
