import Verif.Model.Level
import Verif.Model.Ring
/-!
# Model of LoggingSystem, Group and Logger (configuration side)

Sources: src/logging_system.cpp, src/group.cpp, src/logger.cpp, include/soralog/logging_system.hpp,
src/impl/fallback_configurator.cpp.

Objects live on a heap and are named by numbers (`shared_ptr` identity); a number below the counter is an allocated
object.  The hash maps are association lists; their iteration order is the list order (C36 shows that no order, nor
the order of the pointer sets, matters).  Recursion over parents takes an explicit bound; running out of it is the
outcome `diverge`, so a call that recurses for ever has the outcome `diverge` for every bound.  A null pointer that
would be dereferenced is the outcome `ub`.  Names are byte strings.  All public calls hold one recursive mutex for
their whole duration (makeGroup constructs the group before taking it, :32-34; the calls made by the constructor take
it themselves), so calls are modelled as atomic here; `Model/SystemConc.lean` treats makeGroup step by step; `getFallbackGroup` takes no lock.
-/
namespace Soralog
namespace System

/-- group.hpp:155-164 -/
structure Group where
  name : Text
  parent : Option Nat
  sink : Option Nat
  sinkOv : Bool
  level : Level
  levelOv : Bool
deriving DecidableEq

/-- logger.hpp:296-305 -/
structure Logger where
  name : Text
  group : Nat
  sink : Option Nat
  sinkOv : Bool
  level : Level
  levelOv : Bool
deriving DecidableEq

/-- A warning the system logs through the fallback group, :123-125, :130-138. -/
inductive Warning where
  | deprecated (sink : Nat)
  | unknownGroup (sink : Nat) (group logger fallback : Text)
deriving DecidableEq

/-- `std::unordered_map<std::string, …>`. [logging_system.hpp:276-281] -/
abbrev Table := List (Text × Nat)

/-- `map.find(k)`, logging_system.cpp:44, 53, 110, 159, 169. -/
def Table.find (t : Table) (k : Text) : Option Nat := (t.find? fun e => e.1 == k).map (·.2)

/-- `map[k] = v`. [logging_system.cpp:36-38, 48, 152, logging_system.hpp:121] -/
def Table.put (t : Table) (k : Text) (v : Nat) : Table :=
  if t.any (fun e => e.1 == k) then t.map (fun e => if e.1 == k then (k, v) else e) else t ++ [(k, v)]

/-- `erase`. [logging_system.cpp:502, 517, 542, 554] -/
def Table.erase (t : Table) (k : Text) : Table := t.filter fun e => !(e.1 == k)

/-- logging_system.hpp:276-281, plus the heap -/
structure Sys where
  /-- `NDEBUG` not defined -/
  debug : Bool
  ngroups : Nat
  grp : Nat → Group
  nloggers : Nat
  lgr : Nat → Logger
  /-- some `shared_ptr` to the logger exists (the system itself holds weak ones) -/
  alive : Nat → Bool
  nsinks : Nat
  sinkName : Nat → Text
  groups : Table
  loggers : Table
  sinks : Table
  configured : Bool
  /-- history of the warnings logged by the system -/
  warned : List Warning
  /-- the order in which a `std::set` of group pointers is traversed (it depends on the addresses) -/
  ord : List Nat → List Nat

/-- Outcome of a call of the system, logging_system.cpp:27-557. -/
inductive Res (α : Type) where
  | ret (v : α) (s : Sys)
  /-- an exception leaves the call; the state at that moment -/
  | throw (s : Sys)
  | ub
  | diverge

/-- The name `'*'`, logging_system.cpp:24, 36, 48, 53, 116. -/
def star : Text := ['*']

/-! ### group.cpp -/

/-- `Group::resetLevel`, group.cpp:44-49 -/
def resetLevel (h : Nat → Group) (g : Nat) : Nat → Group :=
  match (h g).parent with
  | some p => upd h g { h g with level := (h p).level, levelOv := false }
  | none => h

/-- `Group::setLevel`, group.cpp:51-56 -/
def setLevel (h : Nat → Group) (g : Nat) (l : Level) : Nat → Group :=
  upd h g { h g with level := l, levelOv := if (h g).parent.isSome then true else (h g).levelOv }

/-- `Group::setLevelFromGroup`, group.cpp:58-62 -/
def setLevelFromGroup (h : Nat → Group) (g p : Nat) : Nat → Group :=
  upd h g { h g with level := (h p).level, levelOv := decide (some p ≠ (h g).parent) }

/-- `Group::resetSink`, group.cpp:72-77 -/
def resetSink (h : Nat → Group) (g : Nat) : Nat → Group :=
  match (h g).parent with
  | some p => upd h g { h g with sink := (h p).sink, sinkOv := false }
  | none => h

/-- `Group::setSink`, group.cpp:79-85 -/
def setSink (h : Nat → Group) (g : Nat) (k : Nat) : Nat → Group :=
  upd h g { h g with sink := some k, sinkOv := if (h g).parent.isSome then true else (h g).sinkOv }

/-- `Group::setSinkFromGroup`, group.cpp:93-97 -/
def setSinkFromGroup (h : Nat → Group) (g p : Nat) : Nat → Group :=
  upd h g { h g with sink := (h p).sink, sinkOv := decide (some p ≠ (h g).parent) }

/-- `Group::unsetParentGroup`, group.cpp:107-109 -/
def unsetParentGroup (h : Nat → Group) (g : Nat) : Nat → Group := upd h g { h g with parent := none }

/-- `Group::setParentGroup`, group.cpp:111-121 -/
def setParentGroup (h : Nat → Group) (g : Nat) (p : Option Nat) : Nat → Group :=
  let h := upd h g { h g with parent := p }
  match p with
  | none => h
  | some p =>
    let h := if (h g).sinkOv then h else setSinkFromGroup h g p
    if (h g).levelOv then h else setLevelFromGroup h g p

/-! ### logger.cpp -/

/-- `Logger::setLevelFromGroup`, logger.cpp:37-41 -/
def Logger.setLevelFromGroup (l : Logger) (h : Nat → Group) (g : Nat) : Logger :=
  { l with levelOv := decide (g ≠ l.group), level := (h g).level }

/-- `Logger::resetLevel`, logger.cpp:28-30 -/
def Logger.resetLevel (l : Logger) (h : Nat → Group) : Logger := l.setLevelFromGroup h l.group

/-- `Logger::setLevel`, logger.cpp:32-35 -/
def Logger.setLevel (l : Logger) (v : Level) : Logger := { l with levelOv := true, level := v }

/-- `Logger::resetSink`, logger.cpp:51-54 -/
def Logger.resetSink (l : Logger) (h : Nat → Group) : Logger := { l with sink := (h l.group).sink, sinkOv := false }

/-- `Logger::setSink`, logger.cpp:62-66 -/
def Logger.setSink (l : Logger) (k : Nat) : Logger := { l with sinkOv := true, sink := some k }

/-- `Logger::setSinkFromGroup`, logger.cpp:68-74 -/
def Logger.setSinkFromGroup (l : Logger) (h : Nat → Group) (g : Nat) : Logger :=
  match (h g).sink with
  | some k => { l with sinkOv := decide (g ≠ l.group), sink := some k }
  | none => l

/-- `Logger::setGroup`, logger.cpp:84-93 -/
def Logger.setGroup (l : Logger) (h : Nat → Group) (g : Nat) : Logger :=
  let l := { l with group := g }
  let l := if l.sinkOv then l else l.setSinkFromGroup h g
  if l.levelOv then l else l.setLevelFromGroup h g

/-- `Logger::Logger`, logger.cpp:15-24 -/
def Logger.new (h : Nat → Group) (name : Text) (g : Nat) : Logger :=
  let l : Logger := { name, group := g, sink := none, sinkOv := false, level := .off, levelOv := false }
  (l.setSinkFromGroup h g).setLevelFromGroup h g

/-! ### propagation, logging_system.cpp:185-239, 252-309, 322-378 -/

/-- `affecting_groups`. [logging_system.cpp:187, 255, 324] -/
abbrev Stages := List (List Nat)

/-- `resize(n + 1)` when needed, then `affecting_groups[n].emplace(x)` (a set: no duplicates). [logging_system.cpp:207-210, 275-278, 344-347] -/
def Stages.emplace (st : Stages) (n x : Nat) : Stages :=
  let st := if st.length ≤ n then st ++ List.replicate (n + 1 - st.length) [] else st
  st.modify n fun l => if x ∈ l then l else l ++ [x]

/-- The lambda `fn` of the three propagating calls.  `stop` is its test on the overridden marks.  The result `some
none` is −1, `none` is: not finished within the bound. [logging_system.cpp:189-212, 257-280, 326-349] -/
def visit (h : Nat → Group) (stop : Group → Bool) (g : Nat) (passed : Nat → Option (Option Nat)) :
    Nat → Nat → Stages → Option (Option Nat × Stages)
  | 0, _, _ => none
  | fuel + 1, cur, st =>
    match passed cur with
    | some r => some (r, st)
    | none =>
      if cur = g then some (some 0, st)
      else if stop (h cur) then some (none, st)
      else match (h cur).parent with
        | none => some (none, st)
        | some p =>
          match visit h stop g passed fuel p st with
          | none => none
          | some (none, st) => some (none, st)
          | some (some n, st) => some (some (n + 1), st.emplace n cur)

/-- `for (const auto &it : groups_) { auto n = fn(it.second); passed_groups[it.second] = n; }`. [logging_system.cpp:216-219, 284-287, 353-356] -/
def visitAll (h : Nat → Group) (stop : Group → Bool) (g : Nat) (fuel : Nat) :
    List Nat → (Nat → Option (Option Nat)) → Stages → Option ((Nat → Option (Option Nat)) × Stages)
  | [], passed, st => some (passed, st)
  | r :: rs, passed, st =>
    match visit h stop g passed fuel r st with
    | none => none
    | some (n, st) => visitAll h stop g fuel rs (upd passed r (some n)) st

/-- what is done to each staged group: `changing_group->set…(changing_group->parent())`. [logging_system.cpp:223, 291, 360] -/
abbrev Change := (Nat → Group) → Nat → Nat → (Nat → Group)

/-- one staged group. [logging_system.cpp:223, 291, 360] -/
def change1 (f : Change) (h : Nat → Group) (x : Nat) : Nat → Group :=
  match (h x).parent with
  | some p => f h x p
  | none => h

/-- The loop over `affecting_groups`; `ord` is the order in which a set of pointers is traversed. [logging_system.cpp:221-225, 289-293, 358-362] -/
def runStages (f : Change) (ord : List Nat → List Nat) (st : Stages) (h : Nat → Group) : Nat → Group :=
  (st.flatMap ord).foldl (change1 f) h

/-- The loop over `loggers_`: live loggers whose group was reached are updated, entries of dead ones are erased. [logging_system.cpp:227-239, 295-309, 364-378] -/
def updateLoggers (up : Logger → Logger) (passed : Nat → Option (Option Nat)) (s : Sys) : Sys :=
  { s with
    lgr := fun i =>
      if s.alive i ∧ i ∈ s.loggers.map (·.2) then
        match passed (s.lgr i).group with
        | some (some _) => up (s.lgr i)
        | _ => s.lgr i
      else s.lgr i
    loggers := s.loggers.filter fun e => s.alive e.2 }

/-- The common second half of the three propagating calls. [logging_system.cpp:185-239, 253-309, 322-378] -/
def propagate (fuel : Nat) (stop : Group → Bool) (f : Change) (up : (Nat → Group) → Logger → Logger) (g : Nat) (s : Sys) :
    Option Sys :=
  match visitAll s.grp stop g fuel (s.groups.map (·.2)) (fun _ => none) [] with
  | none => none
  | some (passed, st) =>
    let s := { s with grp := runStages f s.ord st s.grp }
    some (updateLoggers (up s.grp) passed s)

/-- `setLevelOfGroup(shared_ptr, optional)`, :312-379 -/
def setLevelOfGroupPtr (fuel : Nat) (g : Nat) (level : Option Level) (s : Sys) : Option Sys :=
  let s := { s with grp := match level with | some l => setLevel s.grp g l | none => resetLevel s.grp g }
  propagate fuel (·.levelOv) setLevelFromGroup
    (fun h l => if l.levelOv then l else l.setLevelFromGroup h l.group) g s

/-- `setSinkOfGroup(shared_ptr, optional)`, :242-310 -/
def setSinkOfGroupPtr (fuel : Nat) (g : Nat) (sink : Option Nat) (s : Sys) : Option Sys :=
  let s := { s with grp := match sink with | some k => setSink s.grp g k | none => resetSink s.grp g }
  propagate fuel (·.sinkOv) setSinkFromGroup
    (fun h l => if l.sinkOv then l else l.setSinkFromGroup h l.group) g s

/-- `setParentOfGroup(shared_ptr, shared_ptr)`, :176-240 -/
def setParentOfGroupPtr (fuel : Nat) (g : Nat) (parent : Option Nat) (s : Sys) : Option Sys :=
  let h := match parent with
    | some p => if (s.grp p).parent = some g then unsetParentGroup s.grp p else s.grp
    | none => s.grp
  let s := { s with grp := setParentGroup h g parent }
  propagate fuel (fun x => x.levelOv && x.sinkOv) (fun h x p => setParentGroup h x (some p))
    (fun h l => l.setGroup h l.group) g s

/-! ### public calls -/

/-- `makeSink`, logging_system.hpp:117-123 -/
def makeSink (name : Text) (s : Sys) : Res Nat :=
  .ret s.nsinks { s with nsinks := s.nsinks + 1, sinkName := upd s.sinkName s.nsinks name,
                         sinks := s.sinks.put name s.nsinks }

/-- `LoggingSystem::LoggingSystem`, :22-25: the sink to nowhere is registered under the name `*`. -/
def new (debug : Bool) (ord : List Nat → List Nat) : Sys :=
  { debug, ngroups := 0, grp := fun _ => ⟨[], none, none, false, .off, false⟩, nloggers := 0,
    lgr := fun _ => ⟨[], 0, none, false, .off, false⟩, alive := fun _ => false, nsinks := 1,
    sinkName := fun _ => star, groups := [], loggers := [], sinks := [(star, 0)], configured := false, warned := [], ord }

/-- `makeGroup`, :27-40, with the constructor `Group::Group`, group.cpp:15-40. -/
def makeGroup (name : Text) (parent sink : Option Text) (level : Option Level) (s : Sys) : Res Nat :=
  let g := s.ngroups
  let h0 := upd s.grp g ⟨name, none, none, false, .off, false⟩
  -- group.cpp:21-27
  match (match parent with
    | none => some h0
    | some pn => (s.groups.find pn).map fun p => setParentGroup h0 g (some p)) with
  | none => .throw s
  | some h1 =>
    -- group.cpp:28-34
    match (match sink with
      | none => some h1
      | some kn => (s.sinks.find kn).map fun k => setSink h1 g k) with
    | none => .throw s
    | some h2 =>
      -- group.cpp:35-39
      match (match level with
        | some l => some (setLevel h2 g l)
        | none => if (h2 g).parent.isSome then some h2 else none) with
      | none => .throw s
      | some h3 =>
        let tab := if (s.groups.find star).isNone then s.groups.put star g else s.groups
        .ret g { s with ngroups := g + 1, grp := h3, groups := tab.put name g }

/-- `setFallbackGroup`, :42-50 -/
def setFallbackGroup (name : Text) (s : Sys) : Res Bool :=
  match s.groups.find name with
  | none => .ret false s
  | some g => .ret true { s with groups := s.groups.put star g }

/-- `getFallbackGroup`, :52-58 -/
def getFallbackGroup (s : Sys) : Option Nat := s.groups.find star

/-- `getGroup`, :166-174 -/
def getGroup (name : Text) (s : Sys) : Option Nat := s.groups.find name

/-- `getSink`, :156-164 -/
def getSink (name : Text) (s : Sys) : Option Nat := s.sinks.find name

/-- A warning through a temporary logger "Soralog" of the group `g`: `Logger::warn` → `Logger::push`,
logger.hpp:44-55.  `none`: a null sink is dereferenced. -/
def warnThrough (g : Nat) (w : Nat → Warning) (s : Sys) : Option Sys :=
  let l := Logger.new s.grp ['S', 'o', 'r', 'a', 'l', 'o', 'g'] g
  if Level.warn ≤ l.level then l.sink.map fun k => { s with warned := s.warned ++ [w k] } else some s

/-- `getLogger(name, group, optional sink, optional level)`, :99-154 -/
def getLogger (name group : Text) (sink : Option Text) (level : Option Level) (s : Sys) : Res Nat :=
  if !s.configured then .throw s
  else
    match (match s.loggers.find name with | some i => if s.alive i then some i else none | none => none) with
    | some i => .ret i s
    | none =>
      if group = star ∧ s.debug = true then .throw s                    -- :116-122
      else
        match (if group = star then                                      -- :123-125
            (getFallbackGroup s).bind fun f => warnThrough f (fun k => .deprecated k) s
          else some s) with
        | none => .ub
        | some s =>
          match (match getGroup group s with
            | some g => some (g, s)
            | none =>                                                    -- :128-139
              (getFallbackGroup s).bind fun f =>
                (warnThrough f (fun k => .unknownGroup k group name (s.grp f).name) s).map fun s => (f, s)) with
          | none => .ub
          | some (g, s) =>
            let l := Logger.new s.grp name g
            let l := match sink with
              | some kn => (match getSink kn s with | some k => l.setSink k | none => l)
              | none => l
            let l := match level with | some v => l.setLevel v | none => l
            .ret s.nloggers { s with nloggers := s.nloggers + 1, lgr := upd s.lgr s.nloggers l,
                                     alive := upd s.alive s.nloggers true,
                                     loggers := s.loggers.put name s.nloggers }

/-- `setParentOfGroup(name, name)`: the walk over the ancestors, :418-426; `none`: not finished within the bound. -/
def walk (h : Nat → Group) (g : Nat) : Nat → Option Nat → Option Bool
  | _, none => some false
  | 0, some _ => none
  | fuel + 1, some cur => if cur = g then some true else walk h g fuel (h cur).parent

/-- `return true` after the call of the pointer overload, logging_system.cpp:402-491. -/
def ofOption (r : Option Sys) : Res Bool :=
  match r with
  | some s => .ret true s
  | none => .diverge

/-- `setParentOfGroup(name, name)`, :402-431 -/
def setParentOfGroup (fuel : Nat) (group parent : Text) (s : Sys) : Res Bool :=
  match s.groups.find group with
  | none => .ret false s
  | some g =>
    match s.groups.find parent with
    | none => .ret false s
    | some p =>
      match (if (s.grp p).parent ≠ some g then walk s.grp g fuel (s.grp p).parent else some false) with
      | none => .diverge
      | some true => .ret false s
      | some false => ofOption (setParentOfGroupPtr fuel g (some p) s)

/-- `unsetParentOfGroup`, :433-444 -/
def unsetParentOfGroup (fuel : Nat) (group : Text) (s : Sys) : Res Bool :=
  match s.groups.find group with
  | none => .ret false s
  | some g => ofOption (setParentOfGroupPtr fuel g none s)

/-- `setSinkOfGroup(name, name)`, :446-459 -/
def setSinkOfGroup (fuel : Nat) (group sink : Text) (s : Sys) : Res Bool :=
  match getSink sink s with
  | none => .ret false s
  | some k =>
    match s.groups.find group with
    | none => .ret false s
    | some g => ofOption (setSinkOfGroupPtr fuel g (some k) s)

/-- `resetSinkOfGroup`, :461-470 -/
def resetSinkOfGroup (fuel : Nat) (group : Text) (s : Sys) : Res Bool :=
  match s.groups.find group with
  | none => .ret false s
  | some g => ofOption (setSinkOfGroupPtr fuel g none s)

/-- `setLevelOfGroup(name, level)`, :472-481 -/
def setLevelOfGroup (fuel : Nat) (group : Text) (level : Level) (s : Sys) : Res Bool :=
  match s.groups.find group with
  | none => .ret false s
  | some g => ofOption (setLevelOfGroupPtr fuel g (some level) s)

/-- `resetLevelOfGroup`, :483-491 -/
def resetLevelOfGroup (fuel : Nat) (group : Text) (s : Sys) : Res Bool :=
  match s.groups.find group with
  | none => .ret false s
  | some g => ofOption (setLevelOfGroupPtr fuel g none s)

/-- The common shape of the calls on a logger given by name: a live one is changed; the entry of a dead one is erased
(if `erases`). [logging_system.cpp:493-557] -/
def onLogger (name : Text) (erases : Bool) (up : Logger → Logger) (s : Sys) : Res Bool :=
  match s.loggers.find name with
  | none => .ret false s
  | some i =>
    if s.alive i then .ret true { s with lgr := upd s.lgr i (up (s.lgr i)) }
    else .ret false (if erases then { s with loggers := s.loggers.erase name } else s)

/-- `setGroupOfLogger`, :493-506 -/
def setGroupOfLogger (logger group : Text) (s : Sys) : Res Bool :=
  match getGroup group s with
  | none => .ret false s
  | some g => onLogger logger true (fun l => l.setGroup s.grp g) s

/-- `setSinkOfLogger`, :508-521 -/
def setSinkOfLogger (logger sink : Text) (s : Sys) : Res Bool :=
  match getSink sink s with
  | none => .ret false s
  | some k => onLogger logger true (fun l => l.setSink k) s

/-- `resetSinkOfLogger`, :523-532 -/
def resetSinkOfLogger (logger : Text) (s : Sys) : Res Bool :=
  onLogger logger false (fun l => l.setSinkFromGroup s.grp l.group) s

/-- `setLevelOfLogger`, :534-545 -/
def setLevelOfLogger (logger : Text) (level : Level) (s : Sys) : Res Bool :=
  onLogger logger true (fun l => l.setLevel level) s

/-- `resetLevelOfLogger`, :547-557 -/
def resetLevelOfLogger (logger : Text) (s : Sys) : Res Bool :=
  onLogger logger true (fun l => l.setLevelFromGroup s.grp l.group) s

/-! ### histories -/

/-- The calls of a history.  `group*` and `logger*` calls are those of `LoggingSystem`; `onHandle` are the public
methods of a `Logger` object the user holds; `drop` is the destruction of the last `shared_ptr` to a logger. [logger.cpp:28-100] -/
inductive Method where
  | setLevel (l : Level)
  | resetLevel
  | setLevelFromGroup (g : Nat)
  | setSink (k : Nat)
  | resetSink
  | setSinkFromGroup (g : Nat)
  | setGroup (g : Nat)
deriving DecidableEq

/-- logging_system.hpp:40-226, logging_system.cpp:27-557. -/
inductive Op where
  | makeSink (name : Text)
  | makeGroup (name : Text) (parent sink : Option Text) (level : Option Level)
  | setFallbackGroup (name : Text)
  | getLogger (name group : Text) (sink : Option Text) (level : Option Level)
  | setParentOfGroup (group parent : Text)
  | unsetParentOfGroup (group : Text)
  | setSinkOfGroup (group sink : Text)
  | resetSinkOfGroup (group : Text)
  | setLevelOfGroup (group : Text) (level : Level)
  | resetLevelOfGroup (group : Text)
  | setGroupOfLogger (logger group : Text)
  | setSinkOfLogger (logger sink : Text)
  | resetSinkOfLogger (logger : Text)
  | setLevelOfLogger (logger : Text) (level : Level)
  | resetLevelOfLogger (logger : Text)
  | onHandle (logger : Nat) (m : Method)
  | drop (logger : Nat)
deriving DecidableEq

/-- a public method of a logger object, logger.cpp:28-100 (the overloads taking names look the object up first) -/
def Logger.call (l : Logger) (h : Nat → Group) : Method → Logger
  | .setLevel v => l.setLevel v
  | .resetLevel => l.resetLevel h
  | .setLevelFromGroup g => l.setLevelFromGroup h g
  | .setSink k => l.setSink k
  | .resetSink => l.resetSink h
  | .setSinkFromGroup g => l.setSinkFromGroup h g
  | .setGroup g => l.setGroup h g

/-- arguments that are handles of existing objects. [usage rule of logger.cpp:37-93] -/
def Method.valid (s : Sys) : Method → Prop
  | .setLevelFromGroup g => g < s.ngroups
  | .setSinkFromGroup g => g < s.ngroups
  | .setGroup g => g < s.ngroups
  | .setSink k => k < s.nsinks
  | _ => True

instance (s : Sys) (m : Method) : Decidable (m.valid s) := by
  cases m <;> unfold Method.valid <;> infer_instance

/-- what a call returns. [logging_system.hpp:40-226] -/
inductive Val where
  | unit
  | bool (b : Bool)
  | sink (k : Nat)
  | group (g : Nat)
  | logger (i : Nat)
deriving DecidableEq

/-- no code of its own -/
def Res.map {α β : Type} (f : α → β) : Res α → Res β
  | .ret v s => .ret (f v) s
  | .throw s => .throw s
  | .ub => .ub
  | .diverge => .diverge

/-- One call of a history, logging_system.cpp:27-557, logger.cpp:28-100. -/
def step (fuel : Nat) (s : Sys) : Op → Res Val
  | .makeSink n => (makeSink n s).map .sink
  | .makeGroup n p k l => (makeGroup n p k l s).map .group
  | .setFallbackGroup n => (setFallbackGroup n s).map .bool
  | .getLogger n g k l => (getLogger n g k l s).map .logger
  | .setParentOfGroup g p => (setParentOfGroup fuel g p s).map .bool
  | .unsetParentOfGroup g => (unsetParentOfGroup fuel g s).map .bool
  | .setSinkOfGroup g k => (setSinkOfGroup fuel g k s).map .bool
  | .resetSinkOfGroup g => (resetSinkOfGroup fuel g s).map .bool
  | .setLevelOfGroup g l => (setLevelOfGroup fuel g l s).map .bool
  | .resetLevelOfGroup g => (resetLevelOfGroup fuel g s).map .bool
  | .setGroupOfLogger l g => (setGroupOfLogger l g s).map .bool
  | .setSinkOfLogger l k => (setSinkOfLogger l k s).map .bool
  | .resetSinkOfLogger l => (resetSinkOfLogger l s).map .bool
  | .setLevelOfLogger l v => (setLevelOfLogger l v s).map .bool
  | .resetLevelOfLogger l => (resetLevelOfLogger l s).map .bool
  | .onHandle i m =>
    if i < s.nloggers ∧ s.alive i ∧ m.valid s then .ret .unit { s with lgr := upd s.lgr i ((s.lgr i).call s.grp m) }
    else .ret .unit s
  | .drop i => .ret .unit { s with alive := upd s.alive i false }

/-- What a configurator does to the system: some calls, whose exceptions it may or may not catch, and in the end it
returns or throws.  (Which calls it makes may depend on anything: every configurator is covered by some list.). [logging_system.cpp:68-77] -/
structure Script where
  ops : List Op
  throws : Bool

/-- the calls of a history; `none`: undefined behaviour or no end. [logging_system.cpp:27-557] -/
def runOps (fuel : Nat) : List Op → Sys → Option Sys
  | [], s => some s
  | op :: ops, s =>
    match step fuel s op with
    | .ret _ s => runOps fuel ops s
    | .throw s => runOps fuel ops s
    | _ => none

/-- `Configurator::Result` as far as `configure` produces it itself, :67-97. -/
structure ConfResult where
  error : Bool
  warning : Bool
deriving DecidableEq

/-- `configure`, :60-97.  `res` is what `applyOn` returned. -/
def configure (fuel : Nat) (sc : Script) (res : ConfResult) (s : Sys) : Res ConfResult :=
  if s.configured then .throw s
  else
    match runOps fuel sc.ops { s with configured := true } with
    | none => .diverge
    | some s =>
      if sc.throws then .ret ⟨true, false⟩ s
      else if s.groups.isEmpty then .ret ⟨true, res.warning⟩ s
      else
        -- :84-94: for every group except the one under the name '*'
        let names := (s.groups.filter fun e => !(e.1 == star)).map fun e => (s.grp e.2).sink
        if names.any (·.isNone) then .ub
        else .ret ⟨res.error, res.warning || names.any fun k => k.any fun k => s.sinkName k == star⟩ s

/-- `FallbackConfigurator::applyOn`, fallback_configurator.cpp:16-30 -/
def fallbackScript (level : Level) : Script :=
  { ops := [.makeSink ['c', 'o', 'n', 's', 'o', 'l', 'e'],
            .makeGroup star none (some ['c', 'o', 'n', 's', 'o', 'l', 'e']) (some level)],
    throws := false }

/-- the flags of the result of `FallbackConfigurator::applyOn`, fallback_configurator.cpp:23-28 -/
def fallbackResult : ConfResult := ⟨false, true⟩

end System
end Soralog
