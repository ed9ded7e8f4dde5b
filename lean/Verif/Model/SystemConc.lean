import Verif.Model.System
/-!
# Model of a logging system used by several threads

Sources: src/logging_system.cpp, src/group.cpp:15-40, 111-121, include/soralog/logger.hpp:40-56.

Every call of `LoggingSystem` except `makeGroup` and `getFallbackGroup` holds the recursive mutex from its first to its last access
(`std::lock_guard guard(mutex_)` is the first statement; the pointer overloads are called by them with the mutex held), so it is one step.
`makeGroup` constructs the group *before* it takes the mutex (logging_system.cpp:32-34): the constructor takes it for each lookup
(`getGroup`, `getSink`) and reads sink and level of the parent without it.  These are separate steps here; the group under construction is a
local value of the thread, because nobody else can see the object before it is inserted.  A log call (`Logger::push`) takes no lock: it reads
`level_`, `sink_`, `level_`, `sink_`, one step each.

Simplifications: a call under the mutex is one step also for readers without the mutex; the methods of a logger object (`Op.onHandle`) are one
step each; memory is sequentially consistent (in C++ an access without the mutex that meets a write is a data race, see DESIGN.md).  A call
that does not end or that is undefined has no step.
-/
namespace Soralog
namespace System
namespace Conc

/-- the arguments of `makeGroup`, logging_system.cpp:27-31 -/
structure Args where
  name : Text
  parent : Option Text
  sink : Option Text
  level : Option Level
deriving DecidableEq

/-- a log call: the level of the event and its text, logger.hpp:44-46 -/
structure Rec where
  level : Level
  text : Text
deriving DecidableEq

/-- where a thread is -/
inductive PC where
  | idle
  /-- before `system_.getGroup(*parent_name)`, group.cpp:22 -/
  | mkParent (a : Args)
  /-- before `setSinkFromGroup(parent_group_)`, group.cpp:114-116, 96 -/
  | mkInheritSink (a : Args) (p : Nat) (g : Group)
  /-- before `setLevelFromGroup(parent_group_)`, group.cpp:117-119, 61 -/
  | mkInheritLevel (a : Args) (p : Nat) (g : Group)
  /-- before `system_.getSink(*sink_name)`, group.cpp:29 -/
  | mkSink (a : Args) (g : Group)
  /-- before group.cpp:35-39 -/
  | mkLevel (a : Args) (g : Group)
  /-- before the mutex is taken, logging_system.cpp:34 -/
  | mkInsert (a : Args) (g : Group)
  /-- before `level_ >= level`, logger.hpp:47 -/
  | log1 (i : Nat) (r : Rec)
  /-- before `sink_->push(…)`, logger.hpp:49 -/
  | log2 (i : Nat) (r : Rec)
  /-- before `level_ >= Level::CRITICAL`, logger.hpp:50 -/
  | log3 (i : Nat)
  /-- before `sink_->flush()`, logger.hpp:51 -/
  | log4 (i : Nat)
deriving DecidableEq

/-- what a completed call gave: a value or an exception. [logging_system.cpp:27-557] -/
inductive Outcome where
  | ret (v : Val)
  | thrown
deriving DecidableEq

/-- the history of completed calls. [logging_system.cpp:27-557] -/
inductive Done where
  | call (op : Op) (o : Outcome)
  /-- `is_configured_ = true`, logging_system.cpp:66; the calls of the configurator follow -/
  | configuring
deriving DecidableEq

/-- what log calls do to sinks; `null` is a call through a null pointer. [logger.hpp:49-51] -/
inductive SinkCall where
  | push (t : Tid) (sink : Nat) (r : Rec)
  | flush (t : Tid) (sink : Nat)
  | null (t : Tid)
deriving DecidableEq

/-- the system, the threads, the history. [logging_system.hpp:276-281] -/
structure St where
  sys : Sys
  pc : Tid → PC
  done : List Done
  out : List SinkCall

/-- LoggingSystem::LoggingSystem, logging_system.cpp:22-25 -/
def init (debug : Bool) (ord : List Nat → List Nat) : St :=
  { sys := System.new debug ord, pc := fun _ => .idle, done := [], out := [] }

/-- no code of its own -/
def St.goto (s : St) (t : Tid) (p : PC) : St := { s with pc := upd s.pc t p }

/-- a call has returned or thrown. [logging_system.cpp:27-557] -/
def St.finish (s : St) (t : Tid) (sys : Sys) (op : Op) (o : Outcome) : St :=
  { s with sys := sys, pc := upd s.pc t .idle, done := s.done ++ [.call op o] }

/-- the call of `makeGroup` with these arguments, logging_system.cpp:27 -/
def Args.op (a : Args) : Op := .makeGroup a.name a.parent a.sink a.level

/-- the object when the constructor starts, group.cpp:20 -/
def blank (a : Args) : Group := ⟨a.name, none, none, false, .off, false⟩

/-- the first step of the constructor, group.cpp:21 -/
def Args.start (a : Args) : PC := if a.parent.isSome then .mkParent a else .mkSink a (blank a)

/-- logging_system.cpp:34-39, with the mutex held -/
def insert (a : Args) (g : Group) (s : Sys) : Sys :=
  let tab := if (s.groups.find star).isNone then s.groups.put star s.ngroups else s.groups
  { s with ngroups := s.ngroups + 1, grp := upd s.grp s.ngroups g, groups := tab.put a.name s.ngroups }

/-- One step of a thread that is inside `makeGroup` (group.cpp:15-40, logging_system.cpp:32-39) or inside a log call (logger.hpp:44-56). -/
def step (s : St) (t : Tid) : St :=
  match s.pc t with
  | .idle => s
  | .mkParent a =>                                                       -- group.cpp:22-26, 112
    match a.parent.bind s.sys.groups.find with
    | none => s.finish t s.sys a.op .thrown
    | some p => s.goto t (.mkInheritSink a p { blank a with parent := some p })
  | .mkInheritSink a p g => s.goto t (.mkInheritLevel a p { g with sink := (s.sys.grp p).sink })
  | .mkInheritLevel a p g => s.goto t (.mkSink a { g with level := (s.sys.grp p).level })
  | .mkSink a g =>                                                       -- group.cpp:28-34, 79-85
    match a.sink with
    | none => s.goto t (.mkLevel a g)
    | some kn =>
      match s.sys.sinks.find kn with
      | none => s.finish t s.sys a.op .thrown
      | some k => s.goto t (.mkLevel a { g with sink := some k, sinkOv := if g.parent.isSome then true else g.sinkOv })
  | .mkLevel a g =>                                                      -- group.cpp:35-39, 51-56
    match a.level with
    | some l => s.goto t (.mkInsert a { g with level := l, levelOv := if g.parent.isSome then true else g.levelOv })
    | none => if g.parent.isSome then s.goto t (.mkInsert a g) else s.finish t s.sys a.op .thrown
  | .mkInsert a g => s.finish t (insert a g s.sys) a.op (.ret (.group s.sys.ngroups))
  | .log1 i r => s.goto t (if r.level ≤ (s.sys.lgr i).level ∧ r.level ≠ .off ∧ r.level ≠ .ignore then .log2 i r else .idle)
  | .log2 i r =>
    match (s.sys.lgr i).sink with
    | none => { s with pc := upd s.pc t .idle, out := s.out ++ [.null t] }
    | some k => { s with pc := upd s.pc t (.log3 i), out := s.out ++ [.push t k r] }
  | .log3 i => s.goto t (if Level.critical ≤ (s.sys.lgr i).level then .log4 i else .idle)
  | .log4 i =>
    match (s.sys.lgr i).sink with
    | none => { s with pc := upd s.pc t .idle, out := s.out ++ [.null t] }
    | some k => { s with pc := upd s.pc t .idle, out := s.out ++ [.flush t k] }

/-- the calls that are not one step. [logging_system.cpp:27-40] -/
def isMakeGroup : Op → Bool
  | .makeGroup .. => true
  | _ => false

/-- What may happen next: a thread that is in no call makes one, or a thread inside `makeGroup` or a log call goes on.
[logging_system.cpp:27-557, logger.hpp:44-56, 190-192] -/
inductive Exec : St → St → Prop
  | call (s : St) (t : Tid) (op : Op) (fuel : Nat) (v : Val) (sys' : Sys) (hi : s.pc t = .idle) (hm : isMakeGroup op = false)
      (hc : System.step fuel s.sys op = .ret v sys') : Exec s (s.finish t sys' op (.ret v))
  | failed (s : St) (t : Tid) (op : Op) (fuel : Nat) (sys' : Sys) (hi : s.pc t = .idle) (hm : isMakeGroup op = false)
      (hc : System.step fuel s.sys op = .throw sys') : Exec s (s.finish t sys' op .thrown)
  | configuring (s : St) (t : Tid) (hi : s.pc t = .idle) :
      Exec s { s with sys := { s.sys with configured := true }, done := s.done ++ [.configuring] }
  | makeGroup (s : St) (t : Tid) (a : Args) (hi : s.pc t = .idle) : Exec s (s.goto t a.start)
  | log (s : St) (t : Tid) (i : Nat) (r : Rec) (hi : s.pc t = .idle) (ha : s.sys.alive i = true) : Exec s (s.goto t (.log1 i r))
  /-- `Logger::flush`, logger.hpp:190-192: what a log call does in the end, without looking at the level -/
  | flush (s : St) (t : Tid) (i : Nat) (hi : s.pc t = .idle) (ha : s.sys.alive i = true) : Exec s (s.goto t (.log4 i))
  | step (s : St) (t : Tid) (hi : s.pc t ≠ .idle) : Exec s (step s t)

/-- all executions. [logging_system.cpp, logger.hpp] -/
inductive Reach : St → Prop
  | init (debug : Bool) (ord : List Nat → List Nat) (ho : ∀ l, (ord l).Perm l) : Reach (init debug ord)
  | next {s s' : St} : Reach s → Exec s s' → Reach s'

end Conc
end System
end Soralog
