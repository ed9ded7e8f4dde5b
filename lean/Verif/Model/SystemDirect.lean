import Verif.Model.System
/-!
# Model of the public methods of `Group` objects and of the overloads of `Logger` that take names

Sources: src/group.cpp, src/logger.cpp.  The methods themselves are in `Model/System.lean`; here they become calls of a
history that the user makes on a `Group` object (`getGroup` and `makeGroup` hand out `shared_ptr<Group>`), past the system.
-/
namespace Soralog
namespace System

/-- The public methods of a group object.  Groups and sinks given by pointer are numbers, `setParentGroup` accepts a null
pointer. [group.cpp:44-127] -/
inductive GroupMethod where
  | setLevel (l : Level)
  | resetLevel
  | setLevelFromGroup (g : Nat)
  | setLevelFromGroupNamed (n : Text)
  | setSink (k : Nat)
  | setSinkNamed (n : Text)
  | resetSink
  | setSinkFromGroup (g : Nat)
  | setSinkFromGroupNamed (n : Text)
  | unsetParentGroup
  | setParentGroup (p : Option Nat)
  | setParentGroupNamed (n : Text)
deriving DecidableEq

/-- arguments that are handles of existing objects. [usage rule of group.cpp:58-121] -/
def GroupMethod.valid (s : Sys) : GroupMethod → Prop
  | .setLevelFromGroup g => g < s.ngroups
  | .setSinkFromGroup g => g < s.ngroups
  | .setSink k => k < s.nsinks
  | .setParentGroup (some p) => p < s.ngroups
  | _ => True

instance (s : Sys) (m : GroupMethod) : Decidable (m.valid s) := by
  cases m with
  | setParentGroup p => cases p <;> unfold GroupMethod.valid <;> infer_instance
  | _ => unfold GroupMethod.valid; infer_instance

/-- A method called on the group `g`: the overloads with names look the object up and do nothing without it.
[group.cpp:44-127, by name :64-68, :87-91, :99-103, :123-127] -/
def onGroup (s : Sys) (g : Nat) : GroupMethod → Nat → Group
  | .setLevel l => setLevel s.grp g l
  | .resetLevel => resetLevel s.grp g
  | .setLevelFromGroup p => setLevelFromGroup s.grp g p
  | .setLevelFromGroupNamed n => match getGroup n s with | some p => setLevelFromGroup s.grp g p | none => s.grp
  | .setSink k => setSink s.grp g k
  | .setSinkNamed n => match getSink n s with | some k => setSink s.grp g k | none => s.grp
  | .resetSink => resetSink s.grp g
  | .setSinkFromGroup p => setSinkFromGroup s.grp g p
  | .setSinkFromGroupNamed n => match getGroup n s with | some p => setSinkFromGroup s.grp g p | none => s.grp
  | .unsetParentGroup => unsetParentGroup s.grp g
  | .setParentGroup p => setParentGroup s.grp g p
  | .setParentGroupNamed n => match getGroup n s with | some p => setParentGroup s.grp g (some p) | none => s.grp

/-- The overloads of a logger that take names. [logger.cpp:43-47, 56-60, 76-80, 95-99] -/
inductive NamedMethod where
  | setLevelFromGroup (n : Text)
  | setSink (n : Text)
  | setSinkFromGroup (n : Text)
  | setGroup (n : Text)
deriving DecidableEq

/-- The object is looked up and the overload taking the pointer is called; without it nothing happens.
[logger.cpp:43-47, 56-60, 76-80, 95-99] -/
def NamedMethod.resolve (s : Sys) : NamedMethod → Option Method
  | .setLevelFromGroup n => (getGroup n s).map .setLevelFromGroup
  | .setSink n => (getSink n s).map .setSink
  | .setSinkFromGroup n => (getGroup n s).map .setSinkFromGroup
  | .setGroup n => (getGroup n s).map .setGroup

/-- Anything a user of the library does to the system, its groups and its loggers. [logging_system.hpp:40-226, group.hpp:65-150, logger.hpp:196-292] -/
inductive Act where
  | call (op : Op)
  | group (g : Nat) (m : GroupMethod)
  | logger (i : Nat) (m : NamedMethod)
deriving DecidableEq

/-- One such action. [logging_system.cpp:27-557, group.cpp:44-127, logger.cpp:28-100] -/
def act (fuel : Nat) (s : Sys) : Act → Res Val
  | .call op => step fuel s op
  | .group g m => if g < s.ngroups ∧ m.valid s then .ret .unit { s with grp := onGroup s g m } else .ret .unit s
  | .logger i m => match m.resolve s with
    | some m => step fuel s (.onHandle i m)
    | none => .ret .unit s

/-- several actions, one after the other; `none`: undefined behaviour or no end. [no code of its own] -/
def runActs (fuel : Nat) : List Act → Sys → Option Sys
  | [], s => some s
  | a :: as, s =>
    match act fuel s a with
    | .ret _ s => runActs fuel as s
    | .throw s => runActs fuel as s
    | _ => none

end System
end Soralog
