import Verif.Model.Whole
/-!
# Model of ownership: which objects hold which by `shared_ptr`, and what happens when owners go

Groups, loggers and sinks are held by `std::shared_ptr` only.  The model of `shared_ptr` is the usual one: a counter of owners per object;
when the last owner is gone the destructor of the object runs and then its members are released.
-/
namespace Soralog
namespace Lifetime

/-- The objects that are managed by `shared_ptr`. [logging_system.hpp:279-281] -/
inductive Obj where
  | group (g : Nat)
  | logger (i : Nat)
  | sink (k : Nat)
deriving DecidableEq

/-- The owning members of an object, in the order in which its destructor releases them (last declared first).
A group holds `parent_group_` and `sink_` (group.hpp:155-160), a logger `group_` and `sink_` (logger.hpp:296-301), a multisink its `sinks_`
(sink.hpp:182, in the order of the vector), the other sinks nothing.  `system_` of groups and loggers is a reference and owns nothing. -/
def members (st : Yaml.St) : Obj → List Obj
  | .group g => ((st.sys.grp g).sink.map Obj.sink).toList ++ ((st.sys.grp g).parent.map Obj.group).toList
  | .logger i => ((st.sys.lgr i).sink.map Obj.sink).toList ++ [.group (st.sys.lgr i).group]
  | .sink k =>
    match st.specs k with
    | .multi _ subs => subs.map .sink
    | _ => []

/-- What `LoggingSystem` owns: `groups_` and `sinks_`, released in this order by its destructor; `loggers_` are weak pointers.
[logging_system.hpp:36, 279-281] -/
def systemOwns (st : Yaml.St) : List Obj := st.sys.groups.map (fun e => .group e.2) ++ st.sys.sinks.map (fun e => .sink e.2)

/-- The counters of owners, and the objects whose destructor has run, in this order; `bad`: an object was released that was destroyed
already. [std::shared_ptr] -/
structure Mem where
  count : Obj → Nat
  destroyed : List Obj
  bad : Bool

/-- Owners go, one after another.  The release of a member happens within the destructor of its owner, therefore before the rest of the list.
The first argument bounds the number of releases. [std::shared_ptr::~shared_ptr; ~Group, ~Logger are defaulted, group.hpp:29, logger.hpp:30] -/
def release (mem : Obj → List Obj) : Nat → List Obj → Mem → Option Mem
  | _, [], m => some m
  | 0, _ :: _, _ => none
  | n + 1, x :: rest, m =>
    match m.count x with
    | 0 => some { m with bad := true }
    | 1 => release mem n (mem x ++ rest) { m with count := fun y => if y = x then 0 else m.count y, destroyed := m.destroyed ++ [x] }
    | c + 2 => release mem n rest { m with count := fun y => if y = x then c + 1 else m.count y }

end Lifetime
end Soralog
