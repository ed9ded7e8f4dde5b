import Verif.Model.SystemConc
import Verif.Spec.HappensBefore
/-!
# What the logging system does to its mutex and to memory that is not atomic

For each step of `Model/SystemConc.lean`: the operations on the mutex and the accesses of the members of loggers and groups and of the tables.
A call that holds the mutex may access anything and in any order, but it must write what it changes.

Simplifications: the members of a new group are written when it is inserted, with the mutex held (its constructor writes them before, when no other
thread can see the object); a nested acquisition of the recursive mutex and a second one in a row by the same thread are left out.
-/
namespace Soralog
namespace Race

open System (Sys Op Val)
open System.Conc (St PC Args Rec isMakeGroup)

/-- a read or a write. No code of its own. -/
def isAccess : SysEv → Bool
  | .read _ | .write _ => true
  | _ => false

/-- `acc` consists of accesses, among them a write of every member that is changed. [logger.hpp:299-305, group.hpp:158-164, logging_system.hpp:276-281] -/
def Covers (s s' : Sys) (acc : List SysEv) : Prop :=
  (∀ e ∈ acc, isAccess e = true) ∧
  (∀ i, i < s'.nloggers → (s'.lgr i).level ≠ (s.lgr i).level → .write (.loggerLevel i) ∈ acc) ∧
  (∀ i, i < s'.nloggers → (s'.lgr i).sink ≠ (s.lgr i).sink → .write (.loggerSink i) ∈ acc) ∧
  (∀ i, i < s'.nloggers → ((s'.lgr i).group, (s'.lgr i).levelOv, (s'.lgr i).sinkOv) ≠ ((s.lgr i).group, (s.lgr i).levelOv, (s.lgr i).sinkOv) →
    .write (.loggerRest i) ∈ acc) ∧
  (∀ g, g < s'.ngroups → (s'.grp g).level ≠ (s.grp g).level → .write (.groupLevel g) ∈ acc) ∧
  (∀ g, g < s'.ngroups → (s'.grp g).sink ≠ (s.grp g).sink → .write (.groupSink g) ∈ acc) ∧
  (∀ g, g < s'.ngroups → ((s'.grp g).parent, (s'.grp g).levelOv, (s'.grp g).sinkOv) ≠ ((s.grp g).parent, (s.grp g).levelOv, (s.grp g).sinkOv) →
    .write (.groupRest g) ∈ acc) ∧
  ((s'.sinks, s'.groups, s'.loggers) ≠ (s.sinks, s.groups, s.loggers) → .write .tables ∈ acc)

/-- with the mutex held. [logging_system.cpp:34, 43, 61, …, `std::lock_guard guard(mutex_)`] -/
def block (t : Tid) (acc : List SysEv) : SysTrace := (t, .acquire .mutex) :: acc.map (t, ·) ++ [(t, .release .mutex)]

/-- the calls of `LoggingSystem`, all of which take the mutex; the others are methods of a logger object and its destruction.
[logging_system.cpp:27-557, logger.cpp:28-100] -/
def isLocked : Op → Bool
  | .onHandle .. | .drop _ => false
  | _ => true

/-- the steps that take no lock: of `makeGroup` (group.cpp:96, 61) and of a log call (logger.hpp:47-51) -/
def plainEvents : PC → List SysEv
  | .mkInheritSink _ p _ => [.read (.groupSink p)]
  | .mkInheritLevel _ p _ => [.read (.groupLevel p)]
  | .log1 i _ | .log3 i => [.read (.loggerLevel i)]
  | .log2 i _ | .log4 i => [.read (.loggerSink i)]
  | _ => []

/-- the steps of `makeGroup` that hold the mutex: `getGroup`, `getSink`, the insertion. [group.cpp:22, 29, logging_system.cpp:34-39] -/
def lockedStep : PC → Bool
  | .mkParent _ | .mkInsert _ _ => true
  | .mkSink a _ => a.sink.isSome
  | _ => false

/-- One action of the system with what it does to memory; see `System.Conc.Exec`.  `direct`: the methods of logger objects are used too.
[logging_system.cpp:27-557, logger.hpp:44-56, logger.cpp:28-100] -/
inductive SysExec (direct : Bool) : St → SysTrace → St → Prop
  | call (s : St) (t : Tid) (op : Op) (fuel : Nat) (v : Val) (sys' : Sys) (acc : List SysEv) (hi : s.pc t = .idle) (hm : isMakeGroup op = false)
      (hl : isLocked op = true) (hc : System.step fuel s.sys op = .ret v sys') (ha : Covers s.sys sys' acc) :
      SysExec direct s (block t acc) (s.finish t sys' op (.ret v))
  | failed (s : St) (t : Tid) (op : Op) (fuel : Nat) (sys' : Sys) (acc : List SysEv) (hi : s.pc t = .idle) (hm : isMakeGroup op = false)
      (hl : isLocked op = true) (hc : System.step fuel s.sys op = .throw sys') (ha : Covers s.sys sys' acc) :
      SysExec direct s (block t acc) (s.finish t sys' op .thrown)
  | method (s : St) (t : Tid) (op : Op) (fuel : Nat) (v : Val) (sys' : Sys) (acc : List SysEv) (hi : s.pc t = .idle)
      (hl : isLocked op = false) (hd : direct = true) (hc : System.step fuel s.sys op = .ret v sys') (ha : Covers s.sys sys' acc) :
      SysExec direct s (acc.map (t, ·)) (s.finish t sys' op (.ret v))
  | drop (s : St) (t : Tid) (i : Nat) (fuel : Nat) (v : Val) (sys' : Sys) (hi : s.pc t = .idle)
      (hc : System.step fuel s.sys (.drop i) = .ret v sys') : SysExec direct s [] (s.finish t sys' (.drop i) (.ret v))
  | configuring (s : St) (t : Tid) (hi : s.pc t = .idle) :
      SysExec direct s (block t []) { s with sys := { s.sys with configured := true }, done := s.done ++ [.configuring] }
  | makeGroup (s : St) (t : Tid) (a : Args) (hi : s.pc t = .idle) : SysExec direct s [] (s.goto t a.start)
  | log (s : St) (t : Tid) (i : Nat) (r : Rec) (hi : s.pc t = .idle) (ha : s.sys.alive i = true) : SysExec direct s [] (s.goto t (.log1 i r))
  | flush (s : St) (t : Tid) (i : Nat) (hi : s.pc t = .idle) (ha : s.sys.alive i = true) : SysExec direct s [] (s.goto t (.log4 i))
  | plain (s : St) (t : Tid) (hi : s.pc t ≠ .idle) (hl : lockedStep (s.pc t) = false) :
      SysExec direct s ((plainEvents (s.pc t)).map (t, ·)) (System.Conc.step s t)
  | locked (s : St) (t : Tid) (acc : List SysEv) (hl : lockedStep (s.pc t) = true) (ha : Covers s.sys (System.Conc.step s t).sys acc) :
      SysExec direct s (block t acc) (System.Conc.step s t)

/-- The executions of a logging system with their traces. [logging_system.cpp, logger.hpp] -/
inductive SysRun (direct : Bool) : St → SysTrace → Prop
  | init (debug : Bool) (ord : List Nat → List Nat) (ho : ∀ l, (ord l).Perm l) : SysRun direct (System.Conc.init debug ord) []
  | next {s s' : St} {tr l : SysTrace} : SysRun direct s tr → SysExec direct s l s' → SysRun direct s' (tr ++ l)

end Race
end Soralog
