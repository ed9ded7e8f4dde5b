import Verif.Model.SystemDirect
import Verif.Spec.Hierarchy
/-!
# Terms used in the statements about the logging system
-/
namespace Soralog
namespace System

/-- The states of a logging system: any history of calls that satisfy `ok`, including those made by a configurator and
those after an exception.  (`configure` itself only sets the flag and runs the configurator: `configure_reach`.) -/
inductive ReachBy (ok : Sys → Op → Prop) : Sys → Prop
  | init (debug : Bool) (ord : List Nat → List Nat) (ho : ∀ l, (ord l).Perm l) : ReachBy ok (new debug ord)
  | call {s s' : Sys} {fuel : Nat} {op : Op} {v : Val} (h : ReachBy ok s) (hok : ok s op)
      (hc : step fuel s op = .ret v s') : ReachBy ok s'
  | failed {s s' : Sys} {fuel : Nat} {op : Op} (h : ReachBy ok s) (hok : ok s op)
      (hc : step fuel s op = .throw s') : ReachBy ok s'
  | configuring {s : Sys} (h : ReachBy ok s) : ReachBy ok { s with configured := true }

/-- any history of calls at all -/
abbrev Reach : Sys → Prop := ReachBy fun _ _ => True

/-- The states after any history of calls of the system and of methods of `Group` and `Logger` objects, called past the system, that
satisfy `ok`. -/
inductive AnyReachBy (ok : Sys → Act → Prop) : Sys → Prop
  | init (debug : Bool) (ord : List Nat → List Nat) (ho : ∀ l, (ord l).Perm l) : AnyReachBy ok (new debug ord)
  | act {s s' : Sys} {fuel : Nat} {a : Act} {v : Val} (h : AnyReachBy ok s) (hok : ok s a) (hc : act fuel s a = .ret v s') :
      AnyReachBy ok s'
  | failed {s s' : Sys} {fuel : Nat} {a : Act} (h : AnyReachBy ok s) (hok : ok s a) (hc : System.act fuel s a = .throw s') :
      AnyReachBy ok s'
  | configuring {s : Sys} (h : AnyReachBy ok s) : AnyReachBy ok { s with configured := true }

/-- any such history at all -/
abbrev AnyReach : Sys → Prop := AnyReachBy fun _ _ => True

def Sys.parent (s : Sys) (x : Nat) : Option Nat := (s.grp x).parent
def Sys.levelFixed (s : Sys) (x : Nat) : Bool := (s.grp x).levelOv
def Sys.sinkFixed (s : Sys) (x : Nat) : Bool := (s.grp x).sinkOv
/-- the groups the system knows by name -/
def Sys.registered (s : Sys) (x : Nat) : Prop := ∃ k, s.groups.find k = some x

/-- a call that does not make a group its own parent -/
def noSelfParent (s : Sys) : Op → Prop
  | .setParentOfGroup g p => s.groups.find g = none ∨ s.groups.find g ≠ s.groups.find p
  | _ => True

/-- an action that does not close a cycle of parents -/
def noCycleMade (s : Sys) : Act → Prop
  | .call op => noSelfParent s op
  | .group g (.setParentGroup (some p)) => p ≠ g ∧ ¬ Hierarchy.Ancestor s.parent g p
  | .group g (.setParentGroupNamed n) => ∀ p, s.groups.find n = some p → p ≠ g ∧ ¬ Hierarchy.Ancestor s.parent g p
  | _ => True

/-- When a call comes to an end.  Setting or resetting the level of the group `g`: the way up from every registered group meets `g`, a group
whose level is fixed or a root; the sink likewise.  A change of the parent: the same for groups where both are fixed; and the way up from the
new parent meets `g` or a root — if it meets `g` above the parent's parent the call is refused. -/
def WillEnd (s : Sys) : Op → Prop
  | .setLevelOfGroup n _ => ∀ g, s.groups.find n = some g → ∀ x, s.registered x → Hierarchy.Halts s.parent s.levelFixed g x
  | .resetLevelOfGroup n => ∀ g, s.groups.find n = some g → ∀ x, s.registered x → Hierarchy.Halts s.parent s.levelFixed g x
  | .setSinkOfGroup n k => s.sinks.find k ≠ none → ∀ g, s.groups.find n = some g → ∀ x, s.registered x →
      Hierarchy.Halts s.parent s.sinkFixed g x
  | .resetSinkOfGroup n => ∀ g, s.groups.find n = some g → ∀ x, s.registered x → Hierarchy.Halts s.parent s.sinkFixed g x
  | .unsetParentOfGroup n => ∀ g, s.groups.find n = some g → ∀ x, s.registered x →
      Hierarchy.Halts s.parent (fun y => s.levelFixed y && s.sinkFixed y) g x
  | .setParentOfGroup n pn => ∀ g p, s.groups.find n = some g → s.groups.find pn = some p →
      (∀ q, s.parent p = some q → Hierarchy.Halts s.parent (fun _ => false) g q) ∧
      (Hierarchy.Ancestor s.parent g p ∧ s.parent p ≠ some g ∨
        ∀ x, s.registered x → Hierarchy.Halts s.parent (fun y => s.levelFixed y && s.sinkFixed y) g x)
  | _ => True

end System

end Soralog
