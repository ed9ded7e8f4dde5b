import Verif.Model.Ring
/-!
# Specification: inheritance in a hierarchy of groups

A hierarchy is given by `parent` (of a group) and `fixed` (the property is set on the group itself).
-/
namespace Soralog
namespace Hierarchy

/-- `x` is `g`, or takes the property from `g` through a chain of groups on none of which it is fixed. -/
inductive InheritsFrom (parent : Nat → Option Nat) (fixed : Nat → Bool) (g : Nat) : Nat → Prop
  | self : InheritsFrom parent fixed g g
  | child {x p : Nat} (hp : parent x = some p) (hf : fixed x = false) (h : InheritsFrom parent fixed g p) :
      InheritsFrom parent fixed g x

/-- `a` is a proper ancestor of `x` -/
inductive Ancestor (parent : Nat → Option Nat) (a : Nat) : Nat → Prop
  | parent {x : Nat} (hp : parent x = some a) : Ancestor parent a x
  | above {x p : Nat} (hp : parent x = some p) (h : Ancestor parent a p) : Ancestor parent a x

/-- The way up from `x` comes to an end: it meets `g`, a group where `stop` holds, or a root. -/
inductive Halts (parent : Nat → Option Nat) (stop : Nat → Bool) (g : Nat) : Nat → Prop
  | here : Halts parent stop g g
  | stopped {x : Nat} (hs : stop x = true) : Halts parent stop g x
  | root {x : Nat} (hp : parent x = none) : Halts parent stop g x
  | up {x p : Nat} (hp : parent x = some p) (h : Halts parent stop g p) : Halts parent stop g x

end Hierarchy
end Soralog
