import Verif.Spec.Document
/-!
# Terms used in the statements about documents
-/
namespace Soralog
namespace Yaml
open Soralog.System

/-- the four kinds of problems whose flag does not agree with their mark -/
def Problem.odd : Problem → Bool
  | .sinkNotMap _ => true
  | .sinkNoName _ => true
  | .multiMissing _ _ => true
  | .groupNoName _ => true
  | _ => false

/-- only problems were reported -/
def Quiet (s s' : St) : Prop := s'.sys = s.sys ∧ s'.specs = s.specs ∧ s'.syslogOpen = s.syslogOpen

/-- `c` is an element of the list 'children' of the map `n` -/
def Nested (W : World) (c n : Nat) : Prop :=
  ∃ entries items, W.node n = .map entries ∧ prop W entries "children".toList = some (.seq items) ∧ c ∈ items

/-- the value of 'name' of the map `n` -/
def nameOf (W : World) (n : Nat) : Option Text :=
  match W.node n with
  | .map entries => textAt W entries "name".toList
  | _ => none

/-- No map is nested in itself (at any depth); no group node is directly nested in a node of the same name. -/
structure Plain (W : World) : Prop where
  acyclic : ∃ rank : Nat → Nat, ∀ c n, Nested W c n → rank c < rank n
  names : ∀ c n, Nested W c n → (nameOf W c).isSome → nameOf W c ≠ nameOf W n

/-- the list under a key, empty if there is none -/
def listAt (W : World) (entries : List (Nat × Nat)) (key : Text) : List Nat :=
  match prop W entries key with
  | some (.seq items) => items
  | _ => []

end Yaml

end Soralog
