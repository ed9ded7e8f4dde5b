import Verif.Model.Lifetime
/-!
# Specification: what is owned
-/
namespace Soralog
namespace Lifetime

/-- `x` is one of the `roots`, or is held by an object that is owned itself. -/
inductive Owned (mem : Obj → List Obj) (roots : List Obj) : Obj → Prop
  | root {x : Obj} (h : x ∈ roots) : Owned mem roots x
  | member {x y : Obj} (h : Owned mem roots x) (hy : y ∈ mem x) : Owned mem roots y

/-- The memory while the pointers `roots` exist: exactly the owned objects exist, and each of them counts the pointers to it. -/
structure Counted (mem : Obj → List Obj) (roots living : List Obj) (m : Mem) : Prop where
  nodup : living.Nodup
  owned : ∀ x, x ∈ living ↔ Owned mem roots x
  count : ∀ x, m.count x = (roots ++ living.flatMap mem).count x
  fresh : m.destroyed = [] ∧ m.bad = false

/-- the groups that are their own parent -/
def OwnParent (st : Yaml.St) (x : Obj) : Prop := ∃ g, x = .group g ∧ (st.sys.grp g).parent = some g

/-- What an object refers to as long as it is used: a group to its parent and its sink, a logger to its group and its sink, a multisink to the
sinks it was made of. -/
inductive Holds (st : Yaml.St) : Obj → Obj → Prop
  | parent {g p : Nat} (h : (st.sys.grp g).parent = some p) : Holds st (.group g) (.group p)
  | groupSink {g k : Nat} (h : (st.sys.grp g).sink = some k) : Holds st (.group g) (.sink k)
  | group (i : Nat) : Holds st (.logger i) (.group (st.sys.lgr i).group)
  | sink {i k : Nat} (h : (st.sys.lgr i).sink = some k) : Holds st (.logger i) (.sink k)
  | below {j k : Nat} {lv : Level} {subs : List Nat} (h : st.specs j = .multi lv subs) (hk : k ∈ subs) : Holds st (.sink j) (.sink k)

/-- an object leads to itself, to what it refers to, to what that refers to, and so on -/
inductive Leads (st : Yaml.St) (x : Obj) : Obj → Prop
  | self : Leads st x x
  | next {y z : Obj} (h : Leads st x y) (hz : Holds st y z) : Leads st x z

/-- the object has been made -/
def Exists (st : Yaml.St) : Obj → Prop
  | .group g => g < st.sys.ngroups
  | .logger i => i < st.sys.nloggers
  | .sink k => k < st.sys.nsinks

end Lifetime
end Soralog
