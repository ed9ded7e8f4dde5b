import Verif.Model.SystemConc
/-!
# Specification: calls of several threads take effect one after the other

`Serial s ds s'`: starting from `s`, the calls `ds`, made one after the other, have the recorded outcomes and end in `s'`.
-/
namespace Soralog
namespace System
namespace Conc

inductive Serial : Sys → List Done → Sys → Prop
  | nil (s : Sys) : Serial s [] s
  | ret {s s1 s2 : Sys} {ds : List Done} (fuel : Nat) (op : Op) (v : Val) (hc : System.step fuel s op = .ret v s1)
      (h : Serial s1 ds s2) : Serial s (.call op (.ret v) :: ds) s2
  | thrown {s s1 s2 : Sys} {ds : List Done} (fuel : Nat) (op : Op) (hc : System.step fuel s op = .throw s1)
      (h : Serial s1 ds s2) : Serial s (.call op .thrown :: ds) s2
  | configuring {s s2 : Sys} {ds : List Done} (h : Serial { s with configured := true } ds s2) : Serial s (.configuring :: ds) s2

/-- the call of `makeGroup` a thread is in, if any -/
def making : PC → Option Args
  | .mkParent a | .mkInheritSink a _ _ | .mkInheritLevel a _ _ | .mkSink a _ | .mkLevel a _ | .mkInsert a _ => some a
  | _ => none

/-- The call changes groups, or what the names given to `makeGroup` refer to. -/
def disturbs (a : Args) : Op → Prop
  | .setParentOfGroup .. | .unsetParentOfGroup .. | .setSinkOfGroup .. | .resetSinkOfGroup .. | .setLevelOfGroup ..
  | .resetLevelOfGroup .. => a.parent.isSome = true
  | .makeSink n => a.sink = some n
  | .makeGroup n .. => a.parent = some n
  | .setFallbackGroup _ => a.parent = some star
  | _ => False

/-- A step does not complete a call that disturbs a call of `makeGroup` another thread is in (and remains in). -/
def Undisturbing (s s' : St) : Prop :=
  ∀ t a op o, making (s.pc t) = some a → making (s'.pc t) = some a → s'.done = s.done ++ [.call op o] → ¬ disturbs a op

/-- executions in which no call of `makeGroup` is disturbed -/
inductive CalmReach (debug : Bool) (ord : List Nat → List Nat) : St → Prop
  | init (ho : ∀ l, (ord l).Perm l) : CalmReach debug ord (init debug ord)
  | next {s s' : St} : CalmReach debug ord s → Exec s s' → Undisturbing s s' → CalmReach debug ord s'

end Conc
end System
end Soralog
