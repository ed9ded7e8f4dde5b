import Verif.Model.Sink
/-!
# Specification of filtering, delivery and sink histories
-/
namespace Soralog
namespace Spec

/-- the levels from the one that admits nothing to the one that admits everything (level.hpp:19-29) -/
def severities : List Level := [.off, .critical, .error, .warn, .info, .verbose, .debug, .trace, .ignore]

/-- OFF and IGNORE are not levels an event can have. -/
def Real (v : Level) : Prop := v ≠ .off ∧ v ≠ .ignore
instance (v : Level) : Decidable (Real v) := inferInstanceAs (Decidable (_ ∧ _))

/-- A threshold admits an event level: it is a real one and not more detailed than the threshold. -/
def Admits (threshold v : Level) : Prop := Real v ∧ v ≤ threshold
instance (t v : Level) : Decidable (Admits t v) := inferInstanceAs (Decidable (_ ∧ _))

/-- total length of the messages of some events -/
def totalLength (es : List Event) : Nat := (es.map (·.message.length)).sum

open Sink (Snk)

mutual
/-- All ways from a sink down to the queue-owning sinks: the levels of the multisinks passed, and the sink
reached.  A sink listed twice is reached by two paths. -/
def paths : Snk → List (List Level × Nat)
  | .leaf i => [([], i)]
  | .multi lv subs => (pathsOfAll subs).map fun p => (lv :: p.1, p.2)
def pathsOfAll : List Snk → List (List Level × Nat)
  | [] => []
  | s :: ss => paths s ++ pathsOfAll ss
end

mutual
/-- The queue-owning sinks below a sink, one entry per path, in the order of the lists. -/
def leaves : Snk → List Nat
  | .leaf i => [i]
  | .multi _ subs => leavesOfAll subs
def leavesOfAll : List Snk → List Nat
  | [] => []
  | s :: ss => leaves s ++ leavesOfAll ss
end

mutual
/-- no multisink anywhere below has an empty list -/
def Full : Snk → Prop
  | .leaf _ => True
  | .multi _ subs => subs ≠ [] ∧ FullAll subs
def FullAll : List Snk → Prop
  | [] => True
  | s :: ss => Full s ∧ FullAll ss
end

/-- The sinks a message of level `v` is forwarded to by the multisinks above them, one entry per path all of whose
multisinks admit it, in order. -/
def route (s : Snk) (v : Level) : List Nat :=
  ((paths s).filter fun p => decide (∀ lv ∈ p.1, Admits lv v)).map (·.2)

/-- How often a message of level `v` must reach sink `i`, whose own level is `own`: the number of paths all of
whose filters admit it. -/
def deliveries (s : Snk) (own : Nat → Level) (v : Level) (i : Nat) : Nat :=
  (paths s).countP fun p => decide (p.2 = i ∧ (∀ lv ∈ p.1, Admits lv v) ∧ Admits (own i) v)

/-- A call on a sink. -/
inductive Op where
  | push (m : Msg)
  | flush
  | asyncFlush
  | rotate

/-- The messages of a history that a sink of this level has to accept, in order. -/
def admitted (level : Level) : List Op → List Msg
  | [] => []
  | .push m :: ops => if Admits level m.level then m :: admitted level ops else admitted level ops
  | _ :: ops => admitted level ops

/-- The events of those messages: the `n`-th one is constructed in the environment's `n`-th situation. -/
def eventsOf (env : Nat → Env) (ti : ThreadInfo) (maxLen : Nat) (start : Nat) : List Msg → List Event
  | [] => []
  | m :: ms => mkEvent (env start) ti maxLen m :: eventsOf env ti maxLen (start + 1) ms

end Spec

namespace Sink
open Spec (Op)

/-- One call. -/
def Leaf.step (fuel : Nat) (l : Leaf) : Op → Option Leaf
  | .push m => l.push fuel m
  | .flush => some l.flush
  | .asyncFlush => some l.asyncFlush
  | .rotate => some l.rotate

/-- A history of calls (calls of `flush` by the worker between other calls included). -/
def Leaf.run (fuel : Nat) : Leaf → List Op → Option Leaf
  | l, [] => some l
  | l, op :: ops => (l.step fuel op).bind fun l => Leaf.run fuel l ops

end Sink
end Soralog
