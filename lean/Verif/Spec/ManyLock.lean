import Verif.Model.ManyLock
import Verif.Spec.Many
/-!
# Specification: pending calls of a program with many threads
-/
namespace Soralog
namespace Many
namespace Lock
open Spec

/-- thread `t` is inside no call: of the logging system, of `configure`, of a logger, of a sink or of a destructor of a sink -/
def AtRest (s : St) (t : Tid) : Prop := s.prog.sys.pc t = .idle ∧ Free s.prog t ∧ s.busy ≠ some t ∧ s.conf ≠ some t

/-- the execution goes on from `s` to `s'` and no call is started -/
inductive Goes (S : Setup) : St → St → Prop
  | refl (s : St) : Goes S s s
  | more {s s' s'' : St} : Go S s s' → Goes S s' s'' → Goes S s s''

/-- the logger a log call goes through -/
def loggerOf : System.Conc.PC → Option Nat
  | .log1 i _ => some i
  | .log2 i _ => some i
  | .log3 i => some i
  | .log4 i => some i
  | _ => none

/-- the call thread `t` is in may still call queue-owning sink `i` -/
def MayUse (S : Setup) (s : Many.St) (t : Tid) (i : Nat) : Prop :=
  (∃ q ∈ s.todo t, q.1 = i) ∨
  ∃ l k, loggerOf (s.sys.pc t) = some l ∧ (s.sys.sys.lgr l).sink = some k ∧ i ∈ leaves (S.snk k)

/-- no sink that a pending call may still use has been destroyed (the logger keeps its sink, C85, C93) -/
def SinksKept (S : Setup) (s : Many.St) : Prop := ∀ t i, MayUse S s t i → (s.leaf i).owner = none

end Lock
end Many
end Soralog
