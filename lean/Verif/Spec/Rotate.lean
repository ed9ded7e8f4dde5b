import Verif.Spec.FlushRequest
import Verif.Spec.Deliver
import Verif.Spec.ManyFair
/-!
# Terms used in the statements about rotation
-/
namespace Soralog
namespace SinkFull

/-- Every attempt to re-open the file succeeds. -/
def CanReopen (σ : Nat → Deed) : Prop := ∀ n t ch, σ n = .step t ch → ch.openOk = true

/-- How often the file has been re-opened so far: each time the contents of the file before become one that is finished. -/
def reopened (s : St) : Nat := s.gens.length

end SinkFull

namespace Many

/-- Queue-owning sink `i` is this sink, or is below this multisink at any depth. -/
inductive Under (i : Nat) : Sink.Snk → Prop where
  | self : Under i (.leaf i)
  | sub {lv : Level} {subs : List Sink.Snk} {s : Sink.Snk} (hs : s ∈ subs) (h : Under i s) : Under i (.multi lv subs)

namespace Lock

/-- Between these two moments thread `t`, being in no call, calls `rotate()` of sink `k`. -/
def CallsRotate (S : Setup) (t : Tid) (k : Nat) (s s' : St) : Prop :=
  t ≠ SinkConc.workerTid ∧ AtRest s t ∧
    s' = { s with prog := { s.prog with todo := upd s.prog.todo t (Direct.rotate.plan S k), said := s.prog.said ++ Direct.rotate.said t k } }

/-- No exchange of a sink fails for no reason. -/
def NoSpuriousFailure (σ : Nat → Deed) : Prop := ∀ n i t ch, σ n = .leaf i t ch → ch.casOk = true

/-- What goes on in the execution is listed under its own name: `start` stands for the start of a call only. -/
def StartsAreCalls (S : Setup) (σ : Nat → Deed) (R : Nat → St) : Prop := ∀ n, σ n = .start → R (n + 1) = R n ∨ ¬ Go S (R n) (R (n + 1))

/-- Every attempt to re-open a file succeeds. -/
def CanReopen (σ : Nat → Deed) : Prop := ∀ n i t ch, σ n = .leaf i t ch → ch.openOk = true

end Lock
end Many
end Soralog
