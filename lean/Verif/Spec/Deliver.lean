import Verif.Spec.Fair
/-!
# Terms used in the statements about what is written in the end
-/
namespace Soralog
namespace SinkFull

/-- No wait of the worker lasts for ever (each has a deadline, sink_to_file.cpp:258-262). -/
def WaitsEnd (R : Nat → St) : Prop :=
  ∀ n, (R n).pc SinkConc.workerTid = .wWait → ∃ m, n ≤ m ∧ (R m).pc SinkConc.workerTid ≠ .wWait

/-- The sink keeps being used: `push`, `flush` or `async_flush` is called again and again. -/
def KeepsBeingUsed (σ : Nat → Deed) : Prop := ∀ n, ∃ m t k, n ≤ m ∧ σ m = .call t k ∧ k ≠ .rotate

end SinkFull
end Soralog
