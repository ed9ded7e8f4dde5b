import Verif.Model.Wake
import Verif.Spec.Fair
/-! # Terms used in the statements about the worker's condition variable -/
namespace Soralog
namespace Wake
open SinkConc (Cfg Ch workerTid)

/-- An endless execution under a fair scheduler: a thread that has something to do gets to run again.  Nothing is assumed about time or
about the spin lock of the queue. -/
structure Endless (c : Cfg) (o : Bool) (σ : Nat → Deed) (R : Nat → St) : Prop where
  start : Reach c o (R 0)
  next : ∀ n, Does c (R n) (σ n) (R (n + 1))
  fair : ∀ n t, SinkFull.Running ((R n).sink.pc t) ∨ (R n).notifying t = true → ∃ m ch sp, n ≤ m ∧ σ m = .step t ch sp

/-- No wait of the worker ends because its deadline has passed. -/
def NoTimeouts (σ : Nat → Deed) : Prop := ∀ n ch sp, σ n = .step workerTid ch sp → ch.timeout = false

/-- There are no spurious wake-ups. -/
def NoSpurious (σ : Nat → Deed) : Prop := ∀ n t ch sp, σ n = .step t ch sp → sp = false

/-- Every load of the worker returns the newest value. -/
def NoStale (σ : Nat → Deed) : Prop := ∀ n t ch sp, σ n = .step t ch sp → ch.newest = true

/-- Stores become visible: from some moment on every load of the worker returns the newest value. -/
def StoresSeen (σ : Nat → Deed) : Prop := ∃ N, ∀ n, N ≤ n → ∀ t ch sp, σ n = .step t ch sp → ch.newest = true

/-- Deadlines pass: a worker that keeps waiting is found, sooner or later, to have waited long enough. -/
def DeadlinesPass (σ : Nat → Deed) (R : Nat → St) : Prop :=
  ∀ n, (∀ m, n ≤ m → (R m).sink.pc workerTid = .wWait) → ∃ m ch sp, n ≤ m ∧ (R m).asleep = true ∧ σ m = .step workerTid ch sp ∧ ch.timeout = true

end Wake
end Soralog
