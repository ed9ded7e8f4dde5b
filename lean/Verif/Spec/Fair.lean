import Verif.Model.Ring
import Verif.Model.SinkFull
/-!
# Terms used in the statements about endless executions of the queue and of a sink

An endless execution is an arbitrary infinite sequence of actions.  Nothing here refers to how the queue works.
-/
namespace Soralog
namespace Ring
variable {T : Type}

/-- The state after the first `n` actions of the endless execution `σ` that starts in `s`. -/
def runFor (s : St T) (σ : Nat → Act T) : Nat → St T
  | 0 => s
  | n + 1 => act (runFor s σ n) (σ n)

/-- Thread `t` is inside a call. -/
def Inside (s : St T) (t : Tid) : Prop := s.pc t ≠ .idle

/-- The scheduler is fair and the users give back what they got: a thread that is inside a call gets to run again, and while references to
elements are alive some reference is destroyed sooner or later. -/
structure FairRun (s : St T) (σ : Nat → Act T) : Prop where
  runs : ∀ n t, Inside (runFor s σ n) t → ∃ m, n ≤ m ∧ σ m = .step t
  released : ∀ n, (runFor s σ n).refs ≠ [] → ∃ m i, n ≤ m ∧ σ m = .drop i ∧ i < (runFor s σ m).refs.length

/-- The action number `n` makes a call of thread `t` return. -/
def ReturnsAt (s : St T) (σ : Nat → Act T) (n : Nat) (t : Tid) : Prop :=
  ∃ r, (runFor s σ (n + 1)).log = (runFor s σ n).log ++ [.ret t r]

end Ring

/-- What happens next in an execution of a sink: a client starts a call, a thread takes a step, a client starts the destructor, or
nothing. -/
inductive Deed where
  | call (t : Tid) (k : SinkConc.Call)
  | step (t : Tid) (ch : SinkConc.Ch)
  | destroy (t : Tid)
  | rest

namespace SinkConc

/-- the first thing a call does -/
def firstPC : Call → PC
  | .push e => .put e
  | .flush => .enter .done
  | .asyncFlush => .async
  | .rotate => .rotate

/-- `s'` comes from `s` by this, under the usage rules of `Exec`. -/
def Does (c : Cfg) (s : St) : Deed → St → Prop
  | .call t k, s' => t ≠ workerTid ∧ s.pc t = .idle ∧ s.owner = none ∧ s' = setPc s t (firstPC k)
  | .step t ch, s' => s' = step c s t ch
  | .destroy t, s' => t ≠ workerTid ∧ s.owner = none ∧ (∀ u, u ≠ workerTid → s.pc u = .idle) ∧
      s' = setPc { s with owner := some t } t .dStart
  | .rest, s' => s' = s

/-- inside a call, the destructor or the worker's loop -/
def Running (p : PC) : Prop := p ≠ .idle ∧ p ≠ .wExit ∧ p ≠ .dead

/-- An endless execution under a fair scheduler, from any state a sink can be in: a thread that has something to do gets to run again.
Nothing is assumed about time: nothing says that the worker's waits end. -/
structure Endless (c : Cfg) (o : Bool) (σ : Nat → Deed) (R : Nat → St) : Prop where
  start : Reach c o (R 0)
  next : ∀ n, Does c (R n) (σ n) (R (n + 1))
  fair : ∀ n t, Running ((R n).pc t) → ∃ m ch, n ≤ m ∧ σ m = .step t ch

end SinkConc

namespace SinkFull
open SinkConc (Cfg)

/-- `s'` comes from `s` by this, under the usage rules of `Exec`; the queue is the one that is written. -/
def Does (c : Cfg) (s : St) : Deed → St → Prop
  | .call t k, s' => t ≠ SinkConc.workerTid ∧ s.pc t = .idle ∧ s.owner = none ∧ s' = setPc s t (startPC k)
  | .step t ch, s' => s' = step c s t ch
  | .destroy t, s' => t ≠ SinkConc.workerTid ∧ s.owner = none ∧ (∀ u, u ≠ SinkConc.workerTid → s.pc u = .idle) ∧
      s' = setPc { s with owner := some t } t .dStart
  | .rest, s' => s' = s

/-- inside a call, the destructor or the worker's loop -/
def Running (p : PC) : Prop := p ≠ .idle ∧ p ≠ .wExit ∧ p ≠ .dead

/-- An endless execution under a fair scheduler, from any state a sink can be in: a thread that has something to do gets to run again.
Nothing is assumed about time: nothing says that the worker's waits end. -/
structure Endless (c : Cfg) (o : Bool) (σ : Nat → Deed) (R : Nat → St) : Prop where
  start : Reach c o (R 0)
  next : ∀ n, Does c (R n) (σ n) (R (n + 1))
  fair : ∀ n t, Running ((R n).pc t) → ∃ m ch, n ≤ m ∧ σ m = .step t ch

/-- waiting for the spin lock of the queue -/
def AtLock : Ring.PC Event → Prop
  | .putSpin _ | .getSpin | .obsSpin _ => True
  | _ => False

/-- The spin lock of the queue starves nobody: a thread that waits for it gets it sooner or later. -/
def NobodyStarves (R : Nat → St) : Prop := ∀ n t, AtLock ((R n).ring.pc t) → ∃ m, n ≤ m ∧ ¬ AtLock ((R m).ring.pc t)

/-- Client `t` is inside a call of `push`, `flush`, `async_flush` or `rotate`. -/
def InCall (s : St) (t : Tid) : Prop := t ≠ SinkConc.workerTid ∧ s.owner = none ∧ s.pc t ≠ .idle

/-- The action number `n` makes a call of client `t` return. -/
def ReturnsAt (R : Nat → St) (n : Nat) (t : Tid) : Prop := t ≠ SinkConc.workerTid ∧ (R n).pc t ≠ .idle ∧ (R (n + 1)).pc t = .idle

/-- The destructor has been started by client `d`. -/
def Destroying (s : St) (d : Tid) : Prop := s.owner = some d

/-- The destructor has finished. -/
def Destroyed (s : St) (d : Tid) : Prop := s.pc d = .dead

/-- Stores to the sink's flags become visible: from some moment on the worker's loads return the newest value. -/
def StoresSeen (σ : Nat → Deed) : Prop := ∃ N, ∀ n, N ≤ n → ∀ t ch, σ n = .step t ch → ch.newest = true

end SinkFull
end Soralog
