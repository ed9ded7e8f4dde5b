import Verif.Spec.ManyLock
import Verif.Spec.Deliver
/-!
# Terms used in the statements about endless executions of a whole program
-/
namespace Soralog
namespace Many
namespace Lock
open SinkConc (workerTid)

/-- What happens next in the program: thread `t` makes the next step of its call of the logging system or of a logger, releases the mutex, ends
`configure`, enters the next sink its call has to go to; a thread inside sink `i` makes a step; something else happens (a thread starts a
call); nothing. -/
inductive Deed where
  | step (t : Tid)
  | unlock (t : Tid)
  | configured (t : Tid)
  | enter (t : Tid)
  | leaf (i : Nat) (t : Tid) (ch : SinkConc.Ch)
  | start
  | rest

/-- `s'` comes from `s` by this, under the usage rules of `Exec`. -/
def Does (S : Setup) (s : St) : Deed → St → Prop
  | .step t, s' => t ≠ workerTid ∧ Free s.prog t ∧ s.busy ≠ some t ∧ s.prog.sys.pc t ≠ .idle ∧ (locksAt (s.prog.sys.pc t) = true → CanLock s t) ∧
      s' = { s with prog := s.prog.after S t (System.Conc.step s.prog.sys t), busy := if locksAt (s.prog.sys.pc t) then some t else s.busy }
  | .unlock t, s' => Free s.prog t ∧ s.busy = some t ∧ s' = { s with busy := none }
  | .configured t, s' => Free s.prog t ∧ s.prog.sys.pc t = .idle ∧ s.conf = some t ∧ s.busy ≠ some t ∧ s' = { s with conf := none }
  | .enter t, s' => ∃ i q rest call, t ≠ workerTid ∧ s.prog.todo t = (i, q) :: rest ∧ (∀ j, quiet ((s.prog.leaf j).pc t)) ∧ (s.prog.leaf i).pc t = .idle ∧
      (s.prog.leaf i).owner = none ∧ Serves (S.leaf i) q call ∧
      s' = { s with prog := { s.prog with todo := upd s.prog.todo t rest, leaf := upd s.prog.leaf i (SinkFull.setPc (s.prog.leaf i) t (SinkFull.startPC call)) } }
  | .leaf i t ch, s' => s' = { s with prog := { s.prog with leaf := upd s.prog.leaf i (SinkFull.step (S.leaf i).conc (s.prog.leaf i) t ch) } }
  | .start, s' => Exec S s s'
  | .rest, s' => s' = s

/-- the doings a scheduler must not put off for ever -/
def Deed.due : Deed → Bool
  | .step _ | .unlock _ | .configured _ | .enter _ => true
  | _ => false

/-- An endless execution of the program under a (weakly) fair scheduler, from any state the program can be in: what stays possible for a thread is
done some time (so a thread that could take the mutex at every moment gets it), and a thread inside a sink, a worker included, gets to run again.
Nothing is assumed about time. -/
structure Endless (S : Setup) (σ : Nat → Deed) (R : Nat → St) : Prop where
  start : Reach S (R 0)
  next : ∀ n, Does S (R n) (σ n) (R (n + 1))
  fair : ∀ n d, d.due = true → (∀ m, n ≤ m → ∃ s', Does S (R m) d s') → ∃ m, n ≤ m ∧ σ m = d
  inside : ∀ n i t, SinkFull.Running (((R n).prog.leaf i).pc t) → ∃ m ch, n ≤ m ∧ σ m = .leaf i t ch

/-- The spin locks of the queues starve nobody. -/
def NobodyStarves (R : Nat → St) : Prop := ∀ i, SinkFull.NobodyStarves fun n => (R n).prog.leaf i

/-- No wait of a worker lasts for ever. -/
def WaitsEnd (R : Nat → St) : Prop := ∀ i, SinkFull.WaitsEnd fun n => (R n).prog.leaf i

/-- Stores to the flags of the sinks become visible: from some moment on the workers' loads return the newest values. -/
def StoresSeen (σ : Nat → Deed) : Prop := ∃ N, ∀ n, N ≤ n → ∀ i t ch, σ n = .leaf i t ch → ch.newest = true

/-- From number `N` on nobody starts a call. -/
def NoMoreCalls (σ : Nat → Deed) (N : Nat) : Prop := ∀ n, N ≤ n → σ n ≠ .start

end Lock
end Many
end Soralog
