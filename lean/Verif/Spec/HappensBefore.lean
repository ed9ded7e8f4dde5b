import Verif.Spec.Queue
/-!
# Specification: happens-before and data races

A trace is the list of what threads do to shared memory, oldest first.  Flags are `std::atomic_flag`s with the default memory order:
`clear` is a release, a successful `test_and_set` an acquire.  Locations are accessed without atomics.
Happens-before is that of C++ (`[intro.races]`): order within a thread, the last `clear` of a flag before a successful `test_and_set` of it,
the end of a thread before the return of `join`, and - the rule of use for destructors - all calls of an object made before its destruction.
-/
namespace Soralog
namespace Race

/-- what a thread does: `F` are the flags (or mutexes), `L` the locations that are accessed without atomics -/
inductive GEv (F L : Type) where
  | acquire (f : F)
  | release (f : F)
  | read (x : L)
  | write (x : L)
  /-- the destructor starts: all calls by other threads of the program have returned and happen before -/
  | destroy
  /-- `join` of the worker thread returns -/
  | join
deriving DecidableEq

abbrev GTrace (F L : Type) := List (Tid × GEv F L)

variable {F L : Type}

/-- the event number `i` happens before the event number `j`; `w` is the worker thread -/
inductive HB (w : Tid) (tr : GTrace F L) : Nat → Nat → Prop
  | thread {i j : Nat} {t : Tid} {a b : GEv F L} (hij : i < j) (hi : tr[i]? = some (t, a)) (hj : tr[j]? = some (t, b)) : HB w tr i j
  | flag {i j : Nat} {t u : Tid} {f : F} (hij : i < j) (hi : tr[i]? = some (t, .release f)) (hj : tr[j]? = some (u, .acquire f))
      (hlast : ∀ k v, i < k → k < j → tr[k]? ≠ some (v, .release f)) : HB w tr i j
  | destroy {i j : Nat} {t u : Tid} {a : GEv F L} (hij : i < j) (hi : tr[i]? = some (t, a)) (ht : t ≠ w) (hj : tr[j]? = some (u, .destroy)) :
      HB w tr i j
  | join {i j : Nat} {u : Tid} {a : GEv F L} (hij : i < j) (hi : tr[i]? = some (w, a)) (hj : tr[j]? = some (u, .join)) : HB w tr i j
  | trans {i j k : Nat} (h1 : HB w tr i j) (h2 : HB w tr j k) : HB w tr i k

/-- two accesses of one location, at least one of them a write -/
def Conflict (a b : GEv F L) : Prop :=
  ∃ x, (a = .write x ∧ (b = .write x ∨ b = .read x)) ∨ (a = .read x ∧ b = .write x)

/-- a data race: two conflicting accesses by different threads, the first of which does not happen before the second -/
def Races (w : Tid) (tr : GTrace F L) (i j : Nat) : Prop :=
  ∃ t u a b, i < j ∧ tr[i]? = some (t, a) ∧ tr[j]? = some (u, b) ∧ t ≠ u ∧ Conflict a b ∧ ¬ HB w tr i j

/-- there is no data race: of two conflicting accesses by different threads, one happens before the other -/
def RaceFree (w : Tid) (tr : GTrace F L) : Prop :=
  ∀ i j t u a b, i < j → tr[i]? = some (t, a) → tr[j]? = some (u, b) → t ≠ u → Conflict a b → HB w tr i j

/-! ### queue and sinks -/

/-- the flags: `busy_` of the queue, `busy` of a slot, `flush_in_progress_` of a sink -/
inductive Flag where
  | lock
  | node (k : Nat)
  | flush
deriving DecidableEq

/-- what is accessed without atomics: the element in a slot, the staging buffer, the output stream -/
inductive Loc where
  | slot (k : Nat)
  | staging
  | stream
deriving DecidableEq

abbrev Ev := GEv Flag Loc
abbrev Trace := GTrace Flag Loc

/-! ### logging system -/

/-- the mutex of the logging system -/
inductive Mutex where
  | mutex
deriving DecidableEq

/-- `level_`, `sink_` and the other members of the `i`-th logger or group object, the tables of the system -/
inductive Field where
  | loggerLevel (i : Nat)
  | loggerSink (i : Nat)
  | loggerRest (i : Nat)
  | groupLevel (g : Nat)
  | groupSink (g : Nat)
  | groupRest (g : Nat)
  | tables
deriving DecidableEq

abbrev SysEv := GEv Mutex Field
abbrev SysTrace := GTrace Mutex Field

/-- the event number `n`, by thread `t`, is made while `t` holds the mutex -/
def Locked (tr : SysTrace) (n : Nat) (t : Tid) : Prop :=
  ∃ k, k < n ∧ tr[k]? = some (t, .acquire .mutex) ∧ ∀ m, k < m → m < n → tr[m]? ≠ some (t, .release .mutex)

/-- Every read without the mutex comes after the last write of its location by another thread, and after a call by the reading thread that has taken
the mutex since. -/
def Settled (tr : SysTrace) : Prop :=
  ∀ n t x, tr[n]? = some (t, .read x) → ¬ Locked tr n t → ∀ m u, tr[m]? = some (u, .write x) → u ≠ t →
    ∃ k, m < k ∧ k < n ∧ tr[k]? = some (t, .acquire .mutex)

end Race
end Soralog
