import Verif.Model.Event
/-!
# Model of include/soralog/util.hpp: numbers and names of threads

Any number of threads.  A thread is one life of a thread: `thread_local` objects of a new thread are new.  `size_t` is `Nat`: the
counter does not wrap (2^64 threads).
-/
namespace Soralog
namespace Thread

/-! ## numbers -/

/-- `tid_counter` and, per thread, `tid` (util.hpp:17-18); `pending` is the value `++tid_counter` has returned to a thread that has not
stored it in `tid` yet.  `returned` is the history of all results: thread and number, latest first. -/
structure Numbers where
  counter : Nat
  pending : Nat → Option Nat
  tid : Nat → Option Nat
  returned : List (Nat × Nat)

/-- util.hpp:17-18 -/
def Numbers.init : Numbers := { counter := 0, pending := fun _ => none, tid := fun _ => none, returned := [] }

/-- no code of its own -/
def upd {α : Type} (f : Nat → α) (t : Nat) (v : α) : Nat → α := fun u => if u = t then v else f u

/-- One step of a thread in `getThreadNumber`, util.hpp:16-20. -/
inductive NStep : Numbers → Numbers → Prop
  /-- `++tid_counter`: the thread calls the function for the first time, util.hpp:18 -/
  | bump (s : Numbers) (t : Nat) (h1 : s.tid t = none) (h2 : s.pending t = none) :
      NStep s { s with counter := s.counter + 1, pending := upd s.pending t (some (s.counter + 1)) }
  /-- `tid` is initialised, util.hpp:18 -/
  | keep (s : Numbers) (t v : Nat) (h : s.pending t = some v) :
      NStep s { s with pending := upd s.pending t none, tid := upd s.tid t (some v) }
  /-- `return tid`, util.hpp:19 -/
  | ret (s : Numbers) (t v : Nat) (h : s.tid t = some v) : NStep s { s with returned := (t, v) :: s.returned }

/-- util.hpp:16-20 -/
inductive NReach : Numbers → Prop
  | init : NReach .init
  | step {s s' : Numbers} (h : NReach s) (hs : NStep s s') : NReach s'

/-! ## names -/

/-- What the text functions of pthread see in a buffer: everything before the first NUL. [util.hpp:22-33] -/
def cstring (s : Text) : Text := s.takeWhile (· ≠ '\x00')

/-- Per thread: the name the operating system knows (any other code may set it; on Linux it has at most 15 characters) and the cached
`thr_name`, util.hpp:36-37. -/
structure Names where
  os : Nat → Text
  cache : Nat → Option Text

/-- `setThreadName(name)` called by thread `t`, util.hpp:22-33: 15 bytes are copied into a zeroed array of 16, which is passed as a C
string. -/
def setThreadName (s : Names) (t : Nat) (name : Text) : Names :=
  { s with os := upd s.os t (cstring (name.take 15)) }

/-- `getThreadName(array)` called by thread `t`, util.hpp:35-51: the first call fetches the name of the system into the array of 16
(zeroed before), later calls use that. -/
def getThreadName (s : Names) (t : Nat) : Names × Text :=
  match s.cache t with
  | some n => (s, n)
  | none =>
    let n := s.os t ++ List.replicate (16 - (s.os t).length) '\x00'
    ({ s with cache := upd s.cache t (some n) }, n)

/-- What can happen to the names. [util.hpp:22-51, event.hpp:55] -/
inductive NameOp where
  /-- other code gives thread `t` a name -/
  | rename (t : Nat) (name : Text)
  /-- thread `t` calls `setThreadName` -/
  | set (t : Nat) (name : Text)
  /-- thread `t` makes an event of a sink that shows names -/
  | event (t : Nat)
deriving DecidableEq, Repr

/-- The state after the operation, and the thread name in the event made by it: event.hpp:55-56 (`thread_name()` are the first
`strnlen(array, 15)` characters, event.hpp:131-133). -/
def nameStep (s : Names) : NameOp → Names × Option (Nat × Text)
  | .rename t n => ({ s with os := upd s.os t n }, none)
  | .set t n => (setThreadName s t n, none)
  | .event t =>
    let (s', a) := getThreadName s t
    (s', some (t, a.take (strnlen a 15)))

/-- a history; the results are the events, oldest first. [util.hpp:22-51] -/
def nameRun : Names → List NameOp → Names × List (Nat × Text)
  | s, [] => (s, [])
  | s, op :: ops =>
    let (s1, r) := nameStep s op
    let (s2, rs) := nameRun s1 ops
    (s2, r.toList ++ rs)

end Thread
end Soralog
