/-!
# Specification: a plain bounded FIFO queue and what "linearizable" means

Nothing in this file refers to the code of soralog.
-/
namespace Soralog

/-- Identity of a thread. -/
abbrev Tid := Nat

namespace Spec

/-- The calls a user can make on a bounded queue of `T`. -/
inductive Call (T : Type) where
  | put (v : T)
  | get
  | size
  | avail
  | capacity

/-- What such a call can answer. -/
inductive Ret (T : Type) where
  /-- `put` succeeded -/
  | stored
  /-- `put` refused: the queue is full -/
  | full
  /-- `get` succeeded with this element -/
  | got (v : T)
  /-- `get` refused: the queue is empty -/
  | empty
  /-- answer of `size`, `avail`, `capacity` -/
  | num (n : Nat)

/-- The sequential bounded FIFO queue: contents `q` (oldest first), at most `cap` elements. -/
def Queue.run {T : Type} (cap : Nat) (q : List T) : Call T → Ret T × List T
  | .put v => if q.length < cap then (.stored, q ++ [v]) else (.full, q)
  | .get =>
    match q with
    | [] => (.empty, [])
    | x :: xs => (.got x, xs)
  | .size => (.num q.length, q)
  | .avail => (.num (cap - q.length), q)
  | .capacity => (.num cap, q)

/-- One entry of a concurrent history: thread `t` calls, the call takes effect, the call returns. -/
inductive Entry (T : Type) where
  | inv (t : Tid) (c : Call T)
  | lin (t : Tid) (c : Call T) (r : Ret T)
  | ret (t : Tid) (r : Ret T)

/-- `Legal cap h q`: executing the calls of history `h`, one at a time and in the order in which they take
effect, on an initially empty bounded FIFO queue gives exactly the recorded answers and leaves contents `q`. -/
inductive Legal {T : Type} (cap : Nat) : List (Entry T) → List T → Prop where
  | nil : Legal cap [] []
  | inv {h q} (t : Tid) (c : Call T) : Legal cap h q → Legal cap (h ++ [.inv t c]) q
  | lin {h q} (t : Tid) (c : Call T) : Legal cap h q →
      Legal cap (h ++ [.lin t c (Queue.run cap q c).1]) (Queue.run cap q c).2
  | ret {h q} (t : Tid) (r : Ret T) : Legal cap h q → Legal cap (h ++ [.ret t r]) q

/-- Where a thread stands in its current call. -/
inductive Phase (T : Type) where
  | idle
  | called (c : Call T)
  | done (c : Call T) (r : Ret T)

/-- `Proto t h p`: in history `h` thread `t` makes its calls one after the other, each call takes effect
exactly once, between its invocation and its return, and returns the answer it got when it took effect;
at the end the thread is in phase `p`. -/
inductive Proto {T : Type} (t : Tid) : List (Entry T) → Phase T → Prop where
  | nil : Proto t [] .idle
  | inv {h} (c : Call T) : Proto t h .idle → Proto t (h ++ [.inv t c]) (.called c)
  | lin {h} (c : Call T) (r : Ret T) : Proto t h (.called c) → Proto t (h ++ [.lin t c r]) (.done c r)
  | ret {h} (c : Call T) (r : Ret T) : Proto t h (.done c r) → Proto t (h ++ [.ret t r]) .idle
  | otherInv {h p} (t' : Tid) (c : Call T) : t' ≠ t → Proto t h p → Proto t (h ++ [.inv t' c]) p
  | otherLin {h p} (t' : Tid) (c : Call T) (r : Ret T) : t' ≠ t → Proto t h p → Proto t (h ++ [.lin t' c r]) p
  | otherRet {h p} (t' : Tid) (r : Ret T) : t' ≠ t → Proto t h p → Proto t (h ++ [.ret t' r]) p

/-- The values put by successful `put`s of thread `t` (all threads if `none`), in the order they took effect. -/
def putsOf {T : Type} (t : Option Tid) (h : List (Entry T)) : List T :=
  h.filterMap fun
    | .lin t' (.put v) .stored => if t = none ∨ t = some t' then some v else none
    | _ => none

/-- The values returned by successful `get`s of all threads, in the order they took effect. -/
def getsOf {T : Type} (h : List (Entry T)) : List T :=
  h.filterMap fun
    | .lin _ .get (.got v) => some v
    | _ => none

end Spec
end Soralog
