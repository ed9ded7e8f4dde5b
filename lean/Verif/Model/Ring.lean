import Verif.Spec.Queue
/-!
# Model of `soralog::CircularBuffer<T>` (include/soralog/circular_buffer.hpp)

A transition system.  Every atomic access of the C++ code is one step of one thread; any number of threads;
the schedule is an arbitrary list of actions.  All atomics of this class use the default (sequentially
consistent) memory order, so interleaving of atomic steps is the semantics.  The non-atomic accesses (element
construction and reads through a `NodeRef`) are separate steps; that they never race is a theorem (C02).
-/
namespace Soralog

/-- Point update of a function (used for per-thread and per-slot tables). [no code of its own] -/
def upd {α : Type} [DecidableEq α] {β : Type} (f : α → β) (a : α) (b : β) : α → β :=
  fun x => if x = a then b else f x

namespace Ring
open Spec (Call Ret Entry)

/-- The data members, circular_buffer.hpp:208-215, and the per-slot `Node` (30-46).
`item i = none` is raw storage whose element is not (or only partly) constructed.
Simplification: indices and sizes are `Nat` (they stay below the capacity, which is a `size_t`). -/
structure Buf (T : Type) where
  capacity : Nat
  size : Nat
  pushIdx : Nat
  popIdx : Nat
  /-- `busy_`, the spin lock -/
  busy : Bool
  /-- `Node::busy` of each slot -/
  nodeBusy : Nat → Bool
  /-- `Node::item_` of each slot -/
  item : Nat → Option T

/-- Program counter of a thread inside a member function; the comment gives the source line about to run. [circular_buffer.hpp:107-206] -/
inductive PC (T : Type) where
  | idle
  /-- 137 `busy_.test_and_set()` -/
  | putSpin (v : T)
  /-- 142 full check -/
  | putCheck (v : T)
  /-- 143-144 `busy_.clear(); return {}` -/
  | putFull (v : T)
  /-- 148-153 `node.busy.test_and_set()` -/
  | putCapture (v : T)
  /-- 154-155 `busy_.clear(); continue` -/
  | putRetry (v : T)
  /-- 159 advance `push_index_` -/
  | putAdvance (v : T) (slot : Nat)
  /-- 161-162 `assert(size_ < capacity_); ++size_` -/
  | putCount (v : T) (slot : Nat)
  /-- 164 `busy_.clear()` -/
  | putUnlock (v : T) (slot : Nat)
  /-- 167 `node.init(...)` starts -/
  | putInit (v : T) (slot : Nat)
  /-- 167-169 construction finishes, `return NodeRef(node)` -/
  | putBuild (v : T) (slot : Nat)
  /-- 175 `busy_.test_and_set()` -/
  | getSpin
  /-- 180 empty check -/
  | getCheck
  /-- 181-182 `busy_.clear(); return {}` -/
  | getEmpty
  /-- 186-191 `node.busy.test_and_set()` -/
  | getCapture
  /-- 192-193 `busy_.clear(); continue` -/
  | getRetry
  /-- 197 advance `pop_index_` -/
  | getAdvance (slot : Nat)
  /-- 199-200 `assert(size_ > 0); --size_` -/
  | getCount (slot : Nat)
  /-- 202-204 `busy_.clear(); return NodeRef(node)` -/
  | getUnlock (slot : Nat) (v : T)
  /-- 108/117/126 `busy_.test_and_set()` of `capacity`/`size`/`avail` -/
  | obsSpin (c : Call T)
  /-- 111/120/129 read -/
  | obsRead (c : Call T)
  /-- 112-113/121-122/130-131 `busy_.clear(); return ret` -/
  | obsUnlock (c : Call T) (n : Nat)

/-- A live `NodeRef` (48-79) that refers to a slot: who owns it, which slot, whether it came from `get`, and
(history variable, not in the code) the value the call produced. -/
structure Ref (T : Type) where
  owner : Tid
  slot : Nat
  fromGet : Bool
  val : T

/-- The object (circular_buffer.hpp:208-215) with the threads inside its member functions and the live `NodeRef`s (48-79). -/
structure St (T : Type) where
  buf : Buf T
  pc : Tid → PC T
  /-- all live `NodeRef`s of all threads -/
  refs : List (Ref T)
  /-- an out-of-range slot access, a division by zero, a failed `assert`, or a read of an unconstructed
  element has happened -/
  ub : Bool
  /-- history (not in the code): invocations, effects, returns, oldest first -/
  log : List (Entry T)

/-- Constructor 88-102: all slots free and unconstructed. -/
def init (T : Type) (capacity : Nat) : St T where
  buf := { capacity, size := 0, pushIdx := 0, popIdx := 0, busy := false,
           nodeBusy := fun _ => false, item := fun _ => none }
  pc := fun _ => .idle
  refs := []
  ub := false
  log := []

/-- What can happen next: a thread calls a member function, a thread executes one atomic step, or the
`i`-th live `NodeRef` is destroyed. [circular_buffer.hpp:60-64, 107-206] -/
inductive Act (T : Type) where
  | call (t : Tid) (c : Call T)
  | step (t : Tid)
  | drop (i : Nat)

/-- Entry of a member function (134, 173, 107, 116, 125).  A thread inside a call cannot call again. [circular_buffer.hpp:107, 116, 125, 134, 173] -/
def call {T : Type} (s : St T) (t : Tid) (c : Call T) : St T :=
  match s.pc t with
  | .idle =>
    let pc' : PC T := match c with
      | .put v => .putSpin v
      | .get => .getSpin
      | .size => .obsSpin .size
      | .avail => .obsSpin .avail
      | .capacity => .obsSpin .capacity
    { s with pc := upd s.pc t pc', log := s.log ++ [.inv t c] }
  | _ => s

/-- Destructor of `NodeRef`, 60-64: `node->busy.clear()`. -/
def drop {T : Type} (s : St T) (i : Nat) : St T :=
  match s.refs[i]? with
  | none => s
  | some r => { s with buf := { s.buf with nodeBusy := upd s.buf.nodeBusy r.slot false },
                       refs := s.refs.eraseIdx i }

/-- One atomic step of thread `t`.  The three loads of the full/empty checks (142, 180), made while the lock
is held, are one step. [circular_buffer.hpp:107-206] -/
def tick {T : Type} (s : St T) (t : Tid) : St T :=
  let b := s.buf
  let goto (pc : PC T) : Tid → PC T := upd s.pc t pc
  match s.pc t with
  | .idle => s
  -- put, 135-171
  | .putSpin v =>                                                        -- 137
    if b.busy then s else { s with buf := { b with busy := true }, pc := goto (.putCheck v) }
  | .putCheck v =>                                                       -- 142
    if b.popIdx = b.pushIdx ∧ b.size ≠ 0 then
      { s with pc := goto (.putFull v), log := s.log ++ [.lin t (.put v) .full] }
    else { s with pc := goto (.putCapture v) }
  | .putFull _ =>                                                        -- 143-144
    { s with buf := { b with busy := false }, pc := goto .idle, log := s.log ++ [.ret t .full] }
  | .putCapture v =>                                                     -- 148-153
    let slot := b.pushIdx
    if b.capacity ≤ slot then { s with ub := true }
    else if b.nodeBusy slot then { s with pc := goto (.putRetry v) }
    else { s with buf := { b with nodeBusy := upd b.nodeBusy slot true }, pc := goto (.putAdvance v slot) }
  | .putRetry v =>                                                       -- 154-155
    { s with buf := { b with busy := false }, pc := goto (.putSpin v) }
  | .putAdvance v slot =>                                                -- 159
    if b.capacity = 0 then { s with ub := true }
    else { s with buf := { b with pushIdx := (b.pushIdx + 1) % b.capacity }, pc := goto (.putCount v slot) }
  | .putCount v slot =>                                                  -- 161-162
    if b.size < b.capacity then
      { s with buf := { b with size := b.size + 1 }, pc := goto (.putUnlock v slot),
               log := s.log ++ [.lin t (.put v) .stored] }
    else { s with ub := true }
  | .putUnlock v slot =>                                                 -- 164
    { s with buf := { b with busy := false }, pc := goto (.putInit v slot) }
  | .putInit v slot =>                                                   -- 167, construction begins
    { s with buf := { b with item := upd b.item slot none }, pc := goto (.putBuild v slot) }
  | .putBuild v slot =>                                                  -- 167-169
    { s with buf := { b with item := upd b.item slot (some v) }, pc := goto .idle,
             refs := s.refs ++ [{ owner := t, slot, fromGet := false, val := v }],
             log := s.log ++ [.ret t .stored] }
  -- get, 173-206
  | .getSpin =>                                                          -- 175
    if b.busy then s else { s with buf := { b with busy := true }, pc := goto .getCheck }
  | .getCheck =>                                                         -- 180
    if b.pushIdx = b.popIdx ∧ b.size = 0 then
      { s with pc := goto .getEmpty, log := s.log ++ [.lin t .get .empty] }
    else { s with pc := goto .getCapture }
  | .getEmpty =>                                                         -- 181-182
    { s with buf := { b with busy := false }, pc := goto .idle, log := s.log ++ [.ret t .empty] }
  | .getCapture =>                                                       -- 186-191
    let slot := b.popIdx
    if b.capacity ≤ slot then { s with ub := true }
    else if b.nodeBusy slot then { s with pc := goto .getRetry }
    else { s with buf := { b with nodeBusy := upd b.nodeBusy slot true }, pc := goto (.getAdvance slot) }
  | .getRetry =>                                                         -- 192-193
    { s with buf := { b with busy := false }, pc := goto .getSpin }
  | .getAdvance slot =>                                                  -- 197
    if b.capacity = 0 then { s with ub := true }
    else { s with buf := { b with popIdx := (b.popIdx + 1) % b.capacity }, pc := goto (.getCount slot) }
  | .getCount slot =>                                                    -- 199-200
    if b.size = 0 then { s with ub := true }
    else
      match b.item slot with
      | none => { s with ub := true }
      | some v =>
        { s with buf := { b with size := b.size - 1 }, pc := goto (.getUnlock slot v),
                 log := s.log ++ [.lin t .get (.got v)] }
  | .getUnlock slot v =>                                                 -- 202-204
    { s with buf := { b with busy := false }, pc := goto .idle,
             refs := s.refs ++ [{ owner := t, slot, fromGet := true, val := v }],
             log := s.log ++ [.ret t (.got v)] }
  -- size / avail / capacity, 107-132
  | .obsSpin c =>
    if b.busy then s else { s with buf := { b with busy := true }, pc := goto (.obsRead c) }
  | .obsRead c =>
    let n := match c with
      | .size => b.size                                                  -- 120
      | .avail => b.capacity - b.size                                    -- 129
      | _ => b.capacity                                                  -- 111
    { s with pc := goto (.obsUnlock c n), log := s.log ++ [.lin t c (.num n)] }
  | .obsUnlock _ n =>
    { s with buf := { b with busy := false }, pc := goto .idle, log := s.log ++ [.ret t (.num n)] }

/-- One action. [circular_buffer.hpp:60-206] -/
def act {T : Type} (s : St T) : Act T → St T
  | .call t c => call s t c
  | .step t => tick s t
  | .drop i => drop s i

/-- A whole schedule. [circular_buffer.hpp:60-206] -/
def exec {T : Type} (s : St T) (as : List (Act T)) : St T := as.foldl act s

end Ring
end Soralog
