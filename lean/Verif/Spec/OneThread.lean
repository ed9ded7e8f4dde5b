import Verif.Model.ManyDoc
import Verif.Spec.Delivery
/-!
# Terms used in the statements about calls that do not overlap
-/
namespace Soralog
namespace OneThread
open Sink (Leaf World)

/-- What a sink of the model with several threads shows between calls. -/
structure View where
  put : List Event
  taken : Nat
  size : Nat
  needFlush : Bool
  needRotate : Bool
  isOpen : Bool
  dev : Text
  sbuf : Text
  gens : List Text
  calls : List (Nat × Text)

/-- the contents of file number `g` according to the model with one thread -/
def fileText (l : Leaf) (g : Nat) : Text := (l.written.filter fun x => decide (x.1 = g)).flatMap (·.2)

/-- Sink `l` of the model with one thread and this view of a sink of the model with several threads agree: the same events queued and accepted
so far, the same account, requests and stream, the same contents of every file (of the console) or the same calls of `syslog()`; `k` exchanges
have been executed and the file has been re-opened, or tried to, `j` times. -/
structure Same (cf : Sink.Cfg) (w : World) (l : Leaf) (v : View) (k j : Nat) : Prop where
  cfg : l.cfg = cf
  world : l.w = w
  queue : l.queue = v.put.drop v.taken
  accepted : l.accepted = v.put
  size : l.size = v.size
  needFlush : l.needFlush = v.needFlush
  needRotate : l.needRotate = v.needRotate
  isOpen : l.isOpen = v.isOpen
  files : cf.kind ≠ .syslog → v.gens ++ [v.dev ++ v.sbuf] = (List.range (l.gen + 1)).map (fileText l)
  upTo : cf.kind ≠ .syslog → ∀ x ∈ l.written, x.1 ≤ l.gen
  calls : cf.kind = .syslog → v.calls = l.written
  exchanges : l.casCount = k
  openings : l.openCount = j

end OneThread

namespace SinkConc

/-- no code of its own -/
def St.view (s : St) : OneThread.View :=
  ⟨s.put, s.taken, s.size, s.needFlush, s.needRotate, s.isOpen, s.dev, s.sbuf, s.gens, s.calls⟩

/-- The world answers the exchanges and re-openings: the `k`-th exchange and the `j`-th re-opening are the next ones; `k'`, `j'` after the step
of a thread that is at `p`.  A worker that sleeps goes on sleeping (waking up is what starts a pass). -/
def Answers (c : Cfg) (w : Sink.World) (p : PC) (ch : Ch) (k j k' j' : Nat) : Prop :=
  match p with
  | .casFlush _ => ch.casOk = w.casOk k ∧ k' = k + 1 ∧ j' = j
  | .casRotate _ => if c.isFile then ch.casOk = w.casOk k ∧ k' = k + 1 ∧ j' = j else k' = k ∧ j' = j
  | .reopen _ => ch.openOk = w.openOk j ∧ k' = k ∧ j' = j + 1
  | .wWait => ch.timeout = false ∧ k' = k ∧ j' = j
  | _ => k' = k ∧ j' = j

end SinkConc

namespace SinkFull

/-- the events that are or were in the queue, and how many of them are not in it any more -/
def St.view (f : St) : OneThread.View :=
  ⟨Spec.putsOf none f.ring.log, (Spec.putsOf none f.ring.log).length - f.ring.buf.size, f.size, f.needFlush, f.needRotate, f.isOpen, f.dev, f.sbuf,
    f.gens, f.calls⟩

/-- as `SinkConc.Answers` -/
def Answers (c : SinkConc.Cfg) (w : Sink.World) (p : PC) (ch : SinkConc.Ch) (k j k' j' : Nat) : Prop :=
  match p with
  | .casFlush _ => ch.casOk = w.casOk k ∧ k' = k + 1 ∧ j' = j
  | .casRotate _ => if c.isFile then ch.casOk = w.casOk k ∧ k' = k + 1 ∧ j' = j else k' = k ∧ j' = j
  | .reopen _ => ch.openOk = w.openOk j ∧ k' = k ∧ j' = j + 1
  | .wWait => ch.timeout = false ∧ k' = k ∧ j' = j
  | _ => k' = k ∧ j' = j

end SinkFull

namespace Many
open Sink (World Heap Snk)

/-- The call of sink `f` that serves a request: an event is made with the clock and the thread as the world gives them for the next event of
this sink. -/
def callNow (w : World) (c : LeafCfg) (f : SinkFull.St) : Req → SinkConc.Call
  | .push m => .push (mkEvent (w.env (Spec.putsOf none f.ring.log).length) c.ti c.maxLen m)
  | .flush => .flush
  | .asyncFlush => .asyncFlush
  | .rotate => .rotate

/-- Only thread `t` makes steps, inside the sinks it has to call, and the worlds of the sinks answer; `k`, `j`: the exchanges and re-openings
of each sink so far. -/
inductive Alone (S : Setup) (w : Nat → World) (t : Tid) : St → (Nat → Nat) → (Nat → Nat) → St → (Nat → Nat) → (Nat → Nat) → Prop where
  | refl (s : St) (k j : Nat → Nat) : Alone S w t s k j s k j
  | enter {s s' : St} {k j k' j' : Nat → Nat} (i : Nat) (q : Req) (rest : List (Nat × Req)) (hd : s.todo t = (i, q) :: rest)
      (hq : ∀ n, quiet ((s.leaf n).pc t)) (hi : (s.leaf i).pc t = .idle) (ho : (s.leaf i).owner = none)
      (h : Alone S w t { s with todo := upd s.todo t rest, leaf := upd s.leaf i (SinkFull.setPc (s.leaf i) t (SinkFull.startPC (callNow (w i) (S.leaf i) (s.leaf i) q))) }
        k j s' k' j') : Alone S w t s k j s' k' j'
  | leaf {s s' : St} {k j k' j' : Nat → Nat} (i : Nat) (ch : SinkConc.Ch) (ki ji : Nat)
      (ha : SinkFull.Answers (S.leaf i).conc (w i) ((s.leaf i).pc t) ch (k i) (j i) ki ji)
      (h : Alone S w t { s with leaf := upd s.leaf i (SinkFull.step (S.leaf i).conc (s.leaf i) t ch) } (upd k i ki) (upd j i ji) s' k' j') :
      Alone S w t s k j s' k' j'

/-- What happens, one thing after the other: a thread calls a sink, the worker of a sink wakes up and makes a pass. -/
inductive Event1 where
  | call (t : Tid) (n : Nat) (d : Direct)
  | pass (i : Nat)

/-- Calls of sinks, made by any threads, and passes of workers, one after the other: each is over before the next one begins. -/
inductive OneByOne (S : Setup) (w : Nat → World) : St → (Nat → Nat) → (Nat → Nat) → List Event1 → St → (Nat → Nat) → (Nat → Nat) → Prop where
  | nil (s : St) (k j : Nat → Nat) : OneByOne S w s k j [] s k j
  | call {s s1 s' : St} {k j k1 j1 k' j' : Nat → Nat} {rest : List Event1} (t : Tid) (n : Nat) (d : Direct) (ht : t ≠ SinkConc.workerTid)
      (hf : Free s t) (hi : s.sys.pc t = .idle)
      (h : Alone S w t { s with todo := upd s.todo t (d.plan S n), said := s.said ++ d.said t n } k j s1 k1 j1) (hr : Free s1 t)
      (hrest : OneByOne S w s1 k1 j1 rest s' k' j') : OneByOne S w s k j (.call t n d :: rest) s' k' j'
  | pass {s s1 s' : St} {k j k1 j1 k' j' : Nat → Nat} {rest : List Event1} (i : Nat) (ch : SinkConc.Ch) (hp : (s.leaf i).pc SinkConc.workerTid = .wWait)
      (ht : ch.timeout = true)
      (h : Alone S w SinkConc.workerTid { s with leaf := upd s.leaf i (SinkFull.step (S.leaf i).conc (s.leaf i) SinkConc.workerTid ch) } k j s1 k1 j1)
      (hr : ∀ n, (s1.leaf n).pc SinkConc.workerTid = .wWait ∨ (s1.leaf n).pc SinkConc.workerTid = .wExit)
      (hrest : OneByOne S w s1 k1 j1 rest s' k' j') : OneByOne S w s k j (.pass i :: rest) s' k' j'

/-- The call in the model with one thread. -/
def performed (fuel : Nat) (snk : Snk) : Direct → Heap → Option Heap
  | .push m, h => snk.push fuel m h
  | .flush, h => some (snk.flush h)
  | .asyncFlush, h => some (snk.asyncFlush h)
  | .rotate, h => some (snk.rotate h)

/-- The same in the model with one thread: a pass of a worker is a flush of its sink. -/
def performedOne (fuel : Nat) (snk : Nat → Snk) : Event1 → Heap → Option Heap
  | .call _ n d, h => performed fuel (snk n) d h
  | .pass i, h => some ((Snk.leaf i).flush h)

def performedAll (fuel : Nat) (snk : Nat → Snk) : List Event1 → Heap → Option Heap
  | [], h => some h
  | x :: rest, h => (performedOne fuel snk x h).bind (performedAll fuel snk rest)

/-- the queue-owning sinks concerned -/
def Event1.sinks (snk : Nat → Snk) : Event1 → List Nat
  | .call _ n _ => Spec.leaves (snk n)
  | .pass i => [i]

/-- Every sink agrees with its counterpart in the model with one thread. -/
def Agree (cf : Nat → Sink.Cfg) (w : Nat → World) (h : Heap) (s : St) (k j : Nat → Nat) : Prop :=
  ∀ i, OneThread.Same (cf i) (w i) (h.leaf i) (s.leaf i).view (k i) (j i)

/-- A sink that has a queue and whose parameters do not make the arithmetic of the high-water mark overflow. -/
def Usual (cf : Sink.Cfg) : Prop := cf.kind ≠ .nowhere ∧ cf.maxBuffer < 2 ^ 62 ∧ 0 < cf.capacity

/-- Nobody is inside a call of a sink and the workers sleep or have ended. -/
def AtRest (s : St) : Prop := ∀ i u, (s.leaf i).pc u = .idle ∨ (s.leaf i).pc u = .wWait ∨ (s.leaf i).pc u = .wExit

end Many
end Soralog
