import Verif.Model.Many
import Verif.Spec.Delivery
import Verif.Spec.Queue
import Verif.Spec.LogCall
/-!
# Specification: what a program with many threads has to deliver
-/
namespace Soralog
namespace Many
open Spec

/-- two lists of the same length whose elements stand in relation one by one -/
inductive Matches {α β : Type} (rel : α → β → Prop) : List α → List β → Prop
  | nil : Matches rel [] []
  | cons {a : α} {b : β} {as : List α} {bs : List β} : rel a b → Matches rel as bs → Matches rel (a :: as) (b :: bs)

/-- `e` is an event constructed from the message `m` by a sink of this configuration: its text, name and level, cut to the sink's limits, with
some clock time and some thread (event.hpp:46-112, C07, C08) -/
def EventOf (c : LeafCfg) (e : Event) (m : Msg) : Prop := ∃ env : Env, e = mkEvent env c.ti c.maxLen m

/-- the levels of the queue-owning sinks -/
def Setup.level (S : Setup) (i : Nat) : Level := (S.leaf i).level

/-- The messages of thread `t` that queue-owning sink `i` has to accept, in order: each message the thread pushed, as often as there are paths
from the sink it was pushed to down to `i` all of whose filters admit it. -/
def addressed (S : Setup) (t : Tid) (i : Nat) (said : List Said) : List Msg :=
  (said.filter fun x => x.thread = t).flatMap fun x => List.replicate (deliveries (S.snk x.sink) S.level x.msg.level i) x.msg

/-- no sink of the program is a multisink with an empty list or contains one; every queue has room for at least one event -/
structure Setup.Sound (S : Setup) : Prop where
  full : ∀ k, Full (S.snk k)
  room : ∀ i, 0 < (S.leaf i).conc.capacity

/-- the events a sink has accepted, each with the thread that pushed it, in queue order -/
def acceptedBy (f : SinkFull.St) : List (Tid × Event) :=
  f.ring.log.filterMap fun x => match x with
    | .lin t (.put e) .stored => some (t, e)
    | _ => none

/-- Thread `t` is inside a call: of the logging system, of a logger or of a sink. -/
def Busy (s : St) (t : Tid) : Prop := s.sys.pc t ≠ .idle ∨ ¬ Free s t

/-- Thread `t` called logger `i` with `r` in state `s0`; since then the execution went on to `s`, and the call was not over before
the last step; `seen` are the states of the logging system since. -/
inductive Calling (S : Setup) (t : Tid) (i : Nat) (r : System.Conc.Rec) (s0 : St) : List System.Sys → St → Prop
  | start (ht : t ≠ SinkConc.workerTid) (hf : Free s0 t) (hi : s0.sys.pc t = .idle) (ha : s0.sys.sys.alive i = true) :
      Calling S t i r s0 [s0.sys.sys] (s0.after S t (s0.sys.goto t (.log1 i r)))
  | next {seen : List System.Sys} {s s' : St} (h : Calling S t i r s0 seen s) (hb : Busy s t) (he : Exec S s s') :
      Calling S t i r s0 (seen ++ [s'.sys.sys]) s'

end Many
end Soralog
