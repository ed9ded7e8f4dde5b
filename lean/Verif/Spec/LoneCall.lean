import Verif.Spec.Many
import Verif.Spec.FlushRequest
/-!
# Terms used in the statements about log calls that have a sink for themselves
-/
namespace Soralog
namespace Many
open Spec

/-- Thread `t` called logger `i` with `r` in state `s0`; since then the execution went on to `s`, the thread started no other call, and
nobody else touched queue-owning sink `k` (in particular its worker slept) or changed logger `i`; everything else may have happened
elsewhere.  The exchanges of the thread in sink `k` do not fail for no reason (`compare_exchange_weak` may). -/
inductive LoneCall (S : Setup) (t : Tid) (i : Nat) (r : System.Conc.Rec) (k : Nat) (s0 : St) : St → Prop
  | start (ht : t ≠ SinkConc.workerTid) (hf : Free s0 t) (hi : s0.sys.pc t = .idle) (ha : s0.sys.sys.alive i = true) :
      LoneCall S t i r k s0 (s0.after S t (s0.sys.goto t (.log1 i r)))
  /-- the thread goes on in the logger -/
  | system {s : St} (h : LoneCall S t i r k s0 s) (hb : s.sys.pc t ≠ .idle) (hf : Free s t) (sys' : System.Conc.St) (hm : Moves t s.sys sys') :
      LoneCall S t i r k s0 (s.after S t sys')
  /-- the thread enters a sink -/
  | enter {s : St} (h : LoneCall S t i r k s0 s) (j : Nat) (q : Req) (rest : List (Nat × Req)) (call : SinkConc.Call) (hd : s.todo t = (j, q) :: rest)
      (hf : ∀ j, quiet ((s.leaf j).pc t)) (hi : (s.leaf j).pc t = .idle) (ho : (s.leaf j).owner = none) (hs : Serves (S.leaf j) q call) :
      LoneCall S t i r k s0 { s with todo := upd s.todo t rest, leaf := upd s.leaf j (SinkFull.setPc (s.leaf j) t (SinkFull.startPC call)) }
  /-- the thread goes on in a sink -/
  | leaf {s : St} (h : LoneCall S t i r k s0 s) (j : Nat) (ch : SinkConc.Ch) (hc : j = k → ch.casOk = true) :
      LoneCall S t i r k s0 { s with leaf := upd s.leaf j (SinkFull.step (S.leaf j).conc (s.leaf j) t ch) }
  /-- anything else: it leaves sink `k`, logger `i` and what the thread has to do as they are -/
  | elsewhere {s s' : St} (h : LoneCall S t i r k s0 s) (he : Exec S s s') (hl : s'.leaf k = s.leaf k)
      (hg : s'.sys.sys.lgr i = s.sys.sys.lgr i) (hp : s'.sys.pc t = s.sys.pc t) (ht : s'.todo t = s.todo t) :
      LoneCall S t i r k s0 s'

/-- Nobody is inside sink `f`: its worker (if there is one) waits, the clients are outside. -/
def NobodyInside (f : SinkFull.St) : Prop := ∀ u, f.pc u = .idle ∨ f.pc u = .wWait ∨ f.pc u = .wExit

end Many
end Soralog
