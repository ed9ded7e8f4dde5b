import Verif.Spec.Fair
/-!
# Terms used in the statements about requested flushes
-/
namespace Soralog
namespace SinkFull
open SinkConc (Cfg)

/-- The exchanges do not fail for no reason (`compare_exchange_weak` may). -/
def NoSpuriousFailure (σ : Nat → Deed) : Prop := ∀ n t ch, σ n = .step t ch → ch.casOk = true

/-- What the operating system has been given: the files so far, and the one that is open. -/
def inTheSystem (s : St) : Text := s.gens.flatten ++ s.dev

/-- `s'` can come from `s` while any number of threads do nothing but call `flush()` and `async_flush()`, and the worker goes on. -/
inductive OnlyFlushes (c : Cfg) : St → St → Prop where
  | refl (s : St) : OnlyFlushes c s s
  | flush {s s' : St} (h : OnlyFlushes c s s') (t : Tid) (ht : t ≠ SinkConc.workerTid) (hi : s'.pc t = .idle) :
      OnlyFlushes c s (setPc s' t (startPC .flush))
  | asyncFlush {s s' : St} (h : OnlyFlushes c s s') (t : Tid) (ht : t ≠ SinkConc.workerTid) (hi : s'.pc t = .idle) :
      OnlyFlushes c s (setPc s' t (startPC .asyncFlush))
  | step {s s' : St} (h : OnlyFlushes c s s') (t : Tid) (ch : SinkConc.Ch) : OnlyFlushes c s (step c s' t ch)

/-- `s'` can come from `s` while any number of threads call `push`, `flush()` and `async_flush()` (nobody rotates or destroys the sink), and
the buffer of the stream never overflows. -/
inductive NoOverflow (c : Cfg) : St → St → Prop where
  | refl (s : St) : NoOverflow c s s
  | call {s s' : St} (h : NoOverflow c s s') (t : Tid) (ht : t ≠ SinkConc.workerTid) (hi : s'.pc t = .idle) (k : SinkConc.Call) (hk : k ≠ .rotate) :
      NoOverflow c s (setPc s' t (startPC k))
  | step {s s' : St} (h : NoOverflow c s s') (t : Tid) (ch : SinkConc.Ch) (hs : ch.spill = 0) : NoOverflow c s (step c s' t ch)

end SinkFull
end Soralog
