import Verif.Model.FailingStream
import Verif.Spec.Many
/-!
# Terms for C106: failing output operations
-/
namespace Soralog
namespace FailingStream

open SinkConc (Cfg Ch)

/-- `f` is what became of `bytes`, all the bytes given to the stream while this file was in use: a beginning of them, perhaps followed -- only if an
operation failed -- by a part of them sent when the file was closed; and exactly all of them if nothing failed. -/
structure Keeps (f : File) (bytes : Text) : Prop where
  beginning : f.data <+: bytes
  again : f.again <:+: bytes
  complete : f.failed = false → f.data = bytes ∧ f.again = []

/-- the whole contents of a file -/
def File.contents (f : File) : Text := f.data ++ f.again

/-- an execution of any length in which no re-opening of the file succeeds -/
inductive WithoutReopen (c : Cfg) : St → St → Prop where
  | refl (s : St) : WithoutReopen c s s
  | next {s s' s'' : St} : WithoutReopen c s s' → Exec c s' s'' → s''.out.closed = s'.out.closed → WithoutReopen c s s''

/-- an execution of any length in which no operation of the stream fails -/
inductive WithoutFailure (c : Cfg) : St → St → Prop where
  | refl (s : St) : WithoutFailure c s s
  | call {s s' : St} (t : Tid) (h : t ≠ SinkConc.workerTid) (hi : s'.sink.pc t = .idle) (hd : s'.sink.owner = none) (call : SinkConc.Call) :
      WithoutFailure c s s' → WithoutFailure c s ⟨SinkFull.setPc s'.sink t (SinkFull.startPC call), s'.out⟩
  | step {s s' : St} (t : Tid) (ch : Ch) (io : Io) (hio : io.fails = false) :
      WithoutFailure c s s' → WithoutFailure c s ⟨SinkFull.step c s'.sink t ch, outStep c s'.sink t ch io s'.out⟩
  | destroy {s s' : St} (t : Tid) (h : t ≠ SinkConc.workerTid) (hd : s'.sink.owner = none)
      (hi : ∀ u, u ≠ SinkConc.workerTid → s'.sink.pc u = .idle) :
      WithoutFailure c s s' → WithoutFailure c s ⟨SinkFull.setPc { s'.sink with owner := some t } t .dStart, s'.out⟩

end FailingStream
end Soralog
