import Verif.Model.SinkFull
/-!
# A sink whose output operations can fail

`Model/SinkFull.lean` assumes that an open stream takes every byte.  Here each operation on the stream -- `write`, `flush`, the closing of a file -- can
fail at any time, as on a full disk, and succeed again later.  The code of the sinks never looks at the state of the stream (file:204-241,
console:300-318), so the rest of the sink does what it does in `SinkFull`; only what becomes of the bytes is different.  The fields `dev`, `sbuf` and
`gens` of the sink are here what a stream without failures would have received.

By the rules of the C++ library: a failing operation sets `badbit`; `write` and `flush` are unformatted output functions and do nothing on a stream
that is not good; nothing clears the bit; an `ofstream` that could not be opened is not good; the closing of a file passes on what the buffer still
holds, whatever the state of the stream.  What a failing operation has passed on before it failed, and what it leaves in the buffer, is not
specified: the model allows any number of bytes.
-/
namespace Soralog
namespace FailingStream

open SinkConc (Cfg Ch Call)

/-- what the environment does to an operation of the stream (no code of its own) -/
structure Io where
  /-- does the operation fail? -/
  fails : Bool
  /-- if so: how many of the bytes in question have been passed on before -/
  passed : Nat
  /-- if so: how many of them have been dropped from the buffer -/
  dropped : Nat

/-- One generation of a file (or the terminal) as the operating system has it. [file:90, 224-241, console:152] -/
structure File where
  /-- received while the stream was good -/
  data : Text
  /-- received when the stream was closed after a failure: part of what was left in the buffer -/
  again : Text
  /-- an operation on this generation has failed (`badbit`), or it could not be opened -/
  failed : Bool

/-- The stream `out_` and the files it had before. [sink_to_file.hpp:55, sink_to_console.hpp:54] -/
structure Out where
  /-- earlier generations -/
  closed : List File
  /-- the present one -/
  now : File
  /-- taken by the stream and not passed on -/
  pend : Text

/-- file:90, console:152: a new stream, opened or not -/
def Out.new (opened : Bool) : Out := ⟨[], ⟨[], [], !opened⟩, []⟩

/-- `out_.write`, file:209, console:305; `spill` bytes of what is in the buffer then leave the process at once -/
def Out.write (x : Out) (bytes : Text) (spill : Nat) (io : Io) : Out :=
  let all := x.pend ++ bytes
  if x.now.failed then x
  else if io.fails then
    { x with now := { x.now with data := x.now.data ++ all.take io.passed, failed := true }, pend := all.drop io.dropped }
  else { x with now := { x.now with data := x.now.data ++ all.take spill }, pend := all.drop spill }

/-- `out_.flush()`, file:217, console:313 -/
def Out.sync (x : Out) (io : Io) : Out :=
  if x.now.failed then x
  else if io.fails then
    { x with now := { x.now with data := x.now.data ++ x.pend.take io.passed, failed := true }, pend := x.pend.drop io.dropped }
  else { x with now := { x.now with data := x.now.data ++ x.pend }, pend := [] }

/-- the file is closed: in the destructor of the sink (file:110), or of the old stream after a rotation (file:241) -/
def Out.close (x : Out) (io : Io) : Out :=
  let sent := if io.fails then x.pend.take io.passed else x.pend
  { x with now := if x.now.failed then { x.now with again := x.now.again ++ sent }
                  else { x.now with data := x.now.data ++ sent, failed := io.fails },
           pend := [] }

/-- a successful re-opening: `std::swap(out_, out)`, then the old stream is closed, file:239-241 -/
def Out.reopen (x : Out) (io : Io) : Out :=
  { closed := x.closed ++ [(x.close io).now], now := ⟨[], [], false⟩, pend := [] }

/-- sink and stream -/
structure St where
  sink : SinkFull.St
  out : Out

/-- what a step of the sink does to the stream. [file:204-241, 110, console:300-316] -/
def outStep (c : Cfg) (s : SinkFull.St) (t : Tid) (ch : Ch) (io : Io) (x : Out) : Out :=
  match s.pc t with
  | .write _ (some e) => x.write (c.render e) ch.spill io
  | .sync _ => x.sync io
  | .reopen _ => if ch.openOk then x.reopen io else x
  | .dEnd => if c.isFile then x.close io else x
  | _ => x

/-- file:91-98, console:155-157 -/
def init (c : Cfg) (opened : Bool) : St := ⟨SinkFull.init c opened, .new opened⟩

/-- One action of a schedule; the actions are those of `SinkFull.Exec`. [sink.hpp:117-170, file:99-277, console:160-349] -/
inductive Exec (c : Cfg) : St → St → Prop where
  | call (s : St) (t : Tid) (h : t ≠ SinkConc.workerTid) (hi : s.sink.pc t = .idle) (hd : s.sink.owner = none) (call : Call) :
      Exec c s ⟨SinkFull.setPc s.sink t (SinkFull.startPC call), s.out⟩
  | step (s : St) (t : Tid) (ch : Ch) (io : Io) : Exec c s ⟨SinkFull.step c s.sink t ch, outStep c s.sink t ch io s.out⟩
  | destroy (s : St) (t : Tid) (h : t ≠ SinkConc.workerTid) (hd : s.sink.owner = none)
      (hi : ∀ u, u ≠ SinkConc.workerTid → s.sink.pc u = .idle) :
      Exec c s ⟨SinkFull.setPc { s.sink with owner := some t } t .dStart, s.out⟩

/-- States reachable from a newly constructed sink. [file:73-277, console:137-349] -/
inductive Reach (c : Cfg) (opened : Bool) : St → Prop where
  | init : Reach c opened (init c opened)
  | next {s s' : St} : Reach c opened s → Exec c s s' → Reach c opened s'

end FailingStream
end Soralog
