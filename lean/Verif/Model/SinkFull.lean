import Verif.Model.SinkConc
/-!
# The concurrent sink on top of the real queue

`SinkConc` treats the operations of the queue as atomic.  Here the same sink is composed with the model of `CircularBuffer`
(`Model/Ring.lean`): `put`, `get` and `size` are entered, executed one atomic access at a time, interleaved with everything else, and
left; events are read through the `NodeRef` the call returned; its destruction is a step of its own.

Sources: include/soralog/sink.hpp:117-155, include/soralog/circular_buffer.hpp, src/impl/sink_to_file.cpp:91-277,
src/impl/sink_to_console.cpp:155-350, src/impl/sink_to_syslog.cpp:91-282.

Simplifications: those of `SinkConc`, except the atomicity of the queue.  The event a push will construct is chosen when the push starts
(the constructor runs inside `put`, circular_buffer.hpp:167, C07, C08).
-/
namespace Soralog
namespace SinkFull
open SinkConc (Cfg Ret Ch Call sysCalls)

/-- Program counter; the comments give the source line about to run (the file sink is cited, console:155-349 has the same lines). -/
inductive PC where
  | idle
  /-- sink.hpp:127, before the call of `events_.put` -/
  | put (e : Event)
  /-- inside `events_.put`, circular_buffer.hpp:134-171 -/
  | putIn (e : Event)
  /-- sink.hpp:136 `size_ += node->message().size()` -/
  | count
  /-- sink.hpp:139 destruction of the `NodeRef` -/
  | release
  /-- sink.hpp:145-149 -/
  | decide
  /-- `async_flush()`, file:112-119 -/
  | async
  /-- `rotate()`, file:246-249 -/
  | rotate
  /-- file:122 -/
  | enter (k : Ret)
  /-- file:136, before the call of `events_.get` -/
  | get (k : Ret)
  /-- inside `events_.get`, circular_buffer.hpp:173-206 -/
  | getIn (k : Ret)
  /-- file:137-200: the event is rendered, then `size_ -= …`, both through the `NodeRef` -/
  | uncount (k : Ret)
  /-- file:202 destruction of the `NodeRef`; the record of `e` is in the staging buffer -/
  | unref (k : Ret) (e : Event)
  /-- file:204-211 -/
  | write (k : Ret) (e : Option Event)
  /-- file:213-216 -/
  | casFlush (k : Ret)
  /-- file:217 -/
  | sync (k : Ret)
  /-- file:224-226 -/
  | casRotate (k : Ret)
  /-- file:227-240 -/
  | reopen (k : Ret)
  /-- file:243 -/
  | leave (k : Ret)
  /-- syslog:145-241, through the `NodeRef` -/
  | sCall (k : Ret)
  /-- syslog:244, through the `NodeRef` -/
  | sUncount (k : Ret)
  /-- syslog:251 destruction of the `NodeRef` -/
  | sUnref (k : Ret)
  /-- syslog:248 -/
  | sClear (k : Ret)
  /-- file:258-268 -/
  | wWait
  /-- file:272 -/
  | wCheck
  /-- file:273, before the call of `events_.size` -/
  | wSize
  /-- inside `events_.size`, circular_buffer.hpp:116-123 -/
  | sizeIn
  /-- file:274 -/
  | wExit
  /-- file:100-101 -/
  | dStart
  /-- file:102 -/
  | dAsync
  /-- file:103-106 -/
  | dJoin
  /-- file:110 -/
  | dEnd
  | dead
deriving DecidableEq

/-- sink.hpp:180-181, sink_to_file.hpp:48-62, sink_to_console.hpp:54-70; the queue is a `CircularBuffer`. -/
structure St where
  /-- `events_` with the threads inside its member functions and the live `NodeRef`s -/
  ring : Ring.St Event
  size : Nat
  flag : Bool
  needFlush : Bool
  needRotate : Bool
  needFinalize : Bool
  isOpen : Bool
  sbuf : Text
  dev : Text
  gens : List Text
  /-- history (not in the code), as in `SinkConc` -/
  written : List Event
  run : List Event
  calls : List (Nat × Text)
  owner : Option Tid
  pc : Tid → PC
  /-- an event was read through a `NodeRef` that refers to nothing -/
  ub : Bool

/-- Constructor, file:91-98, console:155-157, sink.hpp:82. -/
def init (c : Cfg) (opened : Bool) : St :=
  { ring := Ring.init Event c.capacity, size := 0, flag := false, needFlush := false, needRotate := false, needFinalize := false,
    isOpen := opened, sbuf := [], dev := [], gens := [], written := [], run := [], calls := [], owner := none,
    pc := fun t => if t = SinkConc.workerTid then (if c.latency0 || !opened then .wExit else .wWait) else .idle,
    ub := false }

/-- no code of its own -/
def setPc (s : St) (t : Tid) (p : PC) : St := { s with pc := upd s.pc t p }

/-- does this `NodeRef` belong to thread `t`? A thread has at most one at a time. [sink.hpp:127-139, file:136-202] -/
def isMine (t : Tid) (r : Ring.Ref Event) : Bool := decide (r.owner = t)

/-- `operator bool` of the `NodeRef` the thread got from its last call. [circular_buffer.hpp:76-78] -/
def hasRef (r : Ring.St Event) (t : Tid) : Bool := r.refs.any (isMine t)

/-- `operator*` of the thread's `NodeRef`. [circular_buffer.hpp:66-74] -/
def readRef (r : Ring.St Event) (t : Tid) : Option Event := (r.refs.find? (isMine t)).bind fun x => r.buf.item x.slot

/-- destruction of the thread's `NodeRef`. [circular_buffer.hpp:60-64] -/
def dropRef (r : Ring.St Event) (t : Tid) : Ring.St Event := Ring.drop r (r.refs.findIdx (isMine t))

/-- is the thread outside the member functions of the queue? [circular_buffer.hpp:107-206] -/
def outside : Ring.PC Event → Bool
  | .idle => true
  | _ => false

/-- return from `flush()`. [file:243-244 and the callers of Ret] -/
def afterFlush (k : Ret) : PC :=
  match k with
  | .done => .idle
  | .retry e => .put e
  | .worker => .wCheck
  | .destroy => .dEnd

/-- where `flush` goes on with a `NodeRef`. [file:137, syslog:145] -/
def taking (c : Cfg) (k : Ret) : PC := if c.isSyslog then .sCall k else .uncount k

/-- where `flush` goes on without one. [file:204, syslog:247] -/
def nothing (c : Cfg) (k : Ret) : PC := if c.isSyslog then .sClear k else .write k none

/-- The next step of a thread. [sink.hpp:117-149, file:99-277, console:160-349, syslog:105-282, circular_buffer.hpp:107-206] -/
def step (c : Cfg) (s : St) (t : Tid) (ch : Ch) : St :=
  match s.pc t with
  | .idle => s
  | .put e => setPc { s with ring := Ring.call s.ring t (.put e) } t (.putIn e)
  | .putIn e =>
    let r := Ring.tick s.ring t
    if outside (r.pc t) then
      if hasRef r t then setPc { s with ring := r } t .count else setPc { s with ring := r } t (.enter (.retry e))
    else { s with ring := r }
  | .count =>
    match readRef s.ring t with
    | some e => setPc { s with size := Sink.addSize s.size e.message.length } t .release
    | none => { s with ub := true }
  | .release => setPc { s with ring := dropRef s.ring t } t .decide
  | .decide =>
    if c.latency0 then setPc s t (.enter .done)
    else if c.mark ≤ s.size then setPc s t .async
    else setPc s t .idle
  | .async =>
    if c.latency0 then setPc s t (.enter .done)
    else setPc { s with needFlush := true } t .idle
  | .rotate =>
    if c.isFile then setPc { s with needRotate := true } t .async else setPc s t .idle
  | .enter k =>
    if s.flag then setPc s t (afterFlush k) else setPc { s with flag := true, run := [] } t (.get k)
  | .get k => setPc { s with ring := Ring.call s.ring t .get } t (.getIn k)
  | .getIn k =>
    let r := Ring.tick s.ring t
    if outside (r.pc t) then
      if hasRef r t then setPc { s with ring := r } t (taking c k) else setPc { s with ring := r } t (nothing c k)
    else { s with ring := r }
  | .uncount k =>
    match readRef s.ring t with
    | some e => setPc { s with size := Sink.subSize s.size e.message.length } t (.unref k e)
    | none => { s with ub := true }
  | .unref k e => setPc { s with ring := dropRef s.ring t } t (.write k (some e))
  | .write k none => setPc s t (.casRotate k)
  | .write k (some e) =>
    if s.isOpen then
      let bytes := s.sbuf ++ c.render e
      setPc { s with dev := s.dev ++ bytes.take ch.spill, sbuf := bytes.drop ch.spill,
                     written := s.written ++ [e] } t (.casFlush k)
    else setPc s t (.casFlush k)
  | .casFlush k =>
    if s.needFlush && ch.casOk then setPc { s with needFlush := false } t (.sync k) else setPc s t (.casRotate k)
  | .sync k => setPc { s with dev := s.dev ++ s.sbuf, sbuf := [] } t (.casRotate k)
  | .casRotate k =>
    if c.isFile && (s.needRotate && ch.casOk) then setPc { s with needRotate := false } t (.reopen k)
    else setPc s t (.leave k)
  | .reopen k =>
    if ch.openOk then
      setPc { s with isOpen := true, gens := s.gens ++ [s.dev ++ s.sbuf], dev := [], sbuf := [] } t (.leave k)
    else setPc s t (.leave k)
  | .leave k => setPc { s with flag := false } t (afterFlush k)
  | .sCall k =>
    match readRef s.ring t with
    | some e =>
      setPc { s with run := s.run ++ [e], calls := s.calls ++ sysCalls c s.run e, written := s.written ++ [e] } t (.sUncount k)
    | none => { s with ub := true }
  | .sUncount k =>
    match readRef s.ring t with
    | some e => setPc { s with size := Sink.subSize s.size e.message.length } t (.sUnref k)
    | none => { s with ub := true }
  | .sUnref k => setPc { s with ring := dropRef s.ring t } t (.get k)
  | .sClear k => setPc { s with needFlush := false } t (.leave k)
  | .wWait =>
    if ch.timeout then setPc s t (.enter .worker) else s
  | .wCheck => if s.needFinalize && ch.newest then setPc s t .wSize else setPc s t .wWait
  | .wSize => setPc { s with ring := Ring.call s.ring t .size } t .sizeIn
  | .sizeIn =>
    match s.ring.pc t with
    | .obsUnlock _ n => setPc { s with ring := Ring.tick s.ring t } t (if n = 0 then .wExit else .wWait)
    | _ => { s with ring := Ring.tick s.ring t }
  | .wExit => s
  | .dStart =>
    if c.latency0 then setPc s t (.enter .destroy) else setPc { s with needFinalize := true } t .dAsync
  | .dAsync => setPc { s with needFlush := true } t .dJoin
  | .dJoin => if s.pc SinkConc.workerTid = .wExit then setPc s t .dEnd else s
  | .dEnd =>
    if c.isFile then setPc { s with dev := s.dev ++ s.sbuf, sbuf := [] } t .dead else setPc s t .dead
  | .dead => s

/-- where a public call starts. [sink.hpp:117-170] -/
def startPC : Call → PC
  | .push e => .put e
  | .flush => .enter .done
  | .asyncFlush => .async
  | .rotate => .rotate

/-- One action of a schedule; usage rules as in `SinkConc.Exec`. [sink.hpp:117-170, file:99-277] -/
inductive Exec (c : Cfg) : St → St → Prop where
  | call (s : St) (t : Tid) (h : t ≠ SinkConc.workerTid) (hi : s.pc t = .idle) (hd : s.owner = none) (call : Call) :
      Exec c s (setPc s t (startPC call))
  | step (s : St) (t : Tid) (ch : Ch) : Exec c s (step c s t ch)
  | destroy (s : St) (t : Tid) (h : t ≠ SinkConc.workerTid) (hd : s.owner = none)
      (hi : ∀ u, u ≠ SinkConc.workerTid → s.pc u = .idle) :
      Exec c s (setPc { s with owner := some t } t .dStart)

/-- States reachable from a newly constructed sink. [file:73-277] -/
inductive Reach (c : Cfg) (opened : Bool) : St → Prop where
  | init : Reach c opened (init c opened)
  | next {s s' : St} : Reach c opened s → Exec c s s' → Reach c opened s'

end SinkFull
end Soralog
