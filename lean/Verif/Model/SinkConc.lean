import Verif.Model.Sink
import Verif.Model.Ring
/-!
# Concurrent model of one console, file or syslog sink

Any number of client threads calling `push`, `flush`, `async_flush`, `rotate`; the worker thread `run()`; the
destructor; the stream buffer and the file generations.  Sources: include/soralog/sink.hpp:117-155,
src/impl/sink_to_file.cpp:91-277, src/impl/sink_to_console.cpp:155-350 (the two classes have the same structure,
the console has no rotation), src/impl/sink_to_syslog.cpp:91-282 (its `flush` loops until the queue is empty).

Granularity.  Each shared access (queue operation, `size_`, the three request flags, `flush_in_progress_`, stream
operation, `NodeRef` destruction) is one step of one thread; a schedule is an arbitrary list of actions.

* The queue operations are atomic; this is C01.  What C01 leaves visible is kept: an element whose `put` `NodeRef`
  is alive cannot be taken (`get` spins), and the slot of an element whose `get` `NodeRef` is alive cannot be reused
  (`put` spins).
* Simplifications.  Sequential consistency is assumed for the flags (the code uses acquire/release; `relaxed` in the
  worker's condition only affects how often it wakes up).  Time is abstract: the worker's wait may end at any
  moment, because the deadline passed or because of a notification with a request set; which notifications reach the
  worker is in Model/Wake.lean (which refines this model, so what is proved here for every execution holds there).  The rendered text of an event is `render e` (C10); for syslog the text sent is a function `sysText` of the
  events rendered since `flush` was entered (the staging buffer is not reset between events, C54).  Only pushes that pass the level filter are
  considered (C13: the others do nothing).  Writes to an open stream do not fail.
-/
namespace Soralog
namespace SinkConc

/-- Which class: `SinkToConsole`, `SinkToFile` (with rotation, owns its stream), `SinkToSyslog`. [sink_to_console.hpp, sink_to_file.hpp, sink_to_syslog.hpp] -/
inductive Kind where
  | console | file | syslog
deriving DecidableEq

/-- Constants of the sink. [sink.hpp:174-180, file:73-89, console:136-154, syslog:75-91] -/
structure Cfg where
  kind : Kind
  /-- `latency_ == 0` -/
  latency0 : Bool
  capacity : Nat
  /-- `max_buffer_size_ * 4 / 5` -/
  mark : Nat
  /-- rendering of one event into the staging buffer (console, file) -/
  render : Event → Text
  /-- the text given to `syslog()` when these events, oldest first, have been rendered since `flush` was entered -/
  sysText : List Event → Text := fun _ => []

/-- file sink? [sink_to_file.hpp] -/
def Cfg.isFile (c : Cfg) : Bool := decide (c.kind = .file)
/-- syslog sink? [sink_to_syslog.hpp] -/
def Cfg.isSyslog (c : Cfg) : Bool := decide (c.kind = .syslog)

/-- life of a queued element: constructed but not accounted, accounted with the `NodeRef` of `put` alive, free. [sink.hpp:127-139] -/
inductive Phase where
  | made | counted | ready
deriving DecidableEq

/-- who called `flush()` and what runs after it returns. [sink.hpp:142, 146; file:108, 117, 270] -/
inductive Ret where
  /-- the public call is over -/
  | done
  /-- sink.hpp:142: the queue was full, try to put again -/
  | retry (e : Event)
  /-- the worker, file:270-272 -/
  | worker
  /-- the destructor with zero latency, file:108 -/
  | destroy
deriving DecidableEq

/-- Program counter of a thread; the comments give the source line about to run (the file sink is cited; console:155-349 has the same lines). -/
inductive PC where
  | idle
  /-- sink.hpp:127 `events_.put` -/
  | put (e : Event)
  /-- sink.hpp:136 `size_ += …`; `n` is the position of the element in the order of puts -/
  | count (n : Nat)
  /-- sink.hpp:139 destruction of the `NodeRef` -/
  | release (n : Nat)
  /-- sink.hpp:145-149 -/
  | decide
  /-- `async_flush()`, file:112-119 -/
  | async
  /-- `rotate()`, file:246-249 -/
  | rotate
  /-- `flush()`, file:122 `flush_in_progress_.test_and_set()` -/
  | enter (k : Ret)
  /-- file:136 `events_.get()` -/
  | get (k : Ret)
  /-- file:200 `size_ -= …` -/
  | uncount (k : Ret) (e : Event)
  /-- file:202 destruction of the `NodeRef` -/
  | unref (k : Ret) (e : Event)
  /-- file:204-211 `out_.write`; `none` = nothing appended -/
  | write (k : Ret) (e : Option Event)
  /-- file:213-216 `need_to_flush_.compare_exchange_weak` -/
  | casFlush (k : Ret)
  /-- file:217 `out_.flush()` -/
  | sync (k : Ret)
  /-- file:224-226 `need_to_rotate_.compare_exchange_weak` -/
  | casRotate (k : Ret)
  /-- file:227-240 re-opening -/
  | reopen (k : Ret)
  /-- file:243 `flush_in_progress_.clear()` -/
  | leave (k : Ret)
  /-- syslog:145-241 rendering and `syslog()` -/
  | sCall (k : Ret) (e : Event)
  /-- syslog:244 `size_ -= …` -/
  | sUncount (k : Ret) (e : Event)
  /-- syslog:251 end of the loop body, destruction of the `NodeRef` -/
  | sUnref (k : Ret) (e : Event)
  /-- syslog:248 `need_to_flush_.store(false)` -/
  | sClear (k : Ret)
  /-- worker: file:258-268 `wait_until` -/
  | wWait
  /-- worker: file:272 `need_to_finalize_.load` -/
  | wCheck
  /-- worker: file:273 `events_.size() == 0` -/
  | wSize
  /-- worker: file:274 returned -/
  | wExit
  /-- destructor: file:100-101 -/
  | dStart
  /-- destructor: file:102 `async_flush()` (latency is not zero here) -/
  | dAsync
  /-- destructor: file:103-106 `join()` -/
  | dJoin
  /-- end of the destructor, file:110; the data members are destroyed, in particular `out_` is closed -/
  | dEnd
  /-- the sink does not exist any more -/
  | dead
deriving DecidableEq

/-- sink.hpp:180-181, sink_to_file.hpp:48-62, sink_to_console.hpp:54-70, and the state of the stream. -/
structure St where
  /-- everything ever put into the queue, oldest first; the queue is `put.drop taken` -/
  put : List Event
  /-- how many elements have been taken out of the queue -/
  taken : Nat
  /-- by position in `put` -/
  phase : Nat → Phase
  /-- a `NodeRef` returned by `get` is alive -/
  held : Bool
  /-- `size_` -/
  size : Nat
  /-- `flush_in_progress_` -/
  flag : Bool
  needFlush : Bool
  needRotate : Bool
  needFinalize : Bool
  /-- `out_.is_open()`; `true` for the console -/
  isOpen : Bool
  /-- bytes accepted by the stream but still inside the process -/
  sbuf : Text
  /-- bytes of the current file the operating system has received -/
  dev : Text
  /-- complete contents of the earlier file generations -/
  gens : List Text
  /-- history (not in the code): the events whose records were handed to the stream (for syslog: that went through the
  loop body), oldest first -/
  written : List Event
  /-- syslog: the events rendered into the staging buffer since `flush` was entered -/
  run : List Event
  /-- syslog: the calls of `syslog()` with priority and text, oldest first -/
  calls : List (Nat × Text)
  /-- history (not in the code): the thread that called the destructor -/
  owner : Option Tid
  pc : Tid → PC

/-- the worker thread. [file:95, console:156] -/
def workerTid : Tid := 0

/-- Constructor, file:91-98, console:155-157: the worker is started iff the latency is not zero and the file could
be opened. -/
def init (c : Cfg) (opened : Bool) : St :=
  { put := [], taken := 0, phase := fun _ => .made, held := false, size := 0, flag := false,
    needFlush := false, needRotate := false, needFinalize := false, isOpen := opened, sbuf := [], dev := [],
    gens := [], written := [], run := [], calls := [], owner := none,
    pc := fun t => if t = workerTid then (if c.latency0 || !opened then .wExit else .wWait) else .idle }

/-- Public calls. [sink.hpp:117, 160-170] -/
inductive Call where
  | push (e : Event)
  | flush
  | asyncFlush
  | rotate

/-- Choices made by the environment in one step: a spurious failure of `compare_exchange_weak`, how many bytes the
stream passes on to the operating system, whether re-opening succeeds, whether the worker's wait ends now, and whether a load that is not
sequentially consistent (of `need_to_flush_` and `need_to_finalize_` by the worker) gives the newest value or an older one.
[file:213-232, 260-275] -/
structure Ch where
  casOk : Bool
  spill : Nat
  openOk : Bool
  timeout : Bool
  newest : Bool
deriving DecidableEq

/-- no code of its own -/
def setPc (s : St) (t : Tid) (p : PC) : St := { s with pc := upd s.pc t p }

/-- number of queued elements. [circular_buffer.hpp:116-123] -/
def St.queued (s : St) : Nat := s.put.length - s.taken

/-- return from `flush()`. [file:243-244 and the callers of Ret] -/
def afterFlush (k : Ret) : PC :=
  match k with
  | .done => .idle
  | .retry e => .put e
  | .worker => .wCheck
  | .destroy => .dEnd

/-- where `flush` goes on after it has taken an element. [file:137-200, syslog:145] -/
def taking (c : Cfg) (k : Ret) (e : Event) : PC := if c.isSyslog then .sCall k e else .uncount k e

/-- where `flush` goes on when the queue is empty. [file:204, syslog:247] -/
def nothing (c : Cfg) (k : Ret) : PC := if c.isSyslog then .sClear k else .write k none

/-- the call of `syslog()` for an event, if its level has a priority. [syslog:206-241] -/
def sysCalls (c : Cfg) (run : List Event) (e : Event) : List (Nat × Text) :=
  match Sink.priority e.level with
  | some p => [(p, c.sysText (run ++ [e]))]
  | none => []

/-- The next step of a thread. A thread that cannot proceed (spinning, waiting in `join`) leaves the state
unchanged. [sink.hpp:117-149, file:99-277, console:160-349, syslog:105-282] -/
def step (c : Cfg) (s : St) (t : Tid) (ch : Ch) : St :=
  match s.pc t with
  | .idle => s
  | .put e =>
    if s.queued = c.capacity then setPc s t (.enter (.retry e))           -- full: sink.hpp:142
    else if s.held ∧ s.queued + 1 = c.capacity then s                     -- slot still held by a reader: spin
    else setPc { s with put := s.put ++ [e] } t (.count s.put.length)
  | .count n =>
    setPc { s with size := Sink.addSize s.size (s.put.getD n ⟨0, 0, [], [], .off, []⟩).message.length,
                   phase := upd s.phase n .counted } t (.release n)
  | .release n => setPc { s with phase := upd s.phase n .ready } t .decide
  | .decide =>
    if c.latency0 then setPc s t (.enter .done)
    else if c.mark ≤ s.size then setPc s t .async
    else setPc s t .idle
  | .async =>
    if c.latency0 then setPc s t (.enter .done)
    else setPc { s with needFlush := true } t .idle
  | .rotate =>
    if c.isFile then setPc { s with needRotate := true } t .async else setPc s t .idle
  | .enter k =>
    if s.flag then setPc s t (afterFlush k) else setPc { s with flag := true, run := [] } t (.get k)
  | .get k =>
    match s.put[s.taken]? with
    | none => setPc s t (nothing c k)
    | some e =>
      if s.phase s.taken = .ready then setPc { s with taken := s.taken + 1, held := true } t (taking c k e)
      else s
  | .uncount k e => setPc { s with size := Sink.subSize s.size e.message.length } t (.unref k e)
  | .unref k e => setPc { s with held := false } t (.write k (some e))
  | .write k none => setPc s t (.casRotate k)
  | .write k (some e) =>
    if s.isOpen then
      let bytes := s.sbuf ++ c.render e
      setPc { s with dev := s.dev ++ bytes.take ch.spill, sbuf := bytes.drop ch.spill,
                     written := s.written ++ [e] } t (.casFlush k)
    else setPc s t (.casFlush k)
  | .casFlush k =>
    if s.needFlush && ch.casOk then setPc { s with needFlush := false } t (.sync k) else setPc s t (.casRotate k)
  | .sync k => setPc { s with dev := s.dev ++ s.sbuf, sbuf := [] } t (.casRotate k)
  | .casRotate k =>
    if c.isFile && (s.needRotate && ch.casOk) then setPc { s with needRotate := false } t (.reopen k)
    else setPc s t (.leave k)
  | .reopen k =>
    if ch.openOk then
      -- `std::swap(out_, out)`, then the old stream is closed, which passes on what it still holds
      setPc { s with isOpen := true, gens := s.gens ++ [s.dev ++ s.sbuf], dev := [], sbuf := [] } t (.leave k)
    else setPc s t (.leave k)
  | .leave k => setPc { s with flag := false } t (afterFlush k)
  | .sCall k e =>
    setPc { s with run := s.run ++ [e], calls := s.calls ++ sysCalls c s.run e, written := s.written ++ [e] } t (.sUncount k e)
  | .sUncount k e => setPc { s with size := Sink.subSize s.size e.message.length } t (.sUnref k e)
  | .sUnref k _ => setPc { s with held := false } t (.get k)
  | .sClear k => setPc { s with needFlush := false } t (.leave k)
  | .wWait =>
    if ch.timeout then setPc s t (.enter .worker) else s
  | .wCheck => if s.needFinalize && ch.newest then setPc s t .wSize else setPc s t .wWait
  | .wSize => if s.queued = 0 then setPc s t .wExit else setPc s t .wWait
  | .wExit => s
  | .dStart =>
    if c.latency0 then setPc s t (.enter .destroy) else setPc { s with needFinalize := true } t .dAsync
  | .dAsync => setPc { s with needFlush := true } t .dJoin
  | .dJoin => if s.pc workerTid = .wExit then setPc s t .dEnd else s
  | .dEnd =>
    if c.isFile then setPc { s with dev := s.dev ++ s.sbuf, sbuf := [] } t .dead else setPc s t .dead
  | .dead => s

/-- One action of a schedule: a client thread starts a call; a thread executes its next step; a thread starts the
destructor.  Usage rules: a thread inside a call does not start another one; the destructor is started once, when no
client is inside a call, and no client calls the sink afterwards. [sink.hpp:117-170, file:99-277] -/
inductive Exec (c : Cfg) : St → St → Prop where
  | call (s : St) (t : Tid) (h : t ≠ workerTid) (hi : s.pc t = .idle) (hd : s.owner = none) (call : Call) :
      Exec c s (setPc s t (match call with
        | .push e => .put e
        | .flush => .enter .done
        | .asyncFlush => .async
        | .rotate => .rotate))
  | step (s : St) (t : Tid) (ch : Ch) : Exec c s (step c s t ch)
  | destroy (s : St) (t : Tid) (h : t ≠ workerTid) (hd : s.owner = none) (hi : ∀ u, u ≠ workerTid → s.pc u = .idle) :
      Exec c s (setPc { s with owner := some t } t .dStart)

/-- States reachable from a newly constructed sink. [file:73-277] -/
inductive Reach (c : Cfg) (opened : Bool) : St → Prop where
  | init : Reach c opened (init c opened)
  | next {s s' : St} : Reach c opened s → Exec c s s' → Reach c opened s'

end SinkConc
end Soralog
