import Verif.Model.Render
/-!
# Model of `Sink::push`, of all sinks' `flush`/`async_flush`/`rotate`, of multisinks, `Logger::push` and the macros,
for executions in which one thread at a time is inside a sink (include/soralog/sink.hpp, src/impl/sink_to_*.cpp,
src/impl/multisink.cpp, include/soralog/logger.hpp, include/soralog/macro.hpp).

Really concurrent executions are modelled in `Model/SinkConc.lean`.  Here the worker thread appears only as an
additional caller of `flush` between two calls.
-/
namespace Soralog
namespace Sink

/-- What the environment decides for one sink: `n`-th event construction (clock, thread), `n`-th
`compare_exchange_weak` (`false` = spurious failure), `n`-th re-opening of the file, local time. [event.hpp:52-59, file:213-231, console:205, 311; a parameter of the model] -/
structure World where
  lt : Render.LocalTime
  env : Nat → Env
  casOk : Nat → Bool
  openOk : Nat → Bool

/-- The classes derived from `Sink` that own a queue.  `boldFirst` is the unspecified evaluation order of
sink_to_console.cpp:56-59. -/
inductive Kind where
  | console (color boldFirst : Bool)
  | file
  | syslog
  | nowhere
deriving DecidableEq, Repr

/-- The constant data members set by the constructor, sink.hpp:62-81: `maxBuffer` is `max_buffer_size_` after the
auto-fix, `latency` in milliseconds. -/
structure Cfg where
  kind : Kind
  level : Level
  ti : ThreadInfo
  capacity : Nat
  maxLen : Nat
  maxBuffer : Nat
  latency : Nat
deriving DecidableEq, Repr

/-- A sink that owns a queue: sink.hpp:174-182 and the members of the derived classes.  The queue is the abstract
FIFO that C01 shows `CircularBuffer` to be. -/
structure Leaf where
  cfg : Cfg
  w : World
  /-- `events_` -/
  queue : List Event
  /-- `size_`, a `size_t` -/
  size : Nat
  /-- `need_to_flush_` -/
  needFlush : Bool
  /-- `need_to_rotate_`, file only -/
  needRotate : Bool
  /-- `out_.is_open()`, file only; `true` for the others -/
  isOpen : Bool
  /-- file only: number of successful re-openings so far -/
  gen : Nat
  /-- everything handed to the destination, oldest first: for console and file one entry per non-empty
  `stream.write` with the file generation it went to; for syslog one entry per `syslog()` call with its priority -/
  written : List (Nat × Text)
  /-- a write outside the staging buffer or a use of a queue without slots has happened -/
  ub : Bool
  /-- how many `compare_exchange_weak` / re-openings have been executed (index into `World`) -/
  casCount : Nat
  openCount : Nat
  /-- history (not in the code): all events ever put into the queue, oldest first -/
  accepted : List Event

/-- `size_t` addition and subtraction. [`size_t` of sink.hpp:181] -/
def word : Nat := 2 ^ 64
/-- `size_ += n`, sink.hpp:136 (`std::atomic_size_t`). -/
def addSize (a b : Nat) : Nat := (a + b) % word
/-- `size_ -= n`, file:200, console:296, syslog:244 (`std::atomic_size_t`). -/
def subSize (a b : Nat) : Nat := (a + (word - b % word)) % word

/-- The filter of sink.hpp:121: `level_ < level or level == OFF or level == IGNORE`. -/
def rejects (sinkLevel level : Level) : Bool :=
  decide (sinkLevel < level) || decide (level = Level.off) || decide (level = Level.ignore)

/-- An empty staging buffer: `ptr = begin`, file:128, console:189, syslog:136. -/
def Leaf.staging (l : Leaf) : Render.W := { cap := l.cfg.maxBuffer, out := [], overflow := false }

/-- Rendering of one event by the console sink (console:198-294) or the file sink (file:137-198); every `flush`
starts with a fresh cache (console:191-193, file:130-132). -/
def Leaf.record (l : Leaf) (e : Event) : Render.W :=
  match l.cfg.kind with
  | .console color bf => (Render.consoleRecord l.w.lt l.cfg.ti color bf Render.Cache.init l.staging e).1
  | _ => (Render.fileRecord l.w.lt l.cfg.ti Render.Cache.init l.staging e).1

/-- `stream_.write(begin, ptr - begin)` (console:305, file:209).  Writing to a file that could not be opened only
sets the stream's error bits.  Device errors after a successful open are not modelled. -/
def Leaf.write (l : Leaf) (bytes : Text) : Leaf :=
  if l.isOpen then { l with written := l.written ++ [(l.gen, bytes)] } else l

/-- `if (need_to_flush_.compare_exchange_weak(true, false)) stream_.flush()`, console:309-315, file:213-219.
Which bytes have left the process is modelled in `Model/SinkConc.lean`. -/
def Leaf.clearNeedFlush (l : Leaf) : Leaf :=
  { l with needFlush := l.needFlush && !l.w.casOk l.casCount, casCount := l.casCount + 1 }

/-- The rotation part of `SinkToFile::flush`, file:224-241. -/
def Leaf.maybeRotate (l : Leaf) : Leaf :=
  let ok := l.needRotate && l.w.casOk l.casCount
  let l := { l with casCount := l.casCount + 1 }
  if ok then
    let l := { l with needRotate := false, openCount := l.openCount + 1 }
    if l.w.openOk (l.openCount - 1) then { l with isOpen := true, gen := l.gen + 1 } else l
  else l

/-- `SinkToConsole::flush` (console:182-321) and the first part of `SinkToFile::flush` (file:121-222): the loop
body runs once because of the unconditional `break`.  An empty `stream.write` (nothing appended) has no effect. -/
def Leaf.flushStream (l : Leaf) : Leaf :=
  match l.queue with
  | [] => l
  | e :: rest =>
    let w := l.record e
    let l := { l with queue := rest, ub := l.ub || w.overflow, size := subSize l.size e.message.length }
    (l.write w.out).clearNeedFlush

/-- `switch (event.level())`, syslog:208-237: the priority, or nothing when the event must not be logged.
LOG_EMERG=0, LOG_ALERT=1, LOG_WARNING=4, LOG_NOTICE=5, LOG_INFO=6, LOG_DEBUG=7. -/
def priority : Level → Option Nat
  | .off => none
  | .critical => some 0
  | .error => some 1
  | .warn => some 4
  | .info => some 5
  | .verbose => some 6
  | .debug => some 7
  | .trace => none
  | .ignore => none

/-- what a C string function reads from the start of the staging buffer: everything before the first NUL. [syslog:241] -/
def cstr (s : Text) : Text := s.takeWhile (· ≠ '\x00')

/-- the staging buffer and the time cache after one `flush` has rendered these events, oldest first: `ptr` is set to the start
before the loop only. [syslog:136-206] -/
def staged (lt : Render.LocalTime) (ti : ThreadInfo) (cap : Nat) (es : List Event) : Render.W × Render.Cache :=
  es.foldl (fun p e => Render.syslogRecord lt ti p.2 p.1 e) (⟨cap, [], false⟩, Render.Cache.init)

/-- what `syslog()` is given after these events have been rendered. [syslog:241] -/
def runText (lt : Render.LocalTime) (ti : ThreadInfo) (cap : Nat) (es : List Event) : Text := cstr (staged lt ti cap es).1.out

/-- The loop of `SinkToSyslog::flush`, syslog:142-251: `ptr` is never reset, `syslog()` is called with `begin`. -/
def Leaf.drainSyslog : List Event → Render.Cache → Render.W → Leaf → Leaf
  | [], _, w, l => { l with queue := [], needFlush := false, ub := l.ub || w.overflow }
  | e :: rest, c, w, l =>
    let (w, c) := Render.syslogRecord l.w.lt l.cfg.ti c w e
    let l := match priority e.level with
      | some p => { l with written := l.written ++ [(p, cstr w.out)] }
      | none => l
    Leaf.drainSyslog rest c w { l with queue := rest, size := subSize l.size e.message.length }

/-- `SinkToNowhere::flush`, sink_to_nowhere.cpp:27-31: `while (events_.size() > 0) events_.get()`. -/
def Leaf.discard : List Event → Leaf → Leaf
  | [], l => l
  | _ :: rest, l => Leaf.discard rest { l with queue := rest }

/-- `flush()` of each class. [console:182-321, file:121-244, syslog:129-254, nowhere:27-31] -/
def Leaf.flush (l : Leaf) : Leaf :=
  match l.cfg.kind with
  | .console _ _ => l.flushStream
  | .file => l.flushStream.maybeRotate
  | .syslog => Leaf.drainSyslog l.queue Render.Cache.init l.staging l
  | .nowhere => Leaf.discard l.queue l

/-- `async_flush()`, console:173-180, file:112-119, syslog:120-127, nowhere:33-35 -/
def Leaf.asyncFlush (l : Leaf) : Leaf :=
  match l.cfg.kind with
  | .nowhere => l.flush
  | _ => if l.cfg.latency ≠ 0 then { l with needFlush := true } else l.flush

/-- `rotate()`, sink_to_console.hpp:44, file:246-249, sink_to_syslog.hpp:38, nowhere:37-39 -/
def Leaf.rotate (l : Leaf) : Leaf :=
  match l.cfg.kind with
  | .console _ _ => l
  | .syslog => l
  | .file => { l with needRotate := true }.asyncFlush
  | .nowhere => l.flush

/-- The successful `events_.put(...)` and `size_ += node->message().size()`, sink.hpp:127-136. -/
def Leaf.store (l : Leaf) (m : Msg) : Leaf :=
  let e := mkEvent (l.w.env l.accepted.length) l.cfg.ti l.cfg.maxLen m
  { l with queue := l.queue ++ [e], size := addSize l.size e.message.length, accepted := l.accepted ++ [e] }

/-- The loop of sink.hpp:125-143; the first argument bounds the number of iterations (`none` = still looping).
A queue of capacity 0 has no slot: `put` then uses a null `Node` (C03_capacity_zero_refuted). -/
def Leaf.pushLoop (m : Msg) : Nat → Leaf → Option Leaf
  | 0, _ => none
  | n + 1, l =>
    if l.cfg.capacity = 0 then some { l with ub := true }
    else if l.queue.length < l.cfg.capacity then some (l.store m)
    else Leaf.pushLoop m n l.flush

/-- The high-water mark `max_buffer_size_ * 4 / 5`, sink.hpp:147 -/
def Leaf.highWater (l : Leaf) : Nat := (l.cfg.maxBuffer * 4) % word / 5

/-- sink.hpp:145-149: after storing -/
def Leaf.afterStore (l : Leaf) : Leaf :=
  if l.cfg.latency = 0 then l.flush
  else if l.highWater ≤ l.size then l.asyncFlush
  else l

/-- `Sink::push` of a sink without underlying sinks, sink.hpp:117-149. -/
def Leaf.push (fuel : Nat) (m : Msg) (l : Leaf) : Option Leaf :=
  if rejects l.cfg.level m.level then some l
  else (Leaf.pushLoop m fuel l).map Leaf.afterStore

/-- A sink as seen by its users: a queue-owning sink (by identity) or a `Multisink` with its own level and the
list of underlying sinks.  A multisink has no mutable state, so sharing one is the same as repeating it; sharing a
queue-owning sink is sharing its identity. [sink.hpp:62-93, multisink.cpp:16-19] -/
inductive Snk where
  | leaf (id : Nat)
  | multi (level : Level) (subs : List Snk)

/-- All queue-owning sinks, and whether an empty multisink was used as a queue. [no code of its own] -/
structure Heap where
  leaf : Nat → Leaf
  ub : Bool

/-- no code of its own -/
def Heap.set (h : Heap) (i : Nat) (l : Leaf) : Heap := { h with leaf := fun j => if j = i then l else h.leaf j }

mutual
/-- `Sink::push`, sink.hpp:117-155, for any sink. A multisink with an empty list takes the branch for sinks with
a queue (`underlying_sinks_.empty()`), on its buffer of capacity 0 (sink.hpp:92). -/
def Snk.push (fuel : Nat) (m : Msg) : Snk → Heap → Option Heap
  | .leaf i, h => ((h.leaf i).push fuel m).map (h.set i)
  | .multi lv subs, h =>
    if rejects lv m.level then some h
    else match subs with
      | [] => some { h with ub := true }
      | s :: ss => Snk.pushAll fuel m (s :: ss) h
/-- sink.hpp:151-153 -/
def Snk.pushAll (fuel : Nat) (m : Msg) : List Snk → Heap → Option Heap
  | [], h => some h
  | s :: ss, h => (Snk.push fuel m s h).bind (Snk.pushAll fuel m ss)
end

/-- `async_flush` of any sink; `Multisink::async_flush` does nothing, multisink.hpp:36. -/
def Snk.asyncFlush : Snk → Heap → Heap
  | .leaf i, h => h.set i (h.leaf i).asyncFlush
  | .multi _ _, h => h

mutual
/-- `flush` of any sink; `Multisink::flush`, multisink.cpp:21-28. -/
def Snk.flush : Snk → Heap → Heap
  | .leaf i, h => h.set i (h.leaf i).flush
  | .multi _ subs, h => Snk.flushAll subs (subs.foldl (fun h s => s.asyncFlush h) h)
/-- multisink.cpp:25-27 -/
def Snk.flushAll : List Snk → Heap → Heap
  | [], h => h
  | s :: ss, h => Snk.flushAll ss (Snk.flush s h)
end

mutual
/-- `rotate` of any sink; `Multisink::rotate`, multisink.cpp:30-34. -/
def Snk.rotate : Snk → Heap → Heap
  | .leaf i, h => h.set i (h.leaf i).rotate
  | .multi _ subs, h => Snk.rotateAll subs h
/-- multisink.cpp:31-33 -/
def Snk.rotateAll : List Snk → Heap → Heap
  | [], h => h
  | s :: ss, h => Snk.rotateAll ss (Snk.rotate s h)
end

/-- The part of a `Logger` used by a log call. [logger.hpp:296-305] -/
structure Logger where
  name : Text
  level : Level
  sink : Snk

/-- `Logger::push`, logger.hpp:44-55 (`log`, `trace`, … `critical` call it with their level). -/
def Logger.log (fuel : Nat) (g : Logger) (level : Level) (format : Text) (fmt : FmtResult) (h : Heap) : Option Heap :=
  if level ≤ g.level then
    if level ≠ Level.off ∧ level ≠ Level.ignore then
      (g.sink.push fuel { name := g.name, level, format, fmt } h).map fun h =>
        if Level.critical ≤ g.level then g.sink.flush h else h
    else some h
  else some h

/-- The definitions `WITHOUT_TRACE_LOG_LEVEL`, `WITHOUT_DEBUG_LOG_LEVEL` given by the user of macro.hpp. -/
structure Build where
  withoutTrace : Bool
  withoutDebug : Bool

/-- macro.hpp:60-63: with only `WITHOUT_DEBUG_LOG_LEVEL` given, that definition is removed again. -/
def Build.debugOff (b : Build) : Bool := b.withoutDebug && b.withoutTrace
/-- macro.hpp:68 -/
def Build.traceOff (b : Build) : Bool := b.withoutTrace

/-- A log statement in user code: the arguments are expressions evaluated in the user's state `σ`; evaluating them
yields the format and the formatting result. [logger.hpp:43-46, macro.hpp:23] -/
abbrev Args (σ : Type) := σ → σ × Text × FmtResult

/-- A direct call `logger->log(level, format, args...)`: C++ evaluates the arguments first. [logger.hpp:44-55] -/
def directCall {σ : Type} (fuel : Nat) (g : Logger) (level : Level) (args : Args σ) (s : σ) (h : Heap) :
    Option (σ × Heap) :=
  let (s', format, fmt) := args s
  (g.log fuel level format fmt h).map fun h' => (s', h')

/-- `_SL_LOG_IF_LEVEL`, macro.hpp:23-30 (`SL_LOG`, `SL_VERBOSE` … `SL_CRITICAL` and their `_DF` forms). -/
def macroCall {σ : Type} (fuel : Nat) (g : Logger) (level : Level) (args : Args σ) (s : σ) (h : Heap) :
    Option (σ × Heap) :=
  if level ≤ g.level then directCall fuel g level args s h else some (s, h)

/-- `SL_TRACE`, macro.hpp:68-73 -/
def slTrace {σ : Type} (b : Build) (fuel : Nat) (g : Logger) (args : Args σ) (s : σ) (h : Heap) : Option (σ × Heap) :=
  if b.traceOff then some (s, h) else macroCall fuel g .trace args s h

/-- `SL_DEBUG`, macro.hpp:75-80 -/
def slDebug {σ : Type} (b : Build) (fuel : Nat) (g : Logger) (args : Args σ) (s : σ) (h : Heap) : Option (σ × Heap) :=
  if b.debugOff then some (s, h) else macroCall fuel g .debug args s h

/-- A newly constructed sink. `opened`: whether the constructor could open the file (file:91-95). -/
def Leaf.new (cfg : Cfg) (w : World) (opened : Bool) : Leaf :=
  { cfg, w, queue := [], size := 0, needFlush := false, needRotate := false,
    isOpen := (match cfg.kind with | .file => opened | _ => true),
    gen := 0, written := [], ub := false, casCount := 0, openCount := 0, accepted := [] }

/-- Constructor `Sink(name, level, thread_info, max_events, …)`, sink.hpp:62-81, with the auto-fix. -/
def Cfg.mk' (kind : Kind) (level : Level) (ti : ThreadInfo) (capacity maxLen requestedBuffer latency : Nat) : Cfg :=
  { kind, level, ti, capacity, maxLen, maxBuffer := Render.bufferSize requestedBuffer maxLen, latency }

/-- `SinkToNowhere`, sink_to_nowhere.cpp:14-21 -/
def Cfg.nowhere : Cfg := Cfg.mk' .nowhere .off .none 1024 0 0 1000

end Sink
end Soralog
