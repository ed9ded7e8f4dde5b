# soralog — formal model and proofs in Lean 4

## Layout

```
lean/Verif/Model/*.lean   the model: one file per source unit, every definition cites file:lines of /repo
lean/Verif/Spec/*.lean    small specifications, independent of the model's helpers; the Spec/*Terms.lean files hold the
                          short definitions that theorem statements use in hypotheses
lean/Verif/Proofs/*.lean  helper lemmas and invariants
lean/Verif/Props/*.lean   the property theorems (named after properties.jsonl ids) and, beside each,
                          an `example` that a concrete non-trivial case meets its hypotheses
properties.jsonl          the properties;  MANIFEST.json  property -> theorems;  seeded/LOG.jsonl  mutation tests
```

## What is modelled and how each property is proved

Conventions.  C++ `char` is a Lean `Char` (one `Char` = one byte of text).  `size_t` counters are `Nat` unless a
property is about wrap-around (then an explicit 64-bit conversion is used).  Undefined behaviour, failed
`assert`, thrown exceptions and non-termination are distinct outcomes of the model (`Res`/`ub` flags), never
assumed away.  Library calls (fmt, localtime, yaml-cpp scalar conversion, pthread names, file open, clocks)
are parameters or non-deterministic choices; their assumed behaviour is listed under "Trusted base".

| Id | Model | Method |
|----|-------|--------|
| C01–C05 | `Model/Ring.lean`: `CircularBuffer` as a transition system; every atomic access of `put/get/size/avail/capacity` is one step of one thread, any number of threads, arbitrary schedule, `NodeRef`s as separately living objects | inductive invariant over all schedules; the history of linearisation points is replayed on a plain bounded queue (`Spec/Queue.lean`) |
| C06 | `Model/Layout.lean`: struct layout, `element_size_`, slot offsets; `Model/Yaml.lean` for the sinks of documents | arithmetic for all capacities, paddings, indices |
| C07–C08 | `Model/Event.lean`: the `Event` constructor, fmt result as parameter | direct proof |
| C09–C12 | `Model/Render.lean`: rendering byte by byte as in `flush` of console/file/syslog sinks | length bounds; explicit layout; decoder; escape-stripping function; cache invariant |
| C13–C23, C30–C31, C59, C61 | `Model/Sink.lean`: one-thread semantics of `Sink::push`, all `flush/async_flush/rotate`, multisink graphs on a heap of sinks, `Logger::push`, macros | induction over histories and over the sink graph |
| C20–C29, C62, C70–C71 | `Model/SinkConc.lean`: console, file or syslog sink with any number of threads, worker thread, destructor, rotation, stream buffer and device, as a step relation; queue operations are the atomic operations justified by C01 and C72 | inductive invariants over all executions; concrete executions for refutations |
| C72 | `Model/SinkFull.lean`: the same sink on the queue of `Model/Ring.lean`, executed access by access, events read through `NodeRef`s | refinement `SinkFull` → `SinkConc` (`Proofs/SinkFull.lean`, `refines`), realisation of every `SinkConc` execution (`Proofs/SinkFullLive.lean`, `realises`), which also lifts C62; conservation argument for `push` |
| C32–C46, C60 | `Model/System.lean`: `LoggingSystem`, `Group`, `Logger` on a heap of objects, tables as association lists, recursion with explicit fuel whose exhaustion is the outcome "diverges" | invariants by induction over call histories; closed-form specification of propagation |
| C47–C53 | `Model/Yaml.lean`: the whole `ConfiguratorFromYAML::Applicator` over a YAML tree | induction over documents |
| C54–C55 | `Model/Sink.lean` (`Leaf.drainSyslog`): `SinkToSyslog::flush` with its staging buffer and pointer | induction over queue contents / histories |
| C56 | `Model/SyslogOpen.lean`: the process-wide flag, constructors and destructors of any number of sinks, step relation; for programs and documents `Model/Whole.lean`, `Model/Yaml.lean` | inductive invariant; relation kept by every part of a configuration |
| C57–C58 | `Model/Thread.lean`: thread numbering and name caching | induction over histories |
| C86–C88, C66 exact | `Model/SystemDirect.lean`: all public methods of `Group`, overloads of `Logger` taking names, as actions of a history (`AnyReach`); C35, C36, C39–C45 are stated for these histories too | invariant `WF` of all actions; invariant 'chains of parents end' for actions that close no cycle; effect of C35 compared with the effect of the method |
| C39 exact | `WillEnd` (Spec/SystemTerms): the ways up that the call follows come to an end | the recursion follows exactly these ways: both directions by induction |
| C63–C66 | `Model/System.lean`: what the header documentation promises about the setters | propagation theorem of C35, concrete histories for the refutations |
| C67–C69 | `Model/Yaml.lean` | independent reading of a document (`Spec/Document.lean`), induction over documents |
| C73–C74 | `Model/Whole.lean`: configurator, logging system, loggers and the heap of sinks as one program; a sink created by a call is constructed in the heap, a log call goes to the sink the logger holds | one invariant over all programs (`Proofs/Whole.lean`) relating the sinks to what `Spec/Whole.lean` says is owed to them |
| C89 | `Model/Many.lean`: `SystemConc` and any number of `SinkFull` sinks composed: a log call that reaches `sink_->push` makes the calls of the queue-owning sinks one after another, every atomic access interleaved with all other threads; workers and destructors included | projection of every execution to executions of the parts (so C72, C76–C78 apply); invariant: what a thread addressed to a sink = what the sink accepted from it, what it is bringing, what is still on its list |
| C90 | `Model/RingThrow.lean`: the queue with constructions that throw at any moment | simulation: a thread whose construction throws continues under a fresh identity, the old one never moves again; then C01–C03 and C81 apply |
| C91 | `Model/Overload.lean`: overload resolution of the one-argument calls, the fragment of fmt they need | induction over the text; C15 for the delivery |
| C92 | `Spec/Fair.lean`: endless executions over the models of C01 and C72, fairness of the scheduler and of the spin lock | queue: ranks; sink: ranks on the atomic queue, lifted along the simulation of C72 to the queue as written (a thread that finds its slot in use is a waiting thread there); the refutations by periodic executions |
| C93 | `Model/InUse.lean`: the threads of `Model/SystemConc.lean`, each of which stays inside the sink it has called as long as it likes; pointers as in C85 | invariant: the history of `makeSink` calls determines the table of sinks, and whoever is inside a sink was led there by a registered number; the refutation is an execution |
| C94 | `Model/Construct.lean`: parameters of the constructors in the order of the headers and of the definitions, arguments bound by position | case analysis over the classes, for all values; the file sink: equivalence with the condition under which the exchange is harmless |
| C95 | `Spec/Deliver.lean` over the endless executions of C92: the worker's waits end, or the sink keeps being used | contradiction from an execution in which the queue is not empty and nothing is taken any more; lifted along the simulation of C72 to the queue as written |
| C96 | `Model/Wake.lean`: the condition variable of the worker as it is written (wait without a predicate, notification without the mutex, lost notifications, spurious wake-ups) around the model of C72; `Spec/Wake.lean` | every action is an action or no action of the model of C72 (so its theorems apply); the positive case by following the destructor to its notification and the worker through its last lap; the refutations by executions that get stuck |
| C97 | `Model/TimedEnd.lean`: the timed model of C75 after the destructor has been started | invariants for the upper and the lower bound |
| C98 | `Model/ManyLock.lean`: the program of C89 with the mutex of the logging system, recursive, held while warnings are pushed, replaced sinks are destroyed and a configurator runs; `Spec/ManyLock.lean` | thread by thread: out of its sink (C62), through its list of sinks, out of the mutex, through its remaining steps of the logging system, each of which decreases a rank; threads at rest stay so; finitely many threads have ever done anything |
| C99 | the models of C89 and C98 | invariant over the executions of several threads (groups under construction included), with C72 for the queues and C09 for the buffers. For a document: the invariant of C107 gives every live logger the sink of its group |
| C100 | `Spec/Terminal.lean`: a terminal as a function of the characters it receives (scanner state, style, what is shown); no new model code | induction over the text; the reset sequence brings the terminal back from every state of the scanner; sinks through C17, C72 and C89 |
| C101 | `Spec/ReadBack.lean`: lines of a file, a reader (the parser of C10, line by line); no new model code | the records are lines (counting line ends), C10's inverse for each, C17/C72/C89 for the contents of the files; forgery: the record of the forged text computed |
| C102 | the model of C98 with endless executions: `Spec/ManyFair.lean` (weak fairness for what stays possible, a thread inside a sink runs again) | the steps of the logging system and the visits to sinks die out (ranks over the finitely many threads), each sink is left (C92, C96), mutex and `configure` are released by fairness; then the workers deliver (C95) and what is accepted no longer changes, so it is what was addressed (C89); every reachable state has such a continuation (`C102_can_go_on`) |
| C103 | the model of C89 | queues, devices and histories only grow (step by step), so the tracking invariant of C89 at two moments splits what is accepted; C72 for the order of what is written |
| C104 | the endless executions of C95 on the queue as written, `Spec/FlushRequest.lean` | a request disappears only when a thread takes it, and that thread flushes the stream; C95 delivers the next event, whose writer looks for a request; the refutations are invariants over all continuations (nothing to take: nobody gets to the exchange; zero latency: no request is ever made) |
| C105 | `Model/Many.lean`, `Spec/LoneCall.lean`: a log call during which nobody else touches one of the sinks | the refinement of C72 step by step; an invariant that pairs the program counter in that sink with the calls still to be made on it (push, then a request, then a flush: multisinks always ask first) |
| C106 | `Model/FailingStream.lean`: the sink of C72 together with its stream, each write, flush, close and re-open of which may fail and leave any part of its bytes behind; `Spec/FailingStream.lean` | invariant: file and buffer hold beginnings of what the stream was given since the file was opened; `badbit` stays set until a re-opening |
| C107 | `Model/ManyDoc.lean`: the sinks a document declares (C68) as the sinks of the program with many threads (C89); `Spec/ManyDoc.lean` says what a log call owes according to the document. The threads only get loggers of registered groups, log, flush, drop; no multisink is empty (C31) | the state `configure` returns is a reachable state of `Many`; invariant: levels, sinks and groups of all live loggers are the document's, so what has been said is what is owed; then C89. In the end: no call starts, so the log calls stay the same, and C102. Coloured: a record ends with a reset, so removing escape sequences goes record by record (C11) |
| C108 | `Model/RingInit.lean`: the constructor of the queue, a loop over an `int` that constructs nodes in bytes | invariant of the loop by induction on the slots left; with C06 for the places, C48 for documents |
| C109 | `SinkConc`, `SinkFull`, `Many.Lock`: `rotate()`, the request, the exchange and the re-opening | a request stays until somebody has come to re-open; if nobody did, nobody could come to the exchange, nor ask the queue, nor enter `flush`, but the worker does (contradiction); refinement to the queue as written; in the program the caller enters every sink of its list by fairness. False for zero latency and for unopened files; calls for ever: a thread between two sinks keeps its list and its turn, inside `rotate()` of a sink with latency it needs two steps (`C109_busy_program_partial`) |
| C110 | `Many` (sinks as `leafOf` the parameters, on the queue as written) against the sequential `Sink` model; `Spec/OneThread.lean` says when the two agree and what "one after the other" means | at every point of a lone call the state agrees with the sequential sink at the corresponding point (one invariant per program point), carried through the refinement `SinkFull` → `SinkConc`; the list of calls a multisink makes against the recursion of the sequential one; induction over the calls and passes of workers (a pass is a flush of the worker's sink); sinks to nowhere are left out |
| C111 | `Many` (system stepwise, sinks on the queue as written) against `Whole` (the program with one thread); `Spec/OneProgram.lean` says what a lone call is | a lone run is cut at the steps in the logging system; between them C110's invariant; `Logger::push`, `makeGroup` and the warnings of `getLogger` followed step by step; induction over the calls |
| C112 | `Many.Lock` with calls for ever, `SinkFull` per sink | a sink nobody destroys goes through an endless fair execution of its own (`Endless.keptRun`), so C95 applies to it; what it had accepted from a thread in no call is what the thread addressed to it (C89); what is written later begins with it. The example makes a call at every other step for ever. `C112_document`: with the messages the document says are owed (C107); the states of C107 are states of the model with the mutex (`C112_configured`), so C92, C98, C102 apply to them |
| C75 | `Model/Timed.lean`: deadlines of one sink and its worker with explicit time; calls take no time, the worker may be late by a bounded amount | inductive invariants over all timed executions |
| C76–C78 | `Model/SystemConc.lean`: the system of C32–C46 with any number of threads; calls that hold the mutex are one step, `makeGroup` and log calls one step per access | simulation by the sequential system for undisturbed executions (`Spec/Serial.lean`), invariant of a log call (`Spec/LogCall.lean`), structural invariant; concrete executions for refutations |
| C79–C80 | `Model/Race.lean`, `Model/RaceSystem.lean`: for each step of the queue, sink and system models the operations on flags and the mutex and the accesses of other memory; `Spec/HappensBefore.lean`: happens-before, data race | each access is made under the flag that guards its location (invariant over all executions), hence ordered; join and destruction for the last accesses; `*_complete`: the model changes nothing without the recorded access; concrete execution for the refutation |
| C81 | `Model/Ring.lean`, `Model/SinkFull.lean`; a thread inside `Event`'s constructor that takes no further step stands for a formatter that runs on, blocks or logs | invariant `Jam` over all continuations without that thread (nothing passes); explicit finishing schedule for the others |
| C82–C84 | `Model/SinkFull.lean`; `Model/SinkClock.lean`: its executions beside a clock, an event carries the reading at the step that begins its construction | accepted events only grow at the end; invariant on each thread's accepted events (sorted, between two clock readings); concrete execution for the refutation |
| C85 | `Model/Lifetime.lean`: which object owns which by `shared_ptr`, counters of owners, releases in the order of the destructors; the objects are those of `Model/Whole.lean` | invariant of the releases (counters = pointers from the rest), rank of objects along ownership (sinks below groups below loggers, groups by distance to their root) |

Properties that the code violates are kept with their full statement; the theorem proved is the strongest true
part (`…_partial`) together with a `…_refuted` theorem giving a concrete counterexample in the model.

## Trusted base

1. **Lean 4.33.0's kernel.**  Nothing is proved by compiled code: no `native_decide`, no `bv_decide`, no axioms of our own, no
   unfinished proofs.  `decide +kernel` (used for closed finite facts: layouts of the structs, concrete counterexamples) is
   evaluated by the kernel.
2. **Axioms.**  `AXIOMS.md` lists, for every property theorem, the axioms it depends on (generated by `tools/axioms.py`): only
   `propext`, `Classical.choice` and `Quot.sound`.
3. **The reading of the C++ source** by the model.  Every definition in `lean/Verif/Model` cites the lines it models.  The model
   was written by hand from the pinned commit; nothing connects it to the text mechanically.
4. **The language and its libraries**, as follows.
   * C++ sequential consistency of the default `std::atomic` operations; for the flags of the sinks, which use
     acquire/release, sequential consistency is an assumption.
   * `fmt`: formatting yields a text or throws (`FmtResult`); `format_to_n` writes at most `n` characters and returns the full
     length; the widths and paddings used in `flush` are modelled literally.
   * `fmt::localtime`: a function of the second (a parameter `LocalTime`); in C10 its fields are assumed to have at most two digits.
   * `std::ofstream`: `write` on an open stream appends; bytes may stay in the process for any time; `flush`/`close` pass them on;
     no device errors after a successful open -- except in C106, whose model lets every operation fail to any extent.
   * `std::unordered_map`, `std::set`, `shared_ptr`/`weak_ptr`: maps as association lists; the iteration order of pointer sets
     is an arbitrary function (`ord`, C36).
   * yaml-cpp: delivers a graph of nodes; conversions of scalars are parameters; `node["key"]` is the first entry with the key.
   * pthread names, `syslog()`, `openlog()`: as documented.

### Modelled

| Source | Model |
|---|---|
| include/soralog/circular_buffer.hpp (all) | Ring (behaviour), Layout (storage), RingInit (constructor) |
| include/soralog/level.hpp (all) | Level |
| include/soralog/event.hpp (constructor, accessors, layout) | Event, Layout |
| include/soralog/sink.hpp (constructors, `push`, accounts) | Sink (one thread), SinkConc (many), SinkTree proofs (multisinks) |
| src/impl/sink_to_file.cpp, sink_to_console.cpp (all) | Render, Sink, SinkConc |
| src/impl/sink_to_syslog.cpp (all) | Render, Sink, SinkConc, SyslogOpen |
| src/impl/sink_to_nowhere.cpp, src/impl/multisink.cpp (all) | Sink |
| include/soralog/logger.hpp (`push` and the level methods), include/soralog/macro.hpp | Sink; Overload (one-argument forms) |
| src/logger.cpp, src/group.cpp, src/logging_system.cpp, include/soralog/logging_system.hpp (all) | System, SystemDirect (one thread), SystemConc (many), RaceSystem (memory accesses) |
| src/impl/configurator_from_yaml.cpp, src/impl/fallback_configurator.cpp (all) | Yaml |
| `run`, `async_flush` and destructors of the sinks: condition variable, deadlines | Wake, Timed, TimedEnd |
| `LoggingSystem::mutex_` around calls, `configure`, warnings and the destruction of replaced sinks | ManyLock |
| declarations in sink_to_console.hpp, sink_to_file.hpp, sink_to_syslog.hpp | Construct |
| include/soralog/util.hpp (thread number and name) | Thread |
| the above together, many threads | Many; ManyDoc (configured by a document) |
| operations on `out_` and `stream_` that fail (badbit) | FailingStream |
| owning members of `Group`, `Logger`, `LoggingSystem`, `Multisink` | Lifetime |
| `Logger::push`: the time spent inside `sink_->push`, `sink_->flush` | InUse |

### Not modelled

* `logger.hpp`: the trivial getters (`Logger::flush`: in `SystemConc` and the models built on it; in `Whole` as a flush of the sink); `logger_factory.hpp`, `soralog.hpp`, `soralog.cpp` (no behaviour); examples, tests, CMake.
* The internals of fmt and yaml-cpp, the operating system.
* Real time: the wait of a worker may end at any moment; C75 and C97 treat deadlines separately, C96 treats which notifications reach the worker.
* Weak memory of the atomics other than the flags the worker loads: those loads may return old values (`SinkConc.Ch.newest`), all other atomics are sequentially consistent by default (queue, size accounts, `flush_in_progress_`), read-modify-writes (which read the newest value, and whose weak form may fail anyway), or `next_flush_`, which is abstracted as time.  For everything that is not atomic C79 and C80 prove freedom from data races.
* Allocation failure outside the configurator, exceptions thrown by user formatters other than `std::exception` (only for the queue: C90).

## Simplifications

* `size_t` is `Nat` where the values are bounded by a container size; `size_` of a sink and the arithmetic of `Layout` wrap at
  2^64.  `max_message_length * 2` (sink.hpp:73) is not wrapped in `Render.bufferSize`; C48 bounds it for configured sinks.
* The `for (int i …)` indices of the YAML loops are `Nat`.
* C04 and C62 say that completion is possible from every reachable state (no deadlock, no livelock by construction); a scheduler
  that never runs a thread is not excluded, so no statement about time is made.
* A load of an old `true` of `need_to_flush_` is not distinguished from a wait that ends by itself; both only make the worker go round once more.
* In `SinkConc` the queue operations are atomic, with the effects of live `NodeRef`s kept.  This is not an assumption any more: `SinkFull` runs the
  same sink on the queue model of C01–C05, one atomic access per step, and is proved to refine `SinkConc` and to show everything
  `SinkConc` can show (C72).  C62 and the refutations of C20, C21, C26 and C29 are proved for both.
* C79, C80: all `std::atomic_flag`s are used with the default memory order, so `clear` releases and a successful `test_and_set` acquires.  The other atomics only add happens-before and are left out.  That an object is constructed before it is used, and that its destructor starts after all calls by other threads have returned, are rules of use (`HB.destroy`).
* In C32–C46 calls of `LoggingSystem` are atomic.  `SystemConc` justifies this (C76) except for `makeGroup`, which constructs the group before it
  takes the mutex, and for `Logger::push`, which takes none; in `SystemConc` both are executed step by step among the calls of other threads.
  Memory is sequentially consistent there; in C++ an unlocked read that meets a locked write is a data race (`Group` construction,
  `getFallbackGroup`, `Logger::push`; the latter is marked `no_sanitize("thread")` in the source).  Direct calls of the public setters of
  `Group` are not part of the histories of C32–C34, C37, C38 and C46 (`Reach`), where the claims would be false, but of those of C35, C36, C39–C45,
  C66 and C86–C88 (`AnyReach`).
* Histories treat one logging system; the process-wide state is in `SyslogOpen`, `Thread` and in the flag `syslogOpen` of `Yaml`.
* `Sink.Kind.boldFirst`: an unspecified order of evaluation is a parameter.

* C89: no sink is a multisink with an empty list that admits messages (`Setup.Sound`; undefined behaviour, C31); the levels of sinks are constants (as in the code);
  the sink to nowhere is not among the queue-owning sinks.  A warning of the logging system is pushed after the mutex has been left, which
  allows more interleavings than the code has.

## Findings

Statements of properties.jsonl that are false of the code.  The model contains a concrete counterexample (theorem in brackets);
the strongest part that holds is proved under `…_partial` or under the hypotheses given in `MANIFEST.json`.

* C03 a buffer of capacity 0 dereferences a null slot (`C03_capacity_zero_refuted`); capacity 0 is accepted by the constructors of all sinks.
* C06 a padding close to 2^64 wraps around and slots overlap (`C06_wraparound_refuted`).
* C09 a sink constructed directly with a small `max_message_length` overflows its staging buffer (`C09_unchecked_constructor_overflows`).
* C12 an event of second 0 of the epoch is printed with 17 NUL bytes instead of the date (`C12_refuted`): the cache starts with `psec = 0`.
* C14 a format failure is stored as an ERROR event although the sink only admits CRITICAL (`C14_refuted`).
* C17/C26 a sink whose file could not be opened discards everything silently (`C17_unopened_file_loses`, `C26_unopened_file_refuted`).
* C19 `flush()` of console and file writes one event per call (`C19_refuted`): an unconditional `break` ends the loop.
* C20/C21 two threads: a push returns while its event is still queued because the other thread was flushing (`C20_refuted`, `C21_refuted…`).
* C26 destructor with latency 0 after such a race loses events (`C26_refuted`).
* C29 `flush()` passes bytes to the OS only if a request is pending (`C29_refuted`).
* C31 a multisink without underlying sinks uses its own queue of capacity 0 (`C31_refuted`); the configurator creates such sinks
  when none of the named sinks exists (`C73_refuted`).
* C38/C39 `setParentOfGroup(r, r)` is accepted; later propagating calls never return (`C38_refuted`, `C39_refuted`).
* C46 a root group without sink is accepted; logging through it dereferences a null pointer (`C46_refuted`).
* C49 several problems are printed as `E:` with no error flag, others as `W:` with the error flag (`C49_refuted`).
* C50/C52 repeated group names: nesting not as written; a group nested directly in itself makes `configure` hang (`C50_nesting_refuted`, `C52_refuted`).
* C54 `SinkToSyslog::flush` passes the start of the staging buffer in every `syslog()` call, so all events of one run are logged
  with the text of the first (`C54_refuted`); TRACE events are never sent.
* C55 the pointer is never reset within a run, so a run of many events overflows the staging buffer (`C55_refuted`).
* C56 the destructor stores `true` into `syslog_is_opened_`: no second syslog sink can ever be created (`C56_refuted`).
* C63 a group created again under the same name leaves the loggers of the old object behind (`C63_refuted`).
* C64 `unsetParentOfGroup` does not set the override marks its documentation promises (`C64_refuted`).
* C65 setters on a root group do not set the mark (`C65_refuted`).
* C66 the public setters of `Group` do not propagate (`C66_refuted`).
* C87 `Group::unsetParentGroup`, and `setLevel`/`setSink` on a root, do not set the marks the header promises (`C87_refuted`).
* C88 `Group::setParentGroup` is not checked: it can close a cycle, and later calls of the system hang (`C88_refuted`).
* C90 an exception that is no `std::exception` leaves the slot of the queue taken for ever (builds without NDEBUG; with it: `std::terminate`).
* C91 `logger->info(std::string_view)` and `SL_INFO(logger, text)` take the text for a format; braces in it destroy the message (`C91_refuted`).
* C92 the spin lock of the queue is not fair. A thread that empties a full queue can find the lock taken for ever by pushes that find the queue full: everybody keeps running and no call returns (`C92_refuted`).
* C93 `Logger::push` calls `sink_->push` without a pointer of its own. `makeSink` with a name that is taken and `setSinkOfGroup` by another thread release the last pointer: the sink is destroyed while the first thread is inside (`C93_refuted`).
* C73 a document whose multisink names only missing sinks is accepted with a warning and makes logging undefined (`C73_refuted`).
* C96 the flags are stored without the mutex of the condition variable and loaded with relaxed order, so even a notified worker may load the old values and wait again (`C96_old_values_refuted`).
* C96 the worker waits without a predicate and is notified without the mutex, so a request (or the destructor's notification) that comes between its check and its wait is lost; the destructor then blocks until the deadline (`C96_refuted`).
* C97 destroying a console or file sink takes about one latency for each queued event, because a flush writes one event and the worker waits for the next deadline in between: with the default latency of a second and a hundred queued events, over a minute and a half (`C97_each_event_costs_a_latency`, `C97_refuted`).
* C98 (observation) `makeSink` with a name that is taken destroys the old sink with the mutex of the logging system held, if nobody else holds that sink: all other users of the logging system wait for its destructor, by C97 up to one latency for each queued event (example in `Props/ManyLock.lean`).
* C101 (refuted) a line end in a message, a logger name or a thread name is written as it is. A call that logs text from outside can be made to leave complete, genuine looking records of other loggers and levels (log injection), `C101_forgery_refuted`.
* C75 with `n` events queued an event waits `n + 1` latencies; the worker of a syslog sink spins (`C75_refuted`, `C75_busy_refuted`).
* C76 `makeGroup` reads the parent's level and sink without the mutex: a concurrent `setLevelOfGroup(parent)` leaves a stale level in the child (`C76_refuted`).
* C80 `Logger::push` reads `level_` and `sink_` without any lock while `setLevelOfLogger` and the like write them: a data race, undefined behaviour in C++ (`C80_refuted`).  The same holds for the parent's members in `makeGroup` and for all public methods of `Logger` and `Group` objects.
* C77 a log call reads level and sink separately: old level, new sink (`C77_refuted`).
* C81 messages are formatted inside the queue: while the oldest is being formatted nothing is written, every `flush` hangs, and once the queue is full every log call hangs (`C81_…_refuted`).  A formatter (`fmt::formatter<T>::format`) that logs to the same sink never returns (`C81_nested_refuted`), since every `Logger` call flushes.  An exception that is not a `std::exception` leaves `put` with the slot marked busy for ever (debug build; release: `noexcept`, `std::terminate`).
* C84 the place in the queue is taken before the clock is read: two overlapping log calls can be written with decreasing times (`C84_refuted`).
* C85 `setParentOfGroup(g, g)` makes the group hold itself by `shared_ptr`: neither it nor its sinks are ever destroyed, so what is still queued is never written (`C85_refuted`).
* C67 wrong values of some properties throw out of the whole configuration (`C67_refuted`).
* C94 sink_to_file.hpp declares `buffer_size` before `max_message_length`, the definition in sink_to_file.cpp has them the other way round: a caller who follows the header gets them exchanged (`C94_refuted`).
* C95 with zero latency an event can stay in the queue of an idle sink for ever (`C95_refuted`); with a latency the worker hands the records to the stream of a file but never flushes the stream unless asked, so the last records of an idle program need not be in the file until the sink is destroyed (`C95_device_refuted`).
* C104 `flush()` looks at the request only after it has written an event (`if (appended)`): with an empty queue `async_flush()` and `flush()`, called any number of times, never flush the stream, so records already written stay inside the process (`C104_empty_refuted`, `C104_refuted`). With latency 0 `async_flush()` never makes a request, so a file or console sink with zero latency never flushes its stream before its buffer overflows, a rotation or the destructor (`C104_zero_latency_refuted`): "zero latency" is the least durable setting.
* C105 `Multisink::flush()` calls `async_flush()` before `flush()`, so log calls through a multisink are durable; a logger on the same file sink directly is not (`Logger::push` calls `flush()` only, `C105_direct_refuted`), and of a message that comes twice to a sink only the first record is (`C105_twice_refuted`).
* C106 no sink looks at the state of its stream or clears it: after one failed write or flush (a full disk for a moment) everything logged later is thrown away silently, until a rotation re-opens the file successfully; a console is never re-opened and stays silent for the rest of the program (`C106_refuted`, `C106_silent_until_reopened`, `C106_console_silent_for_ever`).
* C108 the constructor of the queue counts its slots with an `int` (`auto index = 0`): with a capacity of 2^31 or more, which only a direct call can ask for, the index overflows (`C108_refuted`, `C108_ready_iff`).
* C109 with zero latency `rotate()` flushes once itself; when another thread is at the end of `flush()` at that moment, the request stays and nobody serves it until the next call (`C109_zero_latency_refuted`). A file that could not be opened has no worker: `rotate()` alone never opens it (`C109_unopened_refuted`); `flush()` after it does (`C109_flush_rotates_partial`).
* sink_to_syslog.cpp: `next_flush_` is never advanced, so after the first deadline the worker does not wait any more (C75).
