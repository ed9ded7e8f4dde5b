import json
P=[]
def p(title, statement, quantifier, why, anchors):
    P.append(dict(id=f"C{len(P)+1:02d}",title=title,statement=statement,quantifier=quantifier,why_tests_cant=why,anchors=anchors))
CB="include/soralog/circular_buffer.hpp"; SK="include/soralog/sink.hpp"; EV="include/soralog/event.hpp"
FI="src/impl/sink_to_file.cpp"; CO="src/impl/sink_to_console.cpp"; SY="src/impl/sink_to_syslog.cpp"
LS="src/logging_system.cpp"; GR="src/group.cpp"; LG="src/logger.cpp"; LH="include/soralog/logger.hpp"; YM="src/impl/configurator_from_yaml.cpp"
MU="src/impl/multisink.cpp"
# --- ring buffer
p("Circular buffer is a linearizable bounded FIFO",
  "Every concurrent use of CircularBuffer::put/get/size/avail/capacity by any number of threads is equivalent to executing the calls one at a time, each at an instant between its call and its return, on a plain bounded FIFO queue: put succeeds iff the queue is not full and appends, get returns the oldest element iff the queue is not empty, size/avail/capacity report the queue's length, its free room and the constructor's capacity. In particular nothing is lost, duplicated or reordered.",
  "all capacities >= 1, all numbers of threads, all interleavings of atomic steps, all histories of calls, all lifetimes of the returned NodeRefs",
  "the number of interleavings is unbounded; the unit test only prints what one schedule did",
  [f"{CB}: CircularBuffer::put", f"{CB}: CircularBuffer::get", f"{CB}: CircularBuffer::size", f"{CB}: CircularBuffer::avail", f"{CB}: CircularBuffer::capacity"])
p("A live NodeRef owns its element",
  "While a NodeRef returned by put or get is alive, the element it refers to is fully constructed, equals the value that was put, is referenced by no other live NodeRef, and is not changed by any other thread.",
  "all capacities >= 1, all interleavings, all sets of simultaneously live NodeRefs",
  "a torn read or overwrite needs a particular interleaving of construction, index wrap-around and release",
  [f"{CB}: CircularBuffer::NodeRef", f"{CB}: CircularBuffer::put", f"{CB}: CircularBuffer::get"])
p("Circular buffer never leaves its bounds",
  "No schedule of put/get/size/avail calls on a buffer of capacity >= 1 ever indexes outside the slots, trips an internal assertion, or makes size() exceed capacity(); size() + avail() reported for the same instant is always capacity().",
  "all capacities >= 1 (including 1), all interleavings, unbounded histories with index wrap-around",
  "wrap-around bugs show only at particular counts and schedules",
  [f"{CB}: push_index_", f"{CB}: pop_index_", f"{CB}: size_"])
p("Circular buffer operations cannot deadlock",
  "From every reachable situation each pending put/get/size/avail call can still complete, provided outstanding NodeRefs are eventually released; the spin lock is never left held by a thread that has returned.",
  "all reachable states, all numbers of threads and pending calls",
  "absence of deadlock is a statement about all states, a test that happens to finish shows nothing about the others",
  [f"{CB}: busy_", f"{CB}: Node::busy"])
p("Per-producer order is kept",
  "Two elements put by the same thread one after the other are taken out in that same order, whatever other threads do.",
  "all pairs of puts of one thread, all interleavings",
  "only sampled schedules can be tested",
  [f"{CB}: CircularBuffer::put", f"{CB}: CircularBuffer::get"])
p("Buffer slots do not overlap",
  "For every capacity and padding whose total number of bytes can be expressed in size_t, in particular for every sink a document declares, the storage of each element together with the max_message_length bytes following it lies inside the buffer's allocation, is correctly aligned, and is disjoint from the storage of every other element.",
  "all capacities and paddings/message lengths with a total size below 2^64, all documents, all slot indices",
  "overlap depends on the residue of the padding modulo the alignment and on the index; sampling sizes is not proof",
  [f"{CB}: CircularBuffer(size_t,size_t)", f"{EV}: Event::message_data_"])
# --- event
p("Event text is a bounded prefix of the formatted text",
  "The message stored in an event is exactly the formatted text cut to max_message_length characters (unchanged when shorter), the logger name is the given name cut to 32 characters, the thread name has at most 15 characters, and nothing is stored beyond these limits.",
  "all formats and arguments that format successfully, all names, all message length limits including 0",
  "truncation boundaries are an infinite family of inputs",
  [f"{EV}: Event::Event"])
p("A formatting failure becomes an error event instead of an exception",
  "If formatting throws a std::exception the call still produces exactly one event: its logger name is 'Soralog', its level ERROR and its message is the (truncated) text 'Format error: <what>; Format: <format>'.",
  "all failing formats, all limits, all levels",
  "every kind of failure at every truncation point cannot be sampled",
  [f"{EV}: Event::Event (catch block)"])
p("Records fit the staging buffer",
  "Every record a console or file sink renders fits the sink's staging buffer, so rendering never writes outside it, for every sink whose parameters passed the configuration checks or are the constructor defaults (the clock being at or after 1970).",
  "all sink parameters accepted by the configurator or defaulted, all events the sink can hold, all thread-info modes, with and without colour",
  "needs the worst case over all field lengths and parameter combinations",
  [f"{CO}: SinkToConsole::flush", f"{FI}: SinkToFile::flush", f"{SK}: Sink::Sink (Auto-fix buffer size)", f"{YM}: parseSinkToConsole"])
p("Record layout is fixed and invertible",
  "Each written record is: 17-character local date-time, '.', six digits of microseconds, two spaces, an optional thread column, the level name padded to 8, two spaces, the logger name, two spaces, the message, newline; level, name and message can be recovered from the record when the name contains no double space and does not end in a space (the clock being at or after 1970).",
  "all events, all thread-info modes",
  "layout must hold for every field length, and invertibility ranges over pairs of events",
  [f"{FI}: SinkToFile::flush", f"{CO}: put_level", f"{CO}: put_string", f"{CO}: put_separator"])
p("Colour changes only escape sequences",
  "With colour enabled the console record is the plain record with ANSI escape sequences inserted: removing the escape sequences yields exactly the record that would have been written without colour (the clock being at or after 1970).",
  "all events whose texts contain no ESC character, all levels an event can have, all thread-info modes",
  "ranges over all texts and levels",
  [f"{CO}: put_level_style", f"{CO}: put_text_style", f"{CO}: put_reset_style"])
p("Printed time is the event's own time",
  "The date-time column printed for an event is the local time of that event's own second, even when several events are rendered with one cached conversion.",
  "all sequences of event timestamps rendered in one flush",
  "depends on the whole sequence of seconds through the cache",
  [f"{FI}: SinkToFile::flush (psec)", f"{SY}: SinkToSyslog::flush (psec)"])
# --- filtering
p("Sink level filter is exact",
  "A sink accepts an event iff its level is neither OFF nor IGNORE and is not more detailed than the sink's level; a rejected push has no effect at all.",
  "all sink levels, event levels and sink states",
  "no-effect must hold in all states",
  [f"{SK}: Sink::push"])
p("A sink never emits an event more detailed than its level",
  "Every record a sink writes carries a level that is not more detailed than the sink's own level.",
  "all sinks, all histories of pushes including failing formats",
  "ranges over all histories and failure modes",
  [f"{SK}: Sink::push", f"{EV}: Event::Event (catch block)"])
p("Log call is delivered iff every filter on the path admits it",
  "A log call with level v on a logger reaches a destination sink exactly once per path from the logger's sink to it (through multisinks) iff v is a real level, the logger's level admits it and every sink on that path admits it; otherwise nothing happens (no multisink that admits messages being empty, see C31).",
  "all logger levels, event levels, all acyclic sink graphs of any depth and sharing",
  "sink graphs of any depth and sharing cannot be enumerated",
  [f"{LH}: Logger::push", f"{SK}: Sink::push", f"{MU}: Multisink"])
p("Logging macros are equivalent to the direct call",
  "SL_LOG and the SL_<LEVEL> macros have the same effect on the sinks as calling Logger::log directly, and evaluate their format arguments only if the logger's level admits the event.",
  "all loggers, levels, sinks and states",
  "equivalence over all states",
  ["include/soralog/macro.hpp: _SL_LOG_IF_LEVEL", f"{LH}: Logger::log"])
# --- sequential sink
p("No accepted event is lost, duplicated or reordered (one thread)",
  "For every sequence of push/flush/async_flush/rotate calls on a console, or on a file that could be opened, the records written followed by the events still queued are exactly the accepted events in the order they were pushed.",
  "all call sequences, all capacities >= 1, latencies, buffer sizes",
  "unbounded histories",
  [f"{SK}: Sink::push", f"{FI}: SinkToFile::flush", f"{CO}: SinkToConsole::flush"])
p("push always terminates and always stores the event",
  "A push of an admissible event on a sink with capacity >= 1 returns after at most one forced flush when no other thread interferes, and the event is stored even when the queue was full.",
  "all queue states including full, all capacities >= 1",
  "ranges over all queue states",
  [f"{SK}: Sink::push"])
p("flush writes every queued event",
  "After flush() returns (no other thread flushing) every event that was queued has been handed to the destination.",
  "all queue contents, all sink types",
  "ranges over all queue contents",
  [f"{SK}: Sink::flush", f"{FI}: SinkToFile::flush", f"{CO}: SinkToConsole::flush", f"{SY}: SinkToSyslog::flush"])
p("Zero latency means written on return",
  "On a sink with latency 0 each accepted event has been written when push returns.",
  "all histories, all numbers of threads",
  "depends on schedules and histories",
  [f"{SK}: Sink::push", f"{FI}: SinkToFile::flush"])
p("Logger calls write through",
  "An admitted log call made through a Logger has its record written to the destination stream by the time the call returns, at every logger level.",
  "all histories of log calls through loggers, all levels; any number of threads",
  "ranges over all histories and schedules",
  [f"{LH}: Logger::push", f"{FI}: SinkToFile::flush"])
p("Buffered-size account is exact",
  "The sink's account of buffered message bytes equals the total length of the queued messages whenever no call is in progress, and never becomes negative (never wraps around) under any interleaving, as long as the queue fits into the address space.",
  "all interleavings of pushes and flushes by any number of threads",
  "a wrap-around needs a decrement scheduled before its increment",
  [f"{SK}: Sink::size_", f"{FI}: SinkToFile::flush"])
p("High-water mark requests a flush",
  "On a sink with non-zero latency, when a push leaves at least 4/5 of the buffer size accounted, a flush has been requested by the time it returns, and no flush is requested below that mark (for buffers below 2^62 bytes).",
  "all states, message sizes and buffer sizes",
  "ranges over all sizes",
  [f"{SK}: Sink::push"])
# --- concurrent sink
p("Exactly-once ordered output under concurrency",
  "With any number of threads pushing, flushing and rotating and the worker running, the records written are, in order and each exactly once, a prefix of the sequence of accepted events in queue order; nothing is written that was not pushed. If the file cannot be opened at first, what leaves the queue before it is open is lost, and nothing else.",
  "all interleavings, all numbers of threads, all histories",
  "schedules cannot be enumerated",
  [f"{SK}: Sink::push", f"{FI}: flush_in_progress_", f"{CO}: flush_in_progress_"])
p("At most one thread writes to the destination",
  "At no time are two threads inside the writing part of flush() of the same sink, so records are never interleaved inside the stream and the staging buffer is never shared.",
  "all interleavings",
  "mutual exclusion quantifies over schedules",
  [f"{FI}: flush_in_progress_", f"{CO}: flush_in_progress_", f"{SY}: flush_in_progress_"])
p("Destroying a sink writes everything",
  "When a console or file sink is destroyed while no other thread uses it, every accepted event has been written by the time the destructor returns.",
  "all prior histories and interleavings, latency zero and non-zero, file open or failed to open",
  "depends on what interleavings left in the queue",
  [f"{FI}: SinkToFile::~SinkToFile", f"{FI}: SinkToFile::run", f"{CO}: SinkToConsole::~SinkToConsole", f"{CO}: SinkToConsole::run"])
p("Rotation loses nothing",
  "For every history with rotations, whether re-opening succeeds or fails, the contents of all file generations in order are exactly the records written, each in exactly one generation; a failed re-open keeps the old file in use. A requested rotation is carried out by the next flush that gets to write; the request is dropped only by a flush that goes on to re-open.",
  "all histories, all rotation points, all open outcomes, spurious failures of weak exchanges",
  "crash/rotation points and open outcomes cannot be enumerated",
  [f"{FI}: SinkToFile::rotate", f"{FI}: SinkToFile::flush (need_to_rotate_)"])
p("Crash leaves a prefix of the log",
  "If the process dies at any instant, what the operating system has received for the file is a prefix of the bytes of the records handed to its stream in order: no gaps and no reordering.",
  "all crash points, all ways the stream buffer spills",
  "crash points cannot be enumerated",
  [f"{FI}: SinkToFile::flush (out_.write/out_.flush)"])
p("flush makes events durable in the operating system",
  "When flush() returns, the records it wrote have left the process (they would survive a process crash).",
  "all histories, all flush calls",
  "needs crash at every point",
  [f"{FI}: SinkToFile::flush (need_to_flush_)", f"{SK}: Sink::flush"])
# --- multisink
p("Multisink forwards to each underlying sink",
  "A push admitted by a multisink is forwarded once to each listed sink in order, and each underlying sink applies its own filter; flush and rotate reach every underlying sink, at every nesting depth.",
  "all acyclic sink graphs",
  "graphs of any depth",
  [f"{MU}: Multisink::flush", f"{MU}: Multisink::rotate", f"{SK}: Sink::push"])
p("A multisink with no usable sinks is harmless",
  "Logging to a multisink whose list of underlying sinks is empty discards the event without undefined behaviour.",
  "all events, all multisinks with an empty list",
  "undefined behaviour need not show in a test run",
  [f"{SK}: Sink::Sink(std::string, Level, std::vector)", f"{SK}: Sink::push", f"{YM}: parseMultisink"])
# --- system
p("Inherited group levels are always up to date",
  "After any sequence of LoggingSystem calls, every registered group that has a parent and whose level is not overridden has exactly its parent's level.",
  "all histories of LoggingSystem calls, all group forests of any depth",
  "unbounded histories and forest shapes",
  [f"{LS}: setLevelOfGroup", f"{LS}: setParentOfGroup", f"{GR}: Group"])
p("Inherited group sinks are always up to date",
  "After any sequence of LoggingSystem calls, every registered group that has a parent and whose sink is not overridden has exactly its parent's sink.",
  "all histories of LoggingSystem calls, all group forests of any depth",
  "unbounded histories and forest shapes",
  [f"{LS}: setSinkOfGroup", f"{LS}: setParentOfGroup", f"{GR}: Group"])
p("Inherited logger properties are always up to date",
  "After any sequence of LoggingSystem and Logger calls, every live logger of a registered group has its group's level unless its level is overridden, and its group's sink (if the group has one) unless its sink is overridden.",
  "all histories, all forests, all loggers created and dropped",
  "unbounded histories",
  [f"{LS}: getLogger", f"{LS}: setLevelOfGroup", f"{LS}: setSinkOfGroup", f"{LG}: Logger"])
p("Setting a group's level changes exactly its inheritors",
  "setLevelOfGroup(g, l) sets the level of g and of exactly the registered groups and the live loggers of registered groups that inherit from g through a chain of non-overridden links to l; every other group, logger and property (including all sinks, parents and override marks other than g's) is unchanged. The same holds for setSinkOfGroup and sinks, and for the reset forms.",
  "all forests, override patterns, loggers and hash-map iteration orders",
  "frame conditions over all forests",
  [f"{LS}: setLevelOfGroup", f"{LS}: setSinkOfGroup", f"{LS}: resetLevelOfGroup", f"{LS}: resetSinkOfGroup"])
p("Propagation does not depend on container order",
  "The outcome of every propagating call is the same for every iteration order of the group and logger tables and of pointer-ordered sets.",
  "all permutations of the tables, all forests",
  "hash order and pointer order are not controllable in a test",
  [f"{LS}: setLevelOfGroup (passed_groups, affecting_groups)"])
p("Re-parenting re-inherits",
  "setParentOfGroup(g, p) returning true makes p the parent of g; g and everything below it then inherits every non-overridden property along the new chain, overridden properties stay; if p was a child of g the old link is cut first. unsetParentOfGroup leaves all current values in place (if no group was redeclared under an old name).",
  "all forests and override patterns",
  "all forests",
  [f"{LS}: setParentOfGroup", f"{LS}: unsetParentOfGroup", f"{GR}: setParentGroup"])
p("Group hierarchy never becomes cyclic",
  "No sequence of LoggingSystem calls makes a group its own (direct or indirect) ancestor; a call that would do so is refused with false and changes nothing.",
  "all histories of LoggingSystem calls",
  "unbounded histories",
  [f"{LS}: setParentOfGroup (Check for recursion)"])
p("Every LoggingSystem call terminates",
  "Each LoggingSystem call returns: neither the ancestor walk nor the recursive propagation runs forever.",
  "all histories of LoggingSystem calls, all forests",
  "non-termination on some history cannot be excluded by sampling",
  [f"{LS}: setParentOfGroup", f"{LS}: setLevelOfGroup", f"{LS}: setSinkOfGroup"])
p("getLogger returns the one live logger of that name",
  "While a logger named n is alive every getLogger(n, ...) returns that same logger unchanged whatever group, sink and level are asked for; there are never two live registered loggers with one name; after the last reference is dropped a new logger is created with the requested properties.",
  "all histories of creations, lookups and drops",
  "unbounded histories",
  [f"{LS}: getLogger"])
p("Unknown group falls back",
  "getLogger with an unknown group name on a configured system with a fallback group succeeds, puts the logger into the fallback group and emits one warning through it (if its level admits warnings); an unknown sink name is ignored.",
  "all configured systems with a fallback group, all names",
  "all states",
  [f"{LS}: getLogger", f"{LS}: getFallbackGroup"])
p("Configuration happens exactly once",
  "getLogger before configure() and a second configure() are refused with an exception that changes nothing; the first group ever created becomes the fallback group until setFallbackGroup or the creation of a group named '*' changes it.",
  "all histories",
  "unbounded histories",
  [f"{LS}: configure", f"{LS}: getLogger", f"{LS}: makeGroup", f"{LS}: setFallbackGroup"])
p("Refused calls change nothing",
  "Every LoggingSystem call that returns false or throws leaves all groups, live loggers, sinks and registrations as they were; and a call with a boolean result returns false exactly when a named object does not exist (any more) or the new parent is below the group.",
  "all states, all calls",
  "all states",
  [f"{LS}: setParentOfGroup", f"{LS}: setSinkOfGroup", f"{LS}: setGroupOfLogger", f"{LS}: makeGroup"])
p("Overrides are sticky and reset re-inherits",
  "An explicitly set level or sink of a logger (or of a group with a parent) is never changed by any call addressed to other objects; resetting it gives it the current value of its group/parent and makes it follow again.",
  "all histories of calls addressed elsewhere",
  "unbounded histories",
  [f"{LG}: setLevel", f"{LG}: resetLevel", f"{GR}: setLevel", f"{GR}: resetLevel", f"{LS}: setLevelOfLogger"])
p("makeGroup accepts exactly well-formed requests",
  "makeGroup succeeds iff the named parent (if any) exists, the named sink (if any) exists, and a level is given or there is a parent; the created group has the requested properties marked overridden iff it has a parent, and the rest inherited.",
  "all system states and arguments",
  "all states",
  [f"{LS}: makeGroup", f"{GR}: Group::Group"])
p("Every logger has a sink",
  "No logger handed out by the system has a null sink, so logging through it never dereferences null.",
  "all histories of LoggingSystem calls",
  "unbounded histories",
  [f"{GR}: Group::Group", f"{LG}: setSinkFromGroup", f"{LH}: Logger::push", f"{LS}: configure"])
# --- yaml
p("Level names are parsed exactly",
  "The configurator maps exactly off, critical/crit, error, warning/warn, info, verbose, debug/deb, trace to the corresponding level; anything else is reported as an error and treated as absent.",
  "all strings",
  "all strings",
  [f"{YM}: parseLevel"])
p("Configured sink parameters are always sane",
  "Every sink created from YAML has capacity >= 4, max_message_length >= 64, a buffer of at least four events and twice the message length but not larger than requested or twice the message length, and a latency that is the one written or the default.",
  "all YAML documents",
  "all documents",
  [f"{YM}: parseSinkToConsole", f"{YM}: parseSinkToFile", f"{YM}: parseSinkToSyslog", f"{SK}: Sink::Sink"])
p("Problems are reported faithfully",
  "configure() reports has_error iff some problem marked 'E:' was found, has_warning iff some problem marked 'W:' was found, and the messages of all problems found are in the result.",
  "all YAML documents, all prior system states",
  "all documents",
  [f"{YM}: Applicator::run", f"{YM}: parseSink", f"{YM}: parseSinks", f"{YM}: parseGroup", f"{YM}: parseMultisink"])
p("Groups from YAML are complete",
  "Every group created from YAML has a level and a non-null sink (the null sink '*' if none is given for a root group), with the nesting of the document as parent relation.",
  "all YAML documents",
  "all documents",
  [f"{YM}: parseGroup", f"{YM}: parseGroups"])
p("Reserved name '*' is refused",
  "A YAML document can neither create nor replace a sink or a group named '*'; such a node is reported as an error and skipped.",
  "all YAML documents",
  "all documents",
  [f"{YM}: parseSink", f"{YM}: parseGroup"])
p("configure() terminates on every document",
  "configure() with a YAML configurator returns for every document and leaves the group hierarchy acyclic.",
  "all YAML documents",
  "all documents",
  [f"{YM}: parseGroup", f"{LS}: setParentOfGroup"])
p("A rejected node has no effect",
  "A sink node or group node that is reported as unusable creates and modifies nothing, and the other nodes are processed as if it were absent (its children are skipped with it).",
  "all YAML documents, all bad nodes",
  "all documents",
  [f"{YM}: parseSink", f"{YM}: parseGroup"])
# --- syslog
p("Syslog receives each event's own text",
  "For each queued event that syslog may receive, flush() sends exactly one message: that event's own rendered text with the priority of its level; TRACE events are not sent.",
  "all queue contents",
  "all queue contents",
  [f"{SY}: SinkToSyslog::flush"])
p("Syslog rendering stays inside its buffer",
  "Draining any queue contents never writes beyond the syslog sink's staging buffer.",
  "all queue contents, all accepted parameters",
  "needs worst-case contents",
  [f"{SY}: SinkToSyslog::flush"])
p("One syslog sink at a time",
  "At most one syslog sink exists at a time: creating a second one throws; after the existing one is destroyed a new one can be created.",
  "all histories of construction and destruction by any threads",
  "unbounded histories",
  [f"{SY}: SinkToSyslog::SinkToSyslog", f"{SY}: SinkToSyslog::~SinkToSyslog"])
# --- misc
p("Thread numbers are unique and stable",
  "Each thread that logs gets one number at first use and keeps it; different threads have different numbers; the numbers given out are 1..n.",
  "all interleavings of first uses",
  "schedules",
  ["include/soralog/util.hpp: getThreadNumber"])
p("Thread name shown is bounded and stable",
  "The thread name attached to a thread's events is its name at its first event with name display, cut to 15 characters, and never changes afterwards; setThreadName cuts to 15 characters.",
  "all histories of renames and events of a thread",
  "unbounded histories",
  ["include/soralog/util.hpp: getThreadName", "include/soralog/util.hpp: setThreadName", f"{EV}: Event::Event"])
p("Level indices are always inside the tables",
  "Every event stored in a sink has a level from CRITICAL to TRACE, so the level-name and colour tables are never indexed out of range.",
  "all histories of pushes",
  "all histories",
  ["include/soralog/level.hpp: levelToStr", f"{CO}: level_to_color_map", f"{SK}: Sink::push"])
p("Fallback configurator gives a working system",
  "After configure() with FallbackConfigurator every getLogger with a name other than '*' for its group succeeds and its admitted messages go to the console sink at the configured level.",
  "all logger and group names, all levels",
  "all names",
  ["src/impl/fallback_configurator.cpp: FallbackConfigurator::applyOn", f"{LS}: getLogger"])
p("The null sink never stores anything",
  "A push to the sink to nowhere never stores an event and its flush always terminates at once.",
  "all pushes and histories",
  "all histories",
  ["src/impl/sink_to_nowhere.cpp: SinkToNowhere", f"{SK}: Sink::push"])
p("No sink call or destructor can be trapped",
  "From every state a sink can be in, whatever the threads using it have done so far, every pending push, flush, async_flush and rotate call and a started destructor can still complete; there is no deadlock between producers, flushers, the worker and the destructor, also when the queue is full.",
  "all reachable states under all interleavings, all capacities >= 1, any number of threads",
  "a deadlock shows only under a particular schedule",
  [f"{SK}: Sink::push", f"{FI}: SinkToFile::flush", f"{FI}: SinkToFile::run", f"{FI}: SinkToFile::~SinkToFile", f"{CO}: SinkToConsole::flush"])
p("Group setters reach every logger of that group",
  "After setLevelOfGroup(G, l) (setSinkOfGroup(G, s)) returned true, every live logger whose group is named G and whose level (sink) is not overridden has the level l (the sink s).",
  "all histories of calls, all groups, levels and sinks",
  "all histories",
  [f"{LS}: setLevelOfGroup", f"{LS}: setSinkOfGroup", f"{LS}: makeGroup"])
p("unsetParentOfGroup freezes the properties",
  "After unsetParentOfGroup(G) the group keeps its level and sink and both are marked as overridden, so they stay its own when it gets a parent again (as the header documents).",
  "all histories of calls, all groups",
  "all histories",
  [f"{LS}: unsetParentOfGroup", "include/soralog/logging_system.hpp: unsetParentOfGroup", "src/group.cpp: Group::unsetParentGroup"])
p("Set properties of a group are marked as overridden",
  "After setLevelOfGroup / setSinkOfGroup the property is marked as overridden (as the header documents), and a later change of the group's parent does not change it.",
  "all histories of calls, all groups",
  "all histories",
  [f"{LS}: setLevelOfGroup", f"{LS}: setSinkOfGroup", "src/group.cpp: Group::setLevel", "src/group.cpp: Group::setSink"])
p("Setters of a group object equal the calls of the system",
  "Calling a public setter of a Group object has the same effect on groups and loggers as the call of LoggingSystem for the group's name.",
  "all histories of calls, all groups",
  "all histories",
  ["src/group.cpp: Group::setLevel", "src/group.cpp: Group::setSink", f"{LS}: setLevelOfGroup"])
p("A wrong value is reported and the rest of the document applies",
  "Whatever value a node of a YAML document has, configure() does not throw because of it: the problem is reported and the other nodes are applied.",
  "all YAML documents",
  "all documents",
  [f"{YM}: applyOn", f"{YM}: parseSinks", f"{YM}: parseGroup"])
p("The sinks of a document are those declared",
  "The sinks registered by configure() with a YAML document are exactly the usable sink nodes of the document, each with the parameters written there or the documented default.",
  "all YAML documents",
  "all documents",
  [f"{YM}: parseSinks", f"{YM}: parseSinkToConsole", f"{YM}: parseSinkToFile"])
p("A document is a sequence of API calls",
  "Applying a YAML document has exactly the effect of a sequence of makeSink, makeGroup and set...OfGroup calls of the public API, so that everything that holds for all call histories holds after configure().",
  "all YAML documents",
  "all documents",
  [f"{YM}: applyOn", f"{YM}: parseGroup"])
SY="src/impl/sink_to_syslog.cpp"
p("Syslog receives every event once, in order, also under concurrency",
  "Under every schedule of pushing, flushing and destroying threads, the syslog(3) calls of a syslog sink are one call per accepted event that has a priority, in acceptance order, with that priority; the text of a call depends only on the events its own flush has processed; and a flush that got the right to write does not return before, at some moment during the call, every event accepted until then has been passed on.",
  "all schedules of any number of threads, all events",
  "all interleavings",
  [f"{SY}: SinkToSyslog::flush", f"{SY}: SinkToSyslog::run", f"{SY}: SinkToSyslog::~SinkToSyslog"])
p("A flush is bounded work whatever other threads do",
  "A call of flush() processes a bounded number of events even if other threads keep pushing: it cannot be kept from returning by other producers.",
  "all schedules of any number of threads",
  "all interleavings of any length",
  [f"{SY}: SinkToSyslog::flush", "src/impl/sink_to_file.cpp: SinkToFile::flush", "src/impl/sink_to_console.cpp: SinkToConsole::flush"])
p("The sink guarantees hold with the queue as it is written",
  "With the queue executed one atomic access at a time, interleaved with everything else: a push that has returned has put its event into the queue exactly once; accepted events keep the order of arrival and of each thread; what is written is a prefix of them, byte for byte; the account of buffered bytes is exact when no call is running; one thread writes at a time; the destructor of a sink with a worker writes everything; no slot is accessed out of range, before its element is constructed, or through an empty reference. Conversely, whatever can be observed of the sink on a queue with atomic operations can be observed on this one.",
  "all schedules of the atomic accesses of any number of threads, all events, all capacities of at least 1",
  "all interleavings of any length",
  ["include/soralog/circular_buffer.hpp: CircularBuffer::put, get, size, NodeRef", "include/soralog/sink.hpp: Sink::push", "src/impl/sink_to_file.cpp: SinkToFile::flush", "src/impl/sink_to_syslog.cpp: SinkToSyslog::flush"])
p("A program that uses the library as documented does nothing undefined",
  "Whatever sequence of calls a program makes - configure() with any document, makeSink, makeGroup, getLogger, the setters, logging, flush, rotate - no call follows a null pointer, uses a queue without slots or writes outside a buffer.",
  "all call sequences, all documents, all messages, all environments (clock, threads, files)",
  "all histories",
  ["src/logging_system.cpp: configure, getLogger", f"{YM}: parseMultisink", "include/soralog/logger.hpp: Logger::push", "src/impl/multisink.cpp: Multisink::async_flush"])
p("From the document to the file: each sink holds exactly the messages owed to it",
  "After any sequence of calls by one thread - configuration from a document or by calls, changes of levels, sinks, parents and groups, logging, flushing, rotating - every console and opened file holds one record, in the layout of C10, for each message that the level of the logger and of each multisink and sink on a path at that moment admitted (once per path), in the order of the calls, and nothing else; the warnings of getLogger are among them.",
  "all call sequences, all documents, all messages",
  "all histories",
  ["src/logging_system.cpp: configure, getLogger", "include/soralog/logger.hpp: Logger::push", "include/soralog/sink.hpp: Sink::push", "src/impl/multisink.cpp", "src/impl/sink_to_file.cpp: SinkToFile::flush"])
p("The latency bounds how long an event waits, and an idle worker sleeps",
  "In a sink with latency L whose worker thread is never scheduled more than d late, an event pushed to the sink is written at most L + d after its push, whatever else happens; and while nobody pushes or flushes, the worker wakes up at most once per L.",
  "all executions with time: all moments of pushes, flushes, requests, wake-ups and timeouts",
  "all timings",
  ["src/impl/sink_to_console.cpp: SinkToConsole::run, flush", "src/impl/sink_to_file.cpp: SinkToFile::run, flush", f"{SY}: SinkToSyslog::run, flush", "include/soralog/sink.hpp: latency_"])
p("Calls of the logging system by several threads take effect one after the other",
  "Whatever calls of LoggingSystem several threads make at the same time, each has the effect and the outcome it has when the calls are made one after the other in some order; so what holds for all call histories (C32-C46) holds for several threads, too.",
  "all schedules of the steps of any number of threads, all calls",
  "all interleavings of any length",
  ["src/logging_system.cpp: LoggingSystem::makeGroup", "src/group.cpp: Group::Group", "include/soralog/logging_system.hpp: mutex_"])
p("A log call acts on the level and the sink of one moment",
  "Whatever other threads change meanwhile, a log call passes its message on at most once, and what it does - pass it on or not, to which sink, flush or not - is what the level and the sink the logger had at some one moment during the call prescribe.",
  "all schedules, all messages, all concurrent changes of levels, sinks, groups and parents",
  "all interleavings of any length",
  ["include/soralog/logger.hpp: Logger::push", "src/logger.cpp: Logger::setGroup"])
p("Concurrent calls cannot corrupt the logging system",
  "Whatever any number of threads call at the same time: there is at most one live logger per name and it is found under it; registered names lead to existing groups and sinks of that name; every parent, group and sink referred to exists; no chain of parents closes except at a group that is its own parent; a call needs a bounded number of its own steps.",
  "all schedules of the steps of any number of threads, all calls",
  "all interleavings of any length",
  ["src/logging_system.cpp", "src/group.cpp: Group::Group", "include/soralog/logger.hpp: Logger::push"])
p("Queue and sinks are free of data races",
  "Whatever any number of threads do with a queue (put, get, size, reading an element through its NodeRef, destroying NodeRefs) or with a console, file or syslog sink (push, flush, async_flush, rotate, the worker thread, the destructor once all calls have returned): two accesses of the same slot, of the staging buffer or of the output stream by different threads, at least one a write, are always ordered by happens-before, so the program has no data race there.",
  "all schedules of any number of threads, all capacities of at least 1",
  "all interleavings; a race detector sees only the executed ones",
  ["include/soralog/circular_buffer.hpp: busy_, Node::busy, NodeRef", "src/impl/sink_to_file.cpp: flush_in_progress_, SinkToFile::flush, ~SinkToFile", "src/impl/sink_to_console.cpp: SinkToConsole::flush", "src/impl/sink_to_syslog.cpp: SinkToSyslog::flush"])
p("The logging system is free of data races",
  "Whatever any number of threads do with a LoggingSystem and its loggers: two accesses of the same member of a logger, group or of the system by different threads, at least one a write, are always ordered by happens-before.",
  "all schedules of any number of threads, all calls",
  "all interleavings; a race detector sees only the executed ones",
  ["include/soralog/logger.hpp: Logger::push, level_, sink_", "src/group.cpp: Group::Group", "include/soralog/logging_system.hpp: mutex_", "src/logging_system.cpp"])
p("A log call that is still formatting does not stop the others",
  "While one thread is still formatting its message (a slow or blocking formatter, a formatter that itself logs, one that throws something other than a std::exception), the calls of the other threads - log calls, flush, the worker, the destructor - can still return without it, and the other messages are still written.",
  "all reachable states, all schedules of the other threads, for ever",
  "absence of progress over all infinite continuations",
  ["include/soralog/circular_buffer.hpp: put, get, Node::init", "include/soralog/sink.hpp: Sink::push", "src/impl/sink_to_file.cpp: SinkToFile::flush", "include/soralog/event.hpp: Event::Event"])
p("A log call that returned first is written first",
  "If a log call of any thread returns before another log call, of the same or another thread, starts, then in the output the message of the first precedes that of the second, whatever other threads do meanwhile.",
  "all schedules of any number of threads, all events, all later states",
  "all interleavings of any length",
  ["include/soralog/circular_buffer.hpp: put, get", "include/soralog/sink.hpp: Sink::push", "src/impl/sink_to_file.cpp: SinkToFile::flush"])
p("The time of a message is a moment during its log call",
  "If the clock is never set back, the time recorded with a message lies between the reading of the clock when its log call started and that when it returned.",
  "all schedules of any number of threads, all clock readings",
  "all interleavings of any length",
  ["include/soralog/event.hpp: Event::Event, timestamp_", "include/soralog/circular_buffer.hpp: put"])
p("The lines of a log are in the order of their times",
  "If the clock is never set back, the times recorded with the messages never decrease from one line of the output to the next.",
  "all schedules of any number of threads, all clock readings",
  "all interleavings of any length",
  ["include/soralog/event.hpp: Event::Event, timestamp_", "include/soralog/circular_buffer.hpp: put"])
p("Nothing is destroyed while it is used, and in the end everything is",
  "While the program holds a logger, or the LoggingSystem exists, no group or sink it leads to is destroyed, whatever else goes; no object is destroyed twice; and once the LoggingSystem and all pointers of the program are gone, every group, logger and sink has been destroyed exactly once (so that the destructor of every sink has run and written what was queued).",
  "all histories of a program, all sets and orders of pointers that go",
  "all object graphs and orders of destruction",
  ["include/soralog/group.hpp: parent_group_, sink_", "include/soralog/logger.hpp: group_, sink_", "include/soralog/logging_system.hpp: sinks_, groups_, loggers_", "include/soralog/impl/multisink.hpp"])
p("Methods of Group objects cannot damage the system",
  "A public method of a Group object changes this group only (not its name): no other group, no logger, no registration. An overload taking a name does what the overload taking the pointer does to the object of that name, and nothing if there is none; the same for Logger. After any history of such methods and of LoggingSystem calls getGroup(n) and getSink(n) give existing objects named n, everything an object refers to exists, and no two live loggers have one name; the guarantees of the calls of the system (C35, C40-C45) hold in these histories too.",
  "all histories of LoggingSystem calls and methods of Group and Logger objects",
  "all histories of any length",
  ["src/group.cpp: Group::setLevel, resetLevel, setLevelFromGroup, setSink, resetSink, setSinkFromGroup, unsetParentGroup, setParentGroup", "src/logger.cpp: overloads taking names"])
p("Methods of Group objects do what the header says",
  "setLevel/setSink set the property and mark it as overridden; resetLevel/resetSink take it from the parent and mark it as inherited; set...FromGroup take it from that group; setParentGroup inherits what is not overridden from the new parent and keeps the rest; unsetParentGroup keeps all values and marks them as overridden.",
  "all states, groups and arguments",
  "all states of any size",
  ["include/soralog/group.hpp", "src/group.cpp"])
p("Methods of Group objects do not make later LoggingSystem calls hang",
  "After any history of LoggingSystem calls and of methods of Group objects the hierarchy has no cycle and every LoggingSystem call returns.",
  "all histories of LoggingSystem calls and methods of Group and Logger objects",
  "all histories of any length; non-termination",
  ["src/group.cpp: Group::setParentGroup", "src/logging_system.cpp: setParentOfGroup, setSinkOfGroup, setLevelOfGroup"])
p("Delivery from log call to file in a program of many threads",
  "In a program whose threads configure the system, change it, log and use sinks at the same time, each message a thread pushes reaches each file, console or syslog sink exactly as often as there are paths of admitting filters from the logger's sink to it: none is lost, doubled, reordered within its thread, or sent to another sink. The file contains, record by record, the beginning of what each thread addressed to it at any moment, and all of it when the destructor of a sink with a worker thread has returned. A log call during which nobody changes its logger delivers its message to exactly the sinks the logger's level and sink determine before it returns.",
  "all schedules of any number of threads, all histories of configuration, all nestings of multisinks",
  "all interleavings of any length over the whole program",
  ["include/soralog/logger.hpp: Logger::push", "include/soralog/sink.hpp: push", "src/impl/multisink.cpp", "src/impl/sink_to_file.cpp", "src/logging_system.cpp"])
p("A formatter that throws does not stop the log",
  "If formatting an argument throws something that is not a std::exception and the caller catches it (builds without NDEBUG), later log calls and flushes still work: no undefined behaviour, and the messages logged before and after come out.",
  "all schedules of any number of threads, any number of exceptions",
  "all interleavings and crash points of a construction",
  ["include/soralog/circular_buffer.hpp: put, Node::init", "include/soralog/sink.hpp: push", "include/soralog/event.hpp: Event::Event (catch block)"])
p("What is logged alone appears as it is",
  "A log call with a single argument logs the text of this argument unchanged (up to the length limit), whatever characters it contains.",
  "all texts, levels, sinks and nestings of multisinks",
  "all texts",
  ["include/soralog/logger.hpp: trace, debug, verbose, info, warn, error, critical (both overloads), log", "include/soralog/macro.hpp", "include/soralog/event.hpp: vformat_to_n"])
p("Under a fair scheduler calls return",
  "If every thread that has something to do is scheduled again and again, then as long as calls of a queue or of a sink are pending some call returns, all return once no more calls are made, and a destructor that has been started finishes once the deadlines of the worker's waits pass.",
  "all endless fair schedules of any number of client threads and the worker",
  "endless executions: a test observes finite prefixes only, and schedulers that starve a thread at a spin lock are rare",
  ["include/soralog/circular_buffer.hpp: put, get, size, avail, capacity", "include/soralog/sink.hpp: push", "src/impl/sink_to_file.cpp: flush, run, ~SinkToFile", "src/impl/sink_to_console.cpp: flush, run, ~SinkToConsole", "src/impl/sink_to_syslog.cpp: flush, run, ~SinkToSyslog"])
p("The sink a log call is inside of is not destroyed",
  "While a thread is inside push or flush of a sink, called by a log call through a logger the program holds, the sink is not destroyed, whatever calls of the logging system other threads complete meanwhile.",
  "all programs, numbers of threads, calls and interleavings, any time spent inside the sink",
  "a use after free needs the release of the last pointer within the call of another thread",
  ["include/soralog/logger.hpp: push, sink_", "include/soralog/logging_system.hpp: makeSink", "src/logging_system.cpp: setSinkOfGroup, setSinkOfLogger, setGroupOfLogger", "src/logger.cpp: setSink"])
p("The arguments of a sink's constructor mean what their names say",
  "A value given to a constructor of a sink for the parameter the header calls capacity, max_message_length, buffer_size or latency is used for that; a value left out is the default of that parameter. The same holds for the values of a document.",
  "all sink classes, all combinations of given and omitted values, all numbers",
  "all combinations; the types of the parameters are the same, so no test that uses defaults or equal values notices an exchange",
  ["include/soralog/impl/sink_to_file.hpp: SinkToFile", "src/impl/sink_to_file.cpp: SinkToFile::SinkToFile", "include/soralog/impl/sink_to_console.hpp", "include/soralog/impl/sink_to_syslog.hpp", "src/impl/configurator_from_yaml.cpp: parseSinkToFile, parseSinkToConsole, parseSinkToSyslog"])
p("What has been logged is written in the end",
  "Every event a console, file or syslog sink has accepted is handed to its stream (to syslog()) some time later, in order, without anybody having to destroy the sink; for a file the bytes reach the operating system some time later.",
  "all endless fair schedules of any number of client threads and the worker, all calls",
  "endless executions: a test can only wait for a while; whether an event is left behind depends on the schedule",
  ["include/soralog/sink.hpp: push", "src/impl/sink_to_file.cpp: flush, run", "src/impl/sink_to_console.cpp: flush, run", "src/impl/sink_to_syslog.cpp: flush, run"])
p("The worker hears the destructor",
  "A destructor of a sink that has been started makes the worker thread finish by its notification: if all threads keep being scheduled it finishes even if no wait of the worker ever reaches its deadline.",
  "all endless fair schedules of any number of client threads and the worker, all moments at which the destructor is started, all queue contents",
  "a lost wake-up needs the notification to fall into a window of a few instructions; a test that passes has not hit it",
  ["src/impl/sink_to_file.cpp: SinkToFile::run, async_flush, ~SinkToFile", "src/impl/sink_to_console.cpp: SinkToConsole::run, async_flush, ~SinkToConsole", "src/impl/sink_to_syslog.cpp: SinkToSyslog::run, async_flush, ~SinkToSyslog"])
p("Destroying a sink takes no longer than its latency",
  "In a sink with latency L whose worker thread is never scheduled more than d late, the destructor returns at most L + d after it was started, whatever is queued.",
  "all executions with time, all queue contents, all moments of the destruction, of wake-ups and of timeouts",
  "all timings and all numbers of queued events",
  ["src/impl/sink_to_file.cpp: SinkToFile::run, flush, ~SinkToFile", "src/impl/sink_to_console.cpp: SinkToConsole::run, flush, ~SinkToConsole", "src/impl/sink_to_syslog.cpp: SinkToSyslog::run, flush, ~SinkToSyslog", "include/soralog/sink.hpp: latency_"])
p("A program cannot deadlock",
  "Whatever several threads do with one logging system, its loggers and its sinks, at every moment all calls that have been started - of the logging system, of configure(), of loggers and sinks, and destructors of sinks - can be brought to their ends, with nobody starting anything new, provided no call uses a destroyed sink; this includes the warnings getLogger() writes and the sinks makeSink() destroys while the logging system's mutex is held. Log calls can be completed whoever holds that mutex, and no two threads are inside it at once.",
  "all programs of any number of threads, all interleavings down to the single atomic accesses of the queues, all sinks and multisinks",
  "all interleavings; a test shows that it did not deadlock once",
  ["src/logging_system.cpp: makeGroup, configure, getLogger, getSink, getGroup", "include/soralog/logging_system.hpp: makeSink, mutex_", "include/soralog/logger.hpp: Logger::push, flush", "src/impl/multisink.cpp", "include/soralog/circular_buffer.hpp"])
p("Several threads do nothing undefined",
  "In a program in which every group without a parent names its sink, no sink is an empty multisink and every queue has room, whatever several threads do at once: no log call goes through a null pointer, no element of a queue is accessed out of range, before it is constructed or after it has been given away, no queue holds more than its capacity, and the record of every accepted event fits the staging buffer of a console or file sink with the documented minimum sizes.",
  "all programs of any number of threads, all interleavings, all messages, clocks and threads",
  "all interleavings and all messages",
  ["src/logging_system.cpp", "src/group.cpp: Group::Group", "include/soralog/logger.hpp: Logger::push", "include/soralog/circular_buffer.hpp", "src/impl/sink_to_file.cpp: flush", "src/impl/sink_to_console.cpp: flush"])
p("Colour does not leak and shows what it should",
  "After each record of a coloured console sink the terminal is in its normal style and outside any escape sequence, whatever the terminal was doing before and whatever escape sequences, complete or cut off, the texts of the event contain. For texts without escape characters the terminal shows exactly the characters of the plain record: the microseconds gray, the level word bold in the colour of its level, the name bold, the message in the style of its level, everything else normal.",
  "all messages, names and thread names, all levels, both colour options, all terminal states, all interleavings of any number of threads",
  "all texts, including those that contain escape sequences; what a terminal shows depends on everything it has received before",
  ["src/impl/sink_to_console.cpp: SinkToConsole::flush, put_level_style, put_text_style, put_reset_style"])
p("A log file can be read back",
  "The lines of a log file are the records, one for each event, and reading each line gives back the time, level, logger name and message of its event; nobody can make a log call that leaves what two others would leave.",
  "all sequences of events, all interleavings of any number of threads, all flushes and rotations",
  "all texts and all sequences; a test with well-behaved messages says nothing about others",
  ["src/impl/sink_to_file.cpp: SinkToFile::flush", "include/soralog/event.hpp: Event"])
p("A program that stops logging comes to rest and its log is complete",
  "Take any program of several threads that use one logging system, its loggers and its sinks, under a fair scheduler, with spin locks that starve nobody, timed waits that end and stores that become visible. If from some moment on nobody starts a call and no pending call uses a destroyed sink, then after some time no thread is inside any call - of the logging system, configure(), loggers, sinks or destructors of sinks - and nobody holds the mutex, for ever; and every opened sink with a latency has handed to its stream (to syslog()) the records of exactly the messages each thread addressed to it: all, in order, each once.",
  "all programs of any number of threads, all endless fair interleavings down to the single atomic accesses of the queues, all sinks and multisinks",
  "liveness: every test is finite, and the property speaks of all endless schedules",
  ["src/logging_system.cpp: makeGroup, configure, getLogger", "include/soralog/logging_system.hpp: makeSink, mutex_", "include/soralog/logger.hpp: Logger::push, flush", "src/impl/multisink.cpp", "include/soralog/circular_buffer.hpp", "src/impl/sink_to_file.cpp: SinkToFile::run, flush, ~SinkToFile", "src/impl/sink_to_console.cpp: SinkToConsole::run, flush", "src/impl/sink_to_syslog.cpp: SinkToSyslog::run, flush"])
p("What was said first stands first, and a crash loses only an end",
  "In a program of several threads that use one logging system, its loggers and sinks: what a log call put into a sink before it returned stands in that sink before everything put there by any call that began later, by whatever thread and through whatever logger or multisink, and is written in that order. If the process is killed at any moment, what the operating system has of a file or console is a beginning of the records accepted so far, those of each thread being the first ones it addressed to this sink, and what the operating system has it keeps.",
  "all programs of any number of threads, all interleavings down to the single atomic accesses of the queues, all sinks and multisinks, all crash points",
  "all interleavings and all crash points",
  ["include/soralog/logger.hpp: Logger::push", "include/soralog/sink.hpp: Sink::push", "src/impl/multisink.cpp", "include/soralog/circular_buffer.hpp", "src/impl/sink_to_file.cpp: SinkToFile::flush", "src/impl/sink_to_console.cpp: SinkToConsole::flush", "src/logging_system.cpp"])
p("A requested flush brings the log to the operating system",
  "After async_flush() (or rotate(), or when the high-water mark has been passed), everything a console or file sink had handed to its stream by then reaches the operating system some time later, as long as the program goes on under a fair scheduler.",
  "all endless fair executions of any number of threads, all calls, all moments of the request",
  "liveness over all schedules; a test cannot tell never from not yet",
  ["src/impl/sink_to_file.cpp: async_flush, flush, run", "src/impl/sink_to_console.cpp: async_flush, flush, run"])
p("When a log call has returned, its record is in the operating system",
  "When a log call has returned, every console or file sink that the message came to has handed its record to the operating system, provided that nobody else used that sink during the call and everything before had been handed to its stream.",
  "all programs of any number of threads, all nestings of multisinks, all messages, everything that may happen elsewhere meanwhile, all amounts the stream passes on by itself",
  "whether the stream's buffer has reached the system cannot be seen from inside the process, and a test sees one nesting and one amount",
  ["include/soralog/logger.hpp: Logger::push", "src/impl/multisink.cpp: Multisink::flush", "include/soralog/impl/multisink.hpp: async_flush", "src/impl/sink_to_file.cpp: async_flush, flush", "src/impl/sink_to_console.cpp: async_flush, flush"])
p("A failing disk costs at most what is being written",
  "If an operation on the output of a console or file sink (write, flush, close) fails at some time - a full disk, a lost terminal - and later ones succeed again, no call throws, hangs or behaves otherwise, what was written before is kept, each file holds a beginning of the records of its time, and what is logged after the output works again is written.",
  "all executions of any number of threads, all moments and extents of failure of each single operation, all rotations",
  "a test would have to make each single operation of the operating system fail, in every combination and at every moment",
  ["src/impl/sink_to_file.cpp: SinkToFile::flush, ~SinkToFile, out_", "src/impl/sink_to_console.cpp: SinkToConsole::flush, stream_"])
p("What a document configures is what several threads log to",
  "configure() has read a document. Whatever threads then get loggers of its groups, log, flush and drop loggers, in whatever interleaving among them and with the sinks' workers: each sink of the document receives from each thread exactly the messages of its log calls that the level of the logger's group admits, once per path from the group's sink along which every sink admits it, in the order of the calls. A file or console without colours consists of lines of the documented layout with the sink's thread-info setting, those of each thread being its first messages owed to that sink; and when a file with a latency has been destroyed by a program that has come to rest, it has all of them. When the threads stop calling, under a fair scheduler they come to rest and every opened sink with a latency has been given all of them, and nothing else. Of a coloured console this holds after the escape sequences have been removed, for texts without ESC.",
  "all documents, all programs of any number of threads that log to registered groups, all interleavings down to the single atomic accesses of the queues, all trees of sinks",
  "all documents and all interleavings; a test sees one configuration and one schedule",
  ["src/logging_system.cpp: configure, getLogger, makeGroup", "src/impl/configurator_from_yaml.cpp: applyOn, createSink", "include/soralog/logger.hpp: Logger::push", "include/soralog/sink.hpp: Sink::push", "src/impl/multisink.cpp", "src/impl/sink_to_file.cpp: flush, ~SinkToFile"])
p("A queue is ready when it has been constructed",
  "For every capacity and padding whose total number of bytes can be expressed in size_t the constructor of the queue returns, and then each of its slots has exactly one node, not in use, at its own place inside the allocation; in particular for the queue of every sink a document declares.",
  "all element sizes and alignments, all capacities and paddings, all documents",
  "the loop runs once per slot; capacities from which its index overflows need more memory than a test machine has",
  ["include/soralog/circular_buffer.hpp: CircularBuffer::CircularBuffer", "include/soralog/sink.hpp: Sink::Sink", "src/impl/configurator_from_yaml.cpp: capacity"])
p("A requested rotation is carried out for every file below the sink",
  "When rotate() of a sink is called - of a file sink, or of a multisink of any depth - then the file of every file sink that is this sink or is below it is re-opened some time after the call, as long as the program goes on under a fair scheduler, re-opening succeeds and the sink is not destroyed.",
  "all endless fair executions of any number of threads, all nestings of multisinks, all moments of the call relative to what others do",
  "liveness over all schedules; a test cannot tell never from not yet",
  ["src/impl/multisink.cpp: Multisink::rotate", "src/impl/sink_to_file.cpp: SinkToFile::rotate, async_flush, flush, run"])
p("Calls of sinks that do not overlap behave as in a program with one thread",
  "Several threads use the same console, file and syslog sinks and multisinks of them, but each call of push, flush, async_flush and rotate returns before the next one is made, whichever thread makes it, and the workers make their passes between the calls. Then the sinks are, call after call, as if one thread had made the calls, a pass being a flush of the worker's sink: same events queued, same account and requests, same contents of every file (also of those a rotation has left behind), same calls of syslog(). So what holds of these calls in a program with one thread holds of them here.",
  "all sequences of calls by any threads and passes of workers, all trees of sinks, all parameters (buffer below 2^62), all answers of the clock, of the exchanges and of re-opening; in particular the sinks of every configuration document",
  "all sequences of calls and all environments",
  ["include/soralog/sink.hpp: Sink::push", "src/impl/multisink.cpp", "src/impl/sink_to_file.cpp: flush, async_flush, rotate", "src/impl/sink_to_console.cpp: flush, async_flush", "src/impl/sink_to_syslog.cpp: flush, async_flush", "include/soralog/circular_buffer.hpp: put, get"])
p("A program whose calls do not overlap behaves as a program with one thread",
  "Several threads log through loggers, flush and rotate, get and drop loggers, make groups, change levels, sinks and parents of groups and loggers - but each call is over before the next one is made, whichever thread makes it, and the workers of the sinks make their passes between the calls. Then the logging system (groups, loggers, tables, warnings) and every sink (queue, account, requests, contents of all files, calls of syslog()) are, call after call, as if one thread had made the calls. So everything that is guaranteed for a program with one thread - what is delivered, in which order, with which text - holds of such a program too; in particular after any configuration document has been applied.",
  "all sequences of calls by any threads and passes of workers that create no sink, all documents, all trees of sinks with a queue, all answers of the clock, of the exchanges and of re-opening",
  "all sequences of calls and all environments",
  ["include/soralog/logger.hpp: Logger::push, Logger::flush", "src/logging_system.cpp", "src/group.cpp", "src/impl/multisink.cpp", "include/soralog/sink.hpp: Sink::push", "src/impl/sink_to_file.cpp", "src/impl/sink_to_console.cpp", "src/impl/sink_to_syslog.cpp"])
p("In a program that never stops, what has been logged is written in the end",
  "Any number of threads use one logging system and its sinks and never stop making calls; the scheduler is fair, the spin locks starve nobody and the timed waits end. Take any moment, and an opened console, file or syslog sink with a latency that is not destroyed: some time later and from then on its stream has been given (syslog() has been called for) the record of every message that any thread whose calls of sinks had returned at that moment had addressed to the sink - all, in the order of the thread, each once - and nothing that was not addressed to it.",
  "all endless fair executions of any number of threads that start calls for ever, all moments, all trees of sinks",
  "liveness over all schedules; a test cannot tell never from not yet",
  ["include/soralog/sink.hpp: Sink::push", "include/soralog/logger.hpp: Logger::push", "src/impl/sink_to_file.cpp: run, flush", "src/impl/sink_to_console.cpp: run, flush", "src/impl/sink_to_syslog.cpp: run, flush", "include/soralog/circular_buffer.hpp: put, get"])
open('/verif/properties.jsonl','w').write(''.join(json.dumps(x,ensure_ascii=False)+'\n' for x in P))
for x in P: print(x['id'],x['title'])
