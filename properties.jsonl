{"id": "C01", "title": "Circular buffer is a linearizable bounded FIFO", "statement": "Every concurrent use of CircularBuffer::put/get/size/avail/capacity by any number of threads is equivalent to executing the calls one at a time, each at an instant between its call and its return, on a plain bounded FIFO queue: put succeeds iff the queue is not full and appends, get returns the oldest element iff the queue is not empty, size/avail/capacity report the queue's length, its free room and the constructor's capacity. In particular nothing is lost, duplicated or reordered.", "quantifier": "all capacities >= 1, all numbers of threads, all interleavings of atomic steps, all histories of calls, all lifetimes of the returned NodeRefs", "why_tests_cant": "the number of interleavings is unbounded; the unit test only prints what one schedule did", "anchors": ["include/soralog/circular_buffer.hpp: CircularBuffer::put", "include/soralog/circular_buffer.hpp: CircularBuffer::get", "include/soralog/circular_buffer.hpp: CircularBuffer::size", "include/soralog/circular_buffer.hpp: CircularBuffer::avail", "include/soralog/circular_buffer.hpp: CircularBuffer::capacity"]}
{"id": "C02", "title": "A live NodeRef owns its element", "statement": "While a NodeRef returned by put or get is alive, the element it refers to is fully constructed, equals the value that was put, is referenced by no other live NodeRef, and is not changed by any other thread.", "quantifier": "all capacities >= 1, all interleavings, all sets of simultaneously live NodeRefs", "why_tests_cant": "a torn read or overwrite needs a particular interleaving of construction, index wrap-around and release", "anchors": ["include/soralog/circular_buffer.hpp: CircularBuffer::NodeRef", "include/soralog/circular_buffer.hpp: CircularBuffer::put", "include/soralog/circular_buffer.hpp: CircularBuffer::get"]}
{"id": "C03", "title": "Circular buffer never leaves its bounds", "statement": "No schedule of put/get/size/avail calls on a buffer of capacity >= 1 ever indexes outside the slots, trips an internal assertion, or makes size() exceed capacity(); size() + avail() reported for the same instant is always capacity().", "quantifier": "all capacities >= 1 (including 1), all interleavings, unbounded histories with index wrap-around", "why_tests_cant": "wrap-around bugs show only at particular counts and schedules", "anchors": ["include/soralog/circular_buffer.hpp: push_index_", "include/soralog/circular_buffer.hpp: pop_index_", "include/soralog/circular_buffer.hpp: size_"]}
{"id": "C04", "title": "Circular buffer operations cannot deadlock", "statement": "From every reachable situation each pending put/get/size/avail call can still complete, provided outstanding NodeRefs are eventually released; the spin lock is never left held by a thread that has returned.", "quantifier": "all reachable states, all numbers of threads and pending calls", "why_tests_cant": "absence of deadlock is a statement about all states, a test that happens to finish shows nothing about the others", "anchors": ["include/soralog/circular_buffer.hpp: busy_", "include/soralog/circular_buffer.hpp: Node::busy"]}
{"id": "C05", "title": "Per-producer order is kept", "statement": "Two elements put by the same thread one after the other are taken out in that same order, whatever other threads do.", "quantifier": "all pairs of puts of one thread, all interleavings", "why_tests_cant": "only sampled schedules can be tested", "anchors": ["include/soralog/circular_buffer.hpp: CircularBuffer::put", "include/soralog/circular_buffer.hpp: CircularBuffer::get"]}
{"id": "C06", "title": "Buffer slots do not overlap", "statement": "For every capacity and padding whose total number of bytes can be expressed in size_t, in particular for every sink a document declares, the storage of each element together with the max_message_length bytes following it lies inside the buffer's allocation, is correctly aligned, and is disjoint from the storage of every other element.", "quantifier": "all capacities and paddings/message lengths with a total size below 2^64, all documents, all slot indices", "why_tests_cant": "overlap depends on the residue of the padding modulo the alignment and on the index; sampling sizes is not proof", "anchors": ["include/soralog/circular_buffer.hpp: CircularBuffer(size_t,size_t)", "include/soralog/event.hpp: Event::message_data_"]}
{"id": "C07", "title": "Event text is a bounded prefix of the formatted text", "statement": "The message stored in an event is exactly the formatted text cut to max_message_length characters (unchanged when shorter), the logger name is the given name cut to 32 characters, the thread name has at most 15 characters, and nothing is stored beyond these limits.", "quantifier": "all formats and arguments that format successfully, all names, all message length limits including 0", "why_tests_cant": "truncation boundaries are an infinite family of inputs", "anchors": ["include/soralog/event.hpp: Event::Event"]}
{"id": "C08", "title": "A formatting failure becomes an error event instead of an exception", "statement": "If formatting throws a std::exception the call still produces exactly one event: its logger name is 'Soralog', its level ERROR and its message is the (truncated) text 'Format error: <what>; Format: <format>'.", "quantifier": "all failing formats, all limits, all levels", "why_tests_cant": "every kind of failure at every truncation point cannot be sampled", "anchors": ["include/soralog/event.hpp: Event::Event (catch block)"]}
{"id": "C09", "title": "Records fit the staging buffer", "statement": "Every record a console or file sink renders fits the sink's staging buffer, so rendering never writes outside it, for every sink whose parameters passed the configuration checks or are the constructor defaults (the clock being at or after 1970).", "quantifier": "all sink parameters accepted by the configurator or defaulted, all events the sink can hold, all thread-info modes, with and without colour", "why_tests_cant": "needs the worst case over all field lengths and parameter combinations", "anchors": ["src/impl/sink_to_console.cpp: SinkToConsole::flush", "src/impl/sink_to_file.cpp: SinkToFile::flush", "include/soralog/sink.hpp: Sink::Sink (Auto-fix buffer size)", "src/impl/configurator_from_yaml.cpp: parseSinkToConsole"]}
{"id": "C10", "title": "Record layout is fixed and invertible", "statement": "Each written record is: 17-character local date-time, '.', six digits of microseconds, two spaces, an optional thread column, the level name padded to 8, two spaces, the logger name, two spaces, the message, newline; level, name and message can be recovered from the record when the name contains no double space and does not end in a space (the clock being at or after 1970).", "quantifier": "all events, all thread-info modes", "why_tests_cant": "layout must hold for every field length, and invertibility ranges over pairs of events", "anchors": ["src/impl/sink_to_file.cpp: SinkToFile::flush", "src/impl/sink_to_console.cpp: put_level", "src/impl/sink_to_console.cpp: put_string", "src/impl/sink_to_console.cpp: put_separator"]}
{"id": "C11", "title": "Colour changes only escape sequences", "statement": "With colour enabled the console record is the plain record with ANSI escape sequences inserted: removing the escape sequences yields exactly the record that would have been written without colour (the clock being at or after 1970).", "quantifier": "all events whose texts contain no ESC character, all levels an event can have, all thread-info modes", "why_tests_cant": "ranges over all texts and levels", "anchors": ["src/impl/sink_to_console.cpp: put_level_style", "src/impl/sink_to_console.cpp: put_text_style", "src/impl/sink_to_console.cpp: put_reset_style"]}
{"id": "C12", "title": "Printed time is the event's own time", "statement": "The date-time column printed for an event is the local time of that event's own second, even when several events are rendered with one cached conversion.", "quantifier": "all sequences of event timestamps rendered in one flush", "why_tests_cant": "depends on the whole sequence of seconds through the cache", "anchors": ["src/impl/sink_to_file.cpp: SinkToFile::flush (psec)", "src/impl/sink_to_syslog.cpp: SinkToSyslog::flush (psec)"]}
{"id": "C13", "title": "Sink level filter is exact", "statement": "A sink accepts an event iff its level is neither OFF nor IGNORE and is not more detailed than the sink's level; a rejected push has no effect at all.", "quantifier": "all sink levels, event levels and sink states", "why_tests_cant": "no-effect must hold in all states", "anchors": ["include/soralog/sink.hpp: Sink::push"]}
{"id": "C14", "title": "A sink never emits an event more detailed than its level", "statement": "Every record a sink writes carries a level that is not more detailed than the sink's own level.", "quantifier": "all sinks, all histories of pushes including failing formats", "why_tests_cant": "ranges over all histories and failure modes", "anchors": ["include/soralog/sink.hpp: Sink::push", "include/soralog/event.hpp: Event::Event (catch block)"]}
{"id": "C15", "title": "Log call is delivered iff every filter on the path admits it", "statement": "A log call with level v on a logger reaches a destination sink exactly once per path from the logger's sink to it (through multisinks) iff v is a real level, the logger's level admits it and every sink on that path admits it; otherwise nothing happens (no multisink that admits messages being empty, see C31).", "quantifier": "all logger levels, event levels, all acyclic sink graphs of any depth and sharing", "why_tests_cant": "sink graphs of any depth and sharing cannot be enumerated", "anchors": ["include/soralog/logger.hpp: Logger::push", "include/soralog/sink.hpp: Sink::push", "src/impl/multisink.cpp: Multisink"]}
{"id": "C16", "title": "Logging macros are equivalent to the direct call", "statement": "SL_LOG and the SL_<LEVEL> macros have the same effect on the sinks as calling Logger::log directly, and evaluate their format arguments only if the logger's level admits the event.", "quantifier": "all loggers, levels, sinks and states", "why_tests_cant": "equivalence over all states", "anchors": ["include/soralog/macro.hpp: _SL_LOG_IF_LEVEL", "include/soralog/logger.hpp: Logger::log"]}
{"id": "C17", "title": "No accepted event is lost, duplicated or reordered (one thread)", "statement": "For every sequence of push/flush/async_flush/rotate calls on a console, or on a file that could be opened, the records written followed by the events still queued are exactly the accepted events in the order they were pushed.", "quantifier": "all call sequences, all capacities >= 1, latencies, buffer sizes", "why_tests_cant": "unbounded histories", "anchors": ["include/soralog/sink.hpp: Sink::push", "src/impl/sink_to_file.cpp: SinkToFile::flush", "src/impl/sink_to_console.cpp: SinkToConsole::flush"]}
{"id": "C18", "title": "push always terminates and always stores the event", "statement": "A push of an admissible event on a sink with capacity >= 1 returns after at most one forced flush when no other thread interferes, and the event is stored even when the queue was full.", "quantifier": "all queue states including full, all capacities >= 1", "why_tests_cant": "ranges over all queue states", "anchors": ["include/soralog/sink.hpp: Sink::push"]}
{"id": "C19", "title": "flush writes every queued event", "statement": "After flush() returns (no other thread flushing) every event that was queued has been handed to the destination.", "quantifier": "all queue contents, all sink types", "why_tests_cant": "ranges over all queue contents", "anchors": ["include/soralog/sink.hpp: Sink::flush", "src/impl/sink_to_file.cpp: SinkToFile::flush", "src/impl/sink_to_console.cpp: SinkToConsole::flush", "src/impl/sink_to_syslog.cpp: SinkToSyslog::flush"]}
{"id": "C20", "title": "Zero latency means written on return", "statement": "On a sink with latency 0 each accepted event has been written when push returns.", "quantifier": "all histories, all numbers of threads", "why_tests_cant": "depends on schedules and histories", "anchors": ["include/soralog/sink.hpp: Sink::push", "src/impl/sink_to_file.cpp: SinkToFile::flush"]}
{"id": "C21", "title": "Logger calls write through", "statement": "An admitted log call made through a Logger has its record written to the destination stream by the time the call returns, at every logger level.", "quantifier": "all histories of log calls through loggers, all levels; any number of threads", "why_tests_cant": "ranges over all histories and schedules", "anchors": ["include/soralog/logger.hpp: Logger::push", "src/impl/sink_to_file.cpp: SinkToFile::flush"]}
{"id": "C22", "title": "Buffered-size account is exact", "statement": "The sink's account of buffered message bytes equals the total length of the queued messages whenever no call is in progress, and never becomes negative (never wraps around) under any interleaving, as long as the queue fits into the address space.", "quantifier": "all interleavings of pushes and flushes by any number of threads", "why_tests_cant": "a wrap-around needs a decrement scheduled before its increment", "anchors": ["include/soralog/sink.hpp: Sink::size_", "src/impl/sink_to_file.cpp: SinkToFile::flush"]}
{"id": "C23", "title": "High-water mark requests a flush", "statement": "On a sink with non-zero latency, when a push leaves at least 4/5 of the buffer size accounted, a flush has been requested by the time it returns, and no flush is requested below that mark (for buffers below 2^62 bytes).", "quantifier": "all states, message sizes and buffer sizes", "why_tests_cant": "ranges over all sizes", "anchors": ["include/soralog/sink.hpp: Sink::push"]}
{"id": "C24", "title": "Exactly-once ordered output under concurrency", "statement": "With any number of threads pushing, flushing and rotating and the worker running, the records written are, in order and each exactly once, a prefix of the sequence of accepted events in queue order; nothing is written that was not pushed. If the file cannot be opened at first, what leaves the queue before it is open is lost, and nothing else.", "quantifier": "all interleavings, all numbers of threads, all histories", "why_tests_cant": "schedules cannot be enumerated", "anchors": ["include/soralog/sink.hpp: Sink::push", "src/impl/sink_to_file.cpp: flush_in_progress_", "src/impl/sink_to_console.cpp: flush_in_progress_"]}
{"id": "C25", "title": "At most one thread writes to the destination", "statement": "At no time are two threads inside the writing part of flush() of the same sink, so records are never interleaved inside the stream and the staging buffer is never shared.", "quantifier": "all interleavings", "why_tests_cant": "mutual exclusion quantifies over schedules", "anchors": ["src/impl/sink_to_file.cpp: flush_in_progress_", "src/impl/sink_to_console.cpp: flush_in_progress_", "src/impl/sink_to_syslog.cpp: flush_in_progress_"]}
{"id": "C26", "title": "Destroying a sink writes everything", "statement": "When a console or file sink is destroyed while no other thread uses it, every accepted event has been written by the time the destructor returns.", "quantifier": "all prior histories and interleavings, latency zero and non-zero, file open or failed to open", "why_tests_cant": "depends on what interleavings left in the queue", "anchors": ["src/impl/sink_to_file.cpp: SinkToFile::~SinkToFile", "src/impl/sink_to_file.cpp: SinkToFile::run", "src/impl/sink_to_console.cpp: SinkToConsole::~SinkToConsole", "src/impl/sink_to_console.cpp: SinkToConsole::run"]}
{"id": "C27", "title": "Rotation loses nothing", "statement": "For every history with rotations, whether re-opening succeeds or fails, the contents of all file generations in order are exactly the records written, each in exactly one generation; a failed re-open keeps the old file in use. A requested rotation is carried out by the next flush that gets to write; the request is dropped only by a flush that goes on to re-open.", "quantifier": "all histories, all rotation points, all open outcomes, spurious failures of weak exchanges", "why_tests_cant": "crash/rotation points and open outcomes cannot be enumerated", "anchors": ["src/impl/sink_to_file.cpp: SinkToFile::rotate", "src/impl/sink_to_file.cpp: SinkToFile::flush (need_to_rotate_)"]}
{"id": "C28", "title": "Crash leaves a prefix of the log", "statement": "If the process dies at any instant, what the operating system has received for the file is a prefix of the bytes of the records handed to its stream in order: no gaps and no reordering.", "quantifier": "all crash points, all ways the stream buffer spills", "why_tests_cant": "crash points cannot be enumerated", "anchors": ["src/impl/sink_to_file.cpp: SinkToFile::flush (out_.write/out_.flush)"]}
{"id": "C29", "title": "flush makes events durable in the operating system", "statement": "When flush() returns, the records it wrote have left the process (they would survive a process crash).", "quantifier": "all histories, all flush calls", "why_tests_cant": "needs crash at every point", "anchors": ["src/impl/sink_to_file.cpp: SinkToFile::flush (need_to_flush_)", "include/soralog/sink.hpp: Sink::flush"]}
{"id": "C30", "title": "Multisink forwards to each underlying sink", "statement": "A push admitted by a multisink is forwarded once to each listed sink in order, and each underlying sink applies its own filter; flush and rotate reach every underlying sink, at every nesting depth.", "quantifier": "all acyclic sink graphs", "why_tests_cant": "graphs of any depth", "anchors": ["src/impl/multisink.cpp: Multisink::flush", "src/impl/multisink.cpp: Multisink::rotate", "include/soralog/sink.hpp: Sink::push"]}
{"id": "C31", "title": "A multisink with no usable sinks is harmless", "statement": "Logging to a multisink whose list of underlying sinks is empty discards the event without undefined behaviour.", "quantifier": "all events, all multisinks with an empty list", "why_tests_cant": "undefined behaviour need not show in a test run", "anchors": ["include/soralog/sink.hpp: Sink::Sink(std::string, Level, std::vector)", "include/soralog/sink.hpp: Sink::push", "src/impl/configurator_from_yaml.cpp: parseMultisink"]}
{"id": "C32", "title": "Inherited group levels are always up to date", "statement": "After any sequence of LoggingSystem calls, every registered group that has a parent and whose level is not overridden has exactly its parent's level.", "quantifier": "all histories of LoggingSystem calls, all group forests of any depth", "why_tests_cant": "unbounded histories and forest shapes", "anchors": ["src/logging_system.cpp: setLevelOfGroup", "src/logging_system.cpp: setParentOfGroup", "src/group.cpp: Group"]}
{"id": "C33", "title": "Inherited group sinks are always up to date", "statement": "After any sequence of LoggingSystem calls, every registered group that has a parent and whose sink is not overridden has exactly its parent's sink.", "quantifier": "all histories of LoggingSystem calls, all group forests of any depth", "why_tests_cant": "unbounded histories and forest shapes", "anchors": ["src/logging_system.cpp: setSinkOfGroup", "src/logging_system.cpp: setParentOfGroup", "src/group.cpp: Group"]}
{"id": "C34", "title": "Inherited logger properties are always up to date", "statement": "After any sequence of LoggingSystem and Logger calls, every live logger of a registered group has its group's level unless its level is overridden, and its group's sink (if the group has one) unless its sink is overridden.", "quantifier": "all histories, all forests, all loggers created and dropped", "why_tests_cant": "unbounded histories", "anchors": ["src/logging_system.cpp: getLogger", "src/logging_system.cpp: setLevelOfGroup", "src/logging_system.cpp: setSinkOfGroup", "src/logger.cpp: Logger"]}
{"id": "C35", "title": "Setting a group's level changes exactly its inheritors", "statement": "setLevelOfGroup(g, l) sets the level of g and of exactly the registered groups and the live loggers of registered groups that inherit from g through a chain of non-overridden links to l; every other group, logger and property (including all sinks, parents and override marks other than g's) is unchanged. The same holds for setSinkOfGroup and sinks, and for the reset forms.", "quantifier": "all forests, override patterns, loggers and hash-map iteration orders", "why_tests_cant": "frame conditions over all forests", "anchors": ["src/logging_system.cpp: setLevelOfGroup", "src/logging_system.cpp: setSinkOfGroup", "src/logging_system.cpp: resetLevelOfGroup", "src/logging_system.cpp: resetSinkOfGroup"]}
{"id": "C36", "title": "Propagation does not depend on container order", "statement": "The outcome of every propagating call is the same for every iteration order of the group and logger tables and of pointer-ordered sets.", "quantifier": "all permutations of the tables, all forests", "why_tests_cant": "hash order and pointer order are not controllable in a test", "anchors": ["src/logging_system.cpp: setLevelOfGroup (passed_groups, affecting_groups)"]}
{"id": "C37", "title": "Re-parenting re-inherits", "statement": "setParentOfGroup(g, p) returning true makes p the parent of g; g and everything below it then inherits every non-overridden property along the new chain, overridden properties stay; if p was a child of g the old link is cut first. unsetParentOfGroup leaves all current values in place (if no group was redeclared under an old name).", "quantifier": "all forests and override patterns", "why_tests_cant": "all forests", "anchors": ["src/logging_system.cpp: setParentOfGroup", "src/logging_system.cpp: unsetParentOfGroup", "src/group.cpp: setParentGroup"]}
{"id": "C38", "title": "Group hierarchy never becomes cyclic", "statement": "No sequence of LoggingSystem calls makes a group its own (direct or indirect) ancestor; a call that would do so is refused with false and changes nothing.", "quantifier": "all histories of LoggingSystem calls", "why_tests_cant": "unbounded histories", "anchors": ["src/logging_system.cpp: setParentOfGroup (Check for recursion)"]}
{"id": "C39", "title": "Every LoggingSystem call terminates", "statement": "Each LoggingSystem call returns: neither the ancestor walk nor the recursive propagation runs forever.", "quantifier": "all histories of LoggingSystem calls, all forests", "why_tests_cant": "non-termination on some history cannot be excluded by sampling", "anchors": ["src/logging_system.cpp: setParentOfGroup", "src/logging_system.cpp: setLevelOfGroup", "src/logging_system.cpp: setSinkOfGroup"]}
{"id": "C40", "title": "getLogger returns the one live logger of that name", "statement": "While a logger named n is alive every getLogger(n, ...) returns that same logger unchanged whatever group, sink and level are asked for; there are never two live registered loggers with one name; after the last reference is dropped a new logger is created with the requested properties.", "quantifier": "all histories of creations, lookups and drops", "why_tests_cant": "unbounded histories", "anchors": ["src/logging_system.cpp: getLogger"]}
{"id": "C41", "title": "Unknown group falls back", "statement": "getLogger with an unknown group name on a configured system with a fallback group succeeds, puts the logger into the fallback group and emits one warning through it (if its level admits warnings); an unknown sink name is ignored.", "quantifier": "all configured systems with a fallback group, all names", "why_tests_cant": "all states", "anchors": ["src/logging_system.cpp: getLogger", "src/logging_system.cpp: getFallbackGroup"]}
{"id": "C42", "title": "Configuration happens exactly once", "statement": "getLogger before configure() and a second configure() are refused with an exception that changes nothing; the first group ever created becomes the fallback group until setFallbackGroup or the creation of a group named '*' changes it.", "quantifier": "all histories", "why_tests_cant": "unbounded histories", "anchors": ["src/logging_system.cpp: configure", "src/logging_system.cpp: getLogger", "src/logging_system.cpp: makeGroup", "src/logging_system.cpp: setFallbackGroup"]}
{"id": "C43", "title": "Refused calls change nothing", "statement": "Every LoggingSystem call that returns false or throws leaves all groups, live loggers, sinks and registrations as they were; and a call with a boolean result returns false exactly when a named object does not exist (any more) or the new parent is below the group.", "quantifier": "all states, all calls", "why_tests_cant": "all states", "anchors": ["src/logging_system.cpp: setParentOfGroup", "src/logging_system.cpp: setSinkOfGroup", "src/logging_system.cpp: setGroupOfLogger", "src/logging_system.cpp: makeGroup"]}
{"id": "C44", "title": "Overrides are sticky and reset re-inherits", "statement": "An explicitly set level or sink of a logger (or of a group with a parent) is never changed by any call addressed to other objects; resetting it gives it the current value of its group/parent and makes it follow again.", "quantifier": "all histories of calls addressed elsewhere", "why_tests_cant": "unbounded histories", "anchors": ["src/logger.cpp: setLevel", "src/logger.cpp: resetLevel", "src/group.cpp: setLevel", "src/group.cpp: resetLevel", "src/logging_system.cpp: setLevelOfLogger"]}
{"id": "C45", "title": "makeGroup accepts exactly well-formed requests", "statement": "makeGroup succeeds iff the named parent (if any) exists, the named sink (if any) exists, and a level is given or there is a parent; the created group has the requested properties marked overridden iff it has a parent, and the rest inherited.", "quantifier": "all system states and arguments", "why_tests_cant": "all states", "anchors": ["src/logging_system.cpp: makeGroup", "src/group.cpp: Group::Group"]}
{"id": "C46", "title": "Every logger has a sink", "statement": "No logger handed out by the system has a null sink, so logging through it never dereferences null.", "quantifier": "all histories of LoggingSystem calls", "why_tests_cant": "unbounded histories", "anchors": ["src/group.cpp: Group::Group", "src/logger.cpp: setSinkFromGroup", "include/soralog/logger.hpp: Logger::push", "src/logging_system.cpp: configure"]}
{"id": "C47", "title": "Level names are parsed exactly", "statement": "The configurator maps exactly off, critical/crit, error, warning/warn, info, verbose, debug/deb, trace to the corresponding level; anything else is reported as an error and treated as absent.", "quantifier": "all strings", "why_tests_cant": "all strings", "anchors": ["src/impl/configurator_from_yaml.cpp: parseLevel"]}
{"id": "C48", "title": "Configured sink parameters are always sane", "statement": "Every sink created from YAML has capacity >= 4, max_message_length >= 64, a buffer of at least four events and twice the message length but not larger than requested or twice the message length, and a latency that is the one written or the default.", "quantifier": "all YAML documents", "why_tests_cant": "all documents", "anchors": ["src/impl/configurator_from_yaml.cpp: parseSinkToConsole", "src/impl/configurator_from_yaml.cpp: parseSinkToFile", "src/impl/configurator_from_yaml.cpp: parseSinkToSyslog", "include/soralog/sink.hpp: Sink::Sink"]}
{"id": "C49", "title": "Problems are reported faithfully", "statement": "configure() reports has_error iff some problem marked 'E:' was found, has_warning iff some problem marked 'W:' was found, and the messages of all problems found are in the result.", "quantifier": "all YAML documents, all prior system states", "why_tests_cant": "all documents", "anchors": ["src/impl/configurator_from_yaml.cpp: Applicator::run", "src/impl/configurator_from_yaml.cpp: parseSink", "src/impl/configurator_from_yaml.cpp: parseSinks", "src/impl/configurator_from_yaml.cpp: parseGroup", "src/impl/configurator_from_yaml.cpp: parseMultisink"]}
{"id": "C50", "title": "Groups from YAML are complete", "statement": "Every group created from YAML has a level and a non-null sink (the null sink '*' if none is given for a root group), with the nesting of the document as parent relation.", "quantifier": "all YAML documents", "why_tests_cant": "all documents", "anchors": ["src/impl/configurator_from_yaml.cpp: parseGroup", "src/impl/configurator_from_yaml.cpp: parseGroups"]}
{"id": "C51", "title": "Reserved name '*' is refused", "statement": "A YAML document can neither create nor replace a sink or a group named '*'; such a node is reported as an error and skipped.", "quantifier": "all YAML documents", "why_tests_cant": "all documents", "anchors": ["src/impl/configurator_from_yaml.cpp: parseSink", "src/impl/configurator_from_yaml.cpp: parseGroup"]}
{"id": "C52", "title": "configure() terminates on every document", "statement": "configure() with a YAML configurator returns for every document and leaves the group hierarchy acyclic.", "quantifier": "all YAML documents", "why_tests_cant": "all documents", "anchors": ["src/impl/configurator_from_yaml.cpp: parseGroup", "src/logging_system.cpp: setParentOfGroup"]}
{"id": "C53", "title": "A rejected node has no effect", "statement": "A sink node or group node that is reported as unusable creates and modifies nothing, and the other nodes are processed as if it were absent (its children are skipped with it).", "quantifier": "all YAML documents, all bad nodes", "why_tests_cant": "all documents", "anchors": ["src/impl/configurator_from_yaml.cpp: parseSink", "src/impl/configurator_from_yaml.cpp: parseGroup"]}
{"id": "C54", "title": "Syslog receives each event's own text", "statement": "For each queued event that syslog may receive, flush() sends exactly one message: that event's own rendered text with the priority of its level; TRACE events are not sent.", "quantifier": "all queue contents", "why_tests_cant": "all queue contents", "anchors": ["src/impl/sink_to_syslog.cpp: SinkToSyslog::flush"]}
{"id": "C55", "title": "Syslog rendering stays inside its buffer", "statement": "Draining any queue contents never writes beyond the syslog sink's staging buffer.", "quantifier": "all queue contents, all accepted parameters", "why_tests_cant": "needs worst-case contents", "anchors": ["src/impl/sink_to_syslog.cpp: SinkToSyslog::flush"]}
{"id": "C56", "title": "One syslog sink at a time", "statement": "At most one syslog sink exists at a time: creating a second one throws; after the existing one is destroyed a new one can be created.", "quantifier": "all histories of construction and destruction by any threads", "why_tests_cant": "unbounded histories", "anchors": ["src/impl/sink_to_syslog.cpp: SinkToSyslog::SinkToSyslog", "src/impl/sink_to_syslog.cpp: SinkToSyslog::~SinkToSyslog"]}
{"id": "C57", "title": "Thread numbers are unique and stable", "statement": "Each thread that logs gets one number at first use and keeps it; different threads have different numbers; the numbers given out are 1..n.", "quantifier": "all interleavings of first uses", "why_tests_cant": "schedules", "anchors": ["include/soralog/util.hpp: getThreadNumber"]}
{"id": "C58", "title": "Thread name shown is bounded and stable", "statement": "The thread name attached to a thread's events is its name at its first event with name display, cut to 15 characters, and never changes afterwards; setThreadName cuts to 15 characters.", "quantifier": "all histories of renames and events of a thread", "why_tests_cant": "unbounded histories", "anchors": ["include/soralog/util.hpp: getThreadName", "include/soralog/util.hpp: setThreadName", "include/soralog/event.hpp: Event::Event"]}
{"id": "C59", "title": "Level indices are always inside the tables", "statement": "Every event stored in a sink has a level from CRITICAL to TRACE, so the level-name and colour tables are never indexed out of range.", "quantifier": "all histories of pushes", "why_tests_cant": "all histories", "anchors": ["include/soralog/level.hpp: levelToStr", "src/impl/sink_to_console.cpp: level_to_color_map", "include/soralog/sink.hpp: Sink::push"]}
{"id": "C60", "title": "Fallback configurator gives a working system", "statement": "After configure() with FallbackConfigurator every getLogger with a name other than '*' for its group succeeds and its admitted messages go to the console sink at the configured level.", "quantifier": "all logger and group names, all levels", "why_tests_cant": "all names", "anchors": ["src/impl/fallback_configurator.cpp: FallbackConfigurator::applyOn", "src/logging_system.cpp: getLogger"]}
{"id": "C61", "title": "The null sink never stores anything", "statement": "A push to the sink to nowhere never stores an event and its flush always terminates at once.", "quantifier": "all pushes and histories", "why_tests_cant": "all histories", "anchors": ["src/impl/sink_to_nowhere.cpp: SinkToNowhere", "include/soralog/sink.hpp: Sink::push"]}
{"id": "C62", "title": "No sink call or destructor can be trapped", "statement": "From every state a sink can be in, whatever the threads using it have done so far, every pending push, flush, async_flush and rotate call and a started destructor can still complete; there is no deadlock between producers, flushers, the worker and the destructor, also when the queue is full.", "quantifier": "all reachable states under all interleavings, all capacities >= 1, any number of threads", "why_tests_cant": "a deadlock shows only under a particular schedule", "anchors": ["include/soralog/sink.hpp: Sink::push", "src/impl/sink_to_file.cpp: SinkToFile::flush", "src/impl/sink_to_file.cpp: SinkToFile::run", "src/impl/sink_to_file.cpp: SinkToFile::~SinkToFile", "src/impl/sink_to_console.cpp: SinkToConsole::flush"]}
{"id": "C63", "title": "Group setters reach every logger of that group", "statement": "After setLevelOfGroup(G, l) (setSinkOfGroup(G, s)) returned true, every live logger whose group is named G and whose level (sink) is not overridden has the level l (the sink s).", "quantifier": "all histories of calls, all groups, levels and sinks", "why_tests_cant": "all histories", "anchors": ["src/logging_system.cpp: setLevelOfGroup", "src/logging_system.cpp: setSinkOfGroup", "src/logging_system.cpp: makeGroup"]}
{"id": "C64", "title": "unsetParentOfGroup freezes the properties", "statement": "After unsetParentOfGroup(G) the group keeps its level and sink and both are marked as overridden, so they stay its own when it gets a parent again (as the header documents).", "quantifier": "all histories of calls, all groups", "why_tests_cant": "all histories", "anchors": ["src/logging_system.cpp: unsetParentOfGroup", "include/soralog/logging_system.hpp: unsetParentOfGroup", "src/group.cpp: Group::unsetParentGroup"]}
{"id": "C65", "title": "Set properties of a group are marked as overridden", "statement": "After setLevelOfGroup / setSinkOfGroup the property is marked as overridden (as the header documents), and a later change of the group's parent does not change it.", "quantifier": "all histories of calls, all groups", "why_tests_cant": "all histories", "anchors": ["src/logging_system.cpp: setLevelOfGroup", "src/logging_system.cpp: setSinkOfGroup", "src/group.cpp: Group::setLevel", "src/group.cpp: Group::setSink"]}
{"id": "C66", "title": "Setters of a group object equal the calls of the system", "statement": "Calling a public setter of a Group object has the same effect on groups and loggers as the call of LoggingSystem for the group's name.", "quantifier": "all histories of calls, all groups", "why_tests_cant": "all histories", "anchors": ["src/group.cpp: Group::setLevel", "src/group.cpp: Group::setSink", "src/logging_system.cpp: setLevelOfGroup"]}
{"id": "C67", "title": "A wrong value is reported and the rest of the document applies", "statement": "Whatever value a node of a YAML document has, configure() does not throw because of it: the problem is reported and the other nodes are applied.", "quantifier": "all YAML documents", "why_tests_cant": "all documents", "anchors": ["src/impl/configurator_from_yaml.cpp: applyOn", "src/impl/configurator_from_yaml.cpp: parseSinks", "src/impl/configurator_from_yaml.cpp: parseGroup"]}
{"id": "C68", "title": "The sinks of a document are those declared", "statement": "The sinks registered by configure() with a YAML document are exactly the usable sink nodes of the document, each with the parameters written there or the documented default.", "quantifier": "all YAML documents", "why_tests_cant": "all documents", "anchors": ["src/impl/configurator_from_yaml.cpp: parseSinks", "src/impl/configurator_from_yaml.cpp: parseSinkToConsole", "src/impl/configurator_from_yaml.cpp: parseSinkToFile"]}
{"id": "C69", "title": "A document is a sequence of API calls", "statement": "Applying a YAML document has exactly the effect of a sequence of makeSink, makeGroup and set...OfGroup calls of the public API, so that everything that holds for all call histories holds after configure().", "quantifier": "all YAML documents", "why_tests_cant": "all documents", "anchors": ["src/impl/configurator_from_yaml.cpp: applyOn", "src/impl/configurator_from_yaml.cpp: parseGroup"]}
{"id": "C70", "title": "Syslog receives every event once, in order, also under concurrency", "statement": "Under every schedule of pushing, flushing and destroying threads, the syslog(3) calls of a syslog sink are one call per accepted event that has a priority, in acceptance order, with that priority; the text of a call depends only on the events its own flush has processed; and a flush that got the right to write does not return before, at some moment during the call, every event accepted until then has been passed on.", "quantifier": "all schedules of any number of threads, all events", "why_tests_cant": "all interleavings", "anchors": ["src/impl/sink_to_syslog.cpp: SinkToSyslog::flush", "src/impl/sink_to_syslog.cpp: SinkToSyslog::run", "src/impl/sink_to_syslog.cpp: SinkToSyslog::~SinkToSyslog"]}
{"id": "C71", "title": "A flush is bounded work whatever other threads do", "statement": "A call of flush() processes a bounded number of events even if other threads keep pushing: it cannot be kept from returning by other producers.", "quantifier": "all schedules of any number of threads", "why_tests_cant": "all interleavings of any length", "anchors": ["src/impl/sink_to_syslog.cpp: SinkToSyslog::flush", "src/impl/sink_to_file.cpp: SinkToFile::flush", "src/impl/sink_to_console.cpp: SinkToConsole::flush"]}
{"id": "C72", "title": "The sink guarantees hold with the queue as it is written", "statement": "With the queue executed one atomic access at a time, interleaved with everything else: a push that has returned has put its event into the queue exactly once; accepted events keep the order of arrival and of each thread; what is written is a prefix of them, byte for byte; the account of buffered bytes is exact when no call is running; one thread writes at a time; the destructor of a sink with a worker writes everything; no slot is accessed out of range, before its element is constructed, or through an empty reference. Conversely, whatever can be observed of the sink on a queue with atomic operations can be observed on this one.", "quantifier": "all schedules of the atomic accesses of any number of threads, all events, all capacities of at least 1", "why_tests_cant": "all interleavings of any length", "anchors": ["include/soralog/circular_buffer.hpp: CircularBuffer::put, get, size, NodeRef", "include/soralog/sink.hpp: Sink::push", "src/impl/sink_to_file.cpp: SinkToFile::flush", "src/impl/sink_to_syslog.cpp: SinkToSyslog::flush"]}
{"id": "C73", "title": "A program that uses the library as documented does nothing undefined", "statement": "Whatever sequence of calls a program makes - configure() with any document, makeSink, makeGroup, getLogger, the setters, logging, flush, rotate - no call follows a null pointer, uses a queue without slots or writes outside a buffer.", "quantifier": "all call sequences, all documents, all messages, all environments (clock, threads, files)", "why_tests_cant": "all histories", "anchors": ["src/logging_system.cpp: configure, getLogger", "src/impl/configurator_from_yaml.cpp: parseMultisink", "include/soralog/logger.hpp: Logger::push", "src/impl/multisink.cpp: Multisink::async_flush"]}
{"id": "C74", "title": "From the document to the file: each sink holds exactly the messages owed to it", "statement": "After any sequence of calls by one thread - configuration from a document or by calls, changes of levels, sinks, parents and groups, logging, flushing, rotating - every console and opened file holds one record, in the layout of C10, for each message that the level of the logger and of each multisink and sink on a path at that moment admitted (once per path), in the order of the calls, and nothing else; the warnings of getLogger are among them.", "quantifier": "all call sequences, all documents, all messages", "why_tests_cant": "all histories", "anchors": ["src/logging_system.cpp: configure, getLogger", "include/soralog/logger.hpp: Logger::push", "include/soralog/sink.hpp: Sink::push", "src/impl/multisink.cpp", "src/impl/sink_to_file.cpp: SinkToFile::flush"]}
{"id": "C75", "title": "The latency bounds how long an event waits, and an idle worker sleeps", "statement": "In a sink with latency L whose worker thread is never scheduled more than d late, an event pushed to the sink is written at most L + d after its push, whatever else happens; and while nobody pushes or flushes, the worker wakes up at most once per L.", "quantifier": "all executions with time: all moments of pushes, flushes, requests, wake-ups and timeouts", "why_tests_cant": "all timings", "anchors": ["src/impl/sink_to_console.cpp: SinkToConsole::run, flush", "src/impl/sink_to_file.cpp: SinkToFile::run, flush", "src/impl/sink_to_syslog.cpp: SinkToSyslog::run, flush", "include/soralog/sink.hpp: latency_"]}
{"id": "C76", "title": "Calls of the logging system by several threads take effect one after the other", "statement": "Whatever calls of LoggingSystem several threads make at the same time, each has the effect and the outcome it has when the calls are made one after the other in some order; so what holds for all call histories (C32-C46) holds for several threads, too.", "quantifier": "all schedules of the steps of any number of threads, all calls", "why_tests_cant": "all interleavings of any length", "anchors": ["src/logging_system.cpp: LoggingSystem::makeGroup", "src/group.cpp: Group::Group", "include/soralog/logging_system.hpp: mutex_"]}
{"id": "C77", "title": "A log call acts on the level and the sink of one moment", "statement": "Whatever other threads change meanwhile, a log call passes its message on at most once, and what it does - pass it on or not, to which sink, flush or not - is what the level and the sink the logger had at some one moment during the call prescribe.", "quantifier": "all schedules, all messages, all concurrent changes of levels, sinks, groups and parents", "why_tests_cant": "all interleavings of any length", "anchors": ["include/soralog/logger.hpp: Logger::push", "src/logger.cpp: Logger::setGroup"]}
{"id": "C78", "title": "Concurrent calls cannot corrupt the logging system", "statement": "Whatever any number of threads call at the same time: there is at most one live logger per name and it is found under it; registered names lead to existing groups and sinks of that name; every parent, group and sink referred to exists; no chain of parents closes except at a group that is its own parent; a call needs a bounded number of its own steps.", "quantifier": "all schedules of the steps of any number of threads, all calls", "why_tests_cant": "all interleavings of any length", "anchors": ["src/logging_system.cpp", "src/group.cpp: Group::Group", "include/soralog/logger.hpp: Logger::push"]}
{"id": "C79", "title": "Queue and sinks are free of data races", "statement": "Whatever any number of threads do with a queue (put, get, size, reading an element through its NodeRef, destroying NodeRefs) or with a console, file or syslog sink (push, flush, async_flush, rotate, the worker thread, the destructor once all calls have returned): two accesses of the same slot, of the staging buffer or of the output stream by different threads, at least one a write, are always ordered by happens-before, so the program has no data race there.", "quantifier": "all schedules of any number of threads, all capacities of at least 1", "why_tests_cant": "all interleavings; a race detector sees only the executed ones", "anchors": ["include/soralog/circular_buffer.hpp: busy_, Node::busy, NodeRef", "src/impl/sink_to_file.cpp: flush_in_progress_, SinkToFile::flush, ~SinkToFile", "src/impl/sink_to_console.cpp: SinkToConsole::flush", "src/impl/sink_to_syslog.cpp: SinkToSyslog::flush"]}
{"id": "C80", "title": "The logging system is free of data races", "statement": "Whatever any number of threads do with a LoggingSystem and its loggers: two accesses of the same member of a logger, group or of the system by different threads, at least one a write, are always ordered by happens-before.", "quantifier": "all schedules of any number of threads, all calls", "why_tests_cant": "all interleavings; a race detector sees only the executed ones", "anchors": ["include/soralog/logger.hpp: Logger::push, level_, sink_", "src/group.cpp: Group::Group", "include/soralog/logging_system.hpp: mutex_", "src/logging_system.cpp"]}
{"id": "C81", "title": "A log call that is still formatting does not stop the others", "statement": "While one thread is still formatting its message (a slow or blocking formatter, a formatter that itself logs, one that throws something other than a std::exception), the calls of the other threads - log calls, flush, the worker, the destructor - can still return without it, and the other messages are still written.", "quantifier": "all reachable states, all schedules of the other threads, for ever", "why_tests_cant": "absence of progress over all infinite continuations", "anchors": ["include/soralog/circular_buffer.hpp: put, get, Node::init", "include/soralog/sink.hpp: Sink::push", "src/impl/sink_to_file.cpp: SinkToFile::flush", "include/soralog/event.hpp: Event::Event"]}
{"id": "C82", "title": "A log call that returned first is written first", "statement": "If a log call of any thread returns before another log call, of the same or another thread, starts, then in the output the message of the first precedes that of the second, whatever other threads do meanwhile.", "quantifier": "all schedules of any number of threads, all events, all later states", "why_tests_cant": "all interleavings of any length", "anchors": ["include/soralog/circular_buffer.hpp: put, get", "include/soralog/sink.hpp: Sink::push", "src/impl/sink_to_file.cpp: SinkToFile::flush"]}
{"id": "C83", "title": "The time of a message is a moment during its log call", "statement": "If the clock is never set back, the time recorded with a message lies between the reading of the clock when its log call started and that when it returned.", "quantifier": "all schedules of any number of threads, all clock readings", "why_tests_cant": "all interleavings of any length", "anchors": ["include/soralog/event.hpp: Event::Event, timestamp_", "include/soralog/circular_buffer.hpp: put"]}
{"id": "C84", "title": "The lines of a log are in the order of their times", "statement": "If the clock is never set back, the times recorded with the messages never decrease from one line of the output to the next.", "quantifier": "all schedules of any number of threads, all clock readings", "why_tests_cant": "all interleavings of any length", "anchors": ["include/soralog/event.hpp: Event::Event, timestamp_", "include/soralog/circular_buffer.hpp: put"]}
{"id": "C85", "title": "Nothing is destroyed while it is used, and in the end everything is", "statement": "While the program holds a logger, or the LoggingSystem exists, no group or sink it leads to is destroyed, whatever else goes; no object is destroyed twice; and once the LoggingSystem and all pointers of the program are gone, every group, logger and sink has been destroyed exactly once (so that the destructor of every sink has run and written what was queued).", "quantifier": "all histories of a program, all sets and orders of pointers that go", "why_tests_cant": "all object graphs and orders of destruction", "anchors": ["include/soralog/group.hpp: parent_group_, sink_", "include/soralog/logger.hpp: group_, sink_", "include/soralog/logging_system.hpp: sinks_, groups_, loggers_", "include/soralog/impl/multisink.hpp"]}
{"id": "C86", "title": "Methods of Group objects cannot damage the system", "statement": "A public method of a Group object changes this group only (not its name): no other group, no logger, no registration. An overload taking a name does what the overload taking the pointer does to the object of that name, and nothing if there is none; the same for Logger. After any history of such methods and of LoggingSystem calls getGroup(n) and getSink(n) give existing objects named n, everything an object refers to exists, and no two live loggers have one name; the guarantees of the calls of the system (C35, C40-C45) hold in these histories too.", "quantifier": "all histories of LoggingSystem calls and methods of Group and Logger objects", "why_tests_cant": "all histories of any length", "anchors": ["src/group.cpp: Group::setLevel, resetLevel, setLevelFromGroup, setSink, resetSink, setSinkFromGroup, unsetParentGroup, setParentGroup", "src/logger.cpp: overloads taking names"]}
{"id": "C87", "title": "Methods of Group objects do what the header says", "statement": "setLevel/setSink set the property and mark it as overridden; resetLevel/resetSink take it from the parent and mark it as inherited; set...FromGroup take it from that group; setParentGroup inherits what is not overridden from the new parent and keeps the rest; unsetParentGroup keeps all values and marks them as overridden.", "quantifier": "all states, groups and arguments", "why_tests_cant": "all states of any size", "anchors": ["include/soralog/group.hpp", "src/group.cpp"]}
{"id": "C88", "title": "Methods of Group objects do not make later LoggingSystem calls hang", "statement": "After any history of LoggingSystem calls and of methods of Group objects the hierarchy has no cycle and every LoggingSystem call returns.", "quantifier": "all histories of LoggingSystem calls and methods of Group and Logger objects", "why_tests_cant": "all histories of any length; non-termination", "anchors": ["src/group.cpp: Group::setParentGroup", "src/logging_system.cpp: setParentOfGroup, setSinkOfGroup, setLevelOfGroup"]}
{"id": "C89", "title": "Delivery from log call to file in a program of many threads", "statement": "In a program whose threads configure the system, change it, log and use sinks at the same time, each message a thread pushes reaches each file, console or syslog sink exactly as often as there are paths of admitting filters from the logger's sink to it: none is lost, doubled, reordered within its thread, or sent to another sink. The file contains, record by record, the beginning of what each thread addressed to it at any moment, and all of it when the destructor of a sink with a worker thread has returned. A log call during which nobody changes its logger delivers its message to exactly the sinks the logger's level and sink determine before it returns.", "quantifier": "all schedules of any number of threads, all histories of configuration, all nestings of multisinks", "why_tests_cant": "all interleavings of any length over the whole program", "anchors": ["include/soralog/logger.hpp: Logger::push", "include/soralog/sink.hpp: push", "src/impl/multisink.cpp", "src/impl/sink_to_file.cpp", "src/logging_system.cpp"]}
{"id": "C90", "title": "A formatter that throws does not stop the log", "statement": "If formatting an argument throws something that is not a std::exception and the caller catches it (builds without NDEBUG), later log calls and flushes still work: no undefined behaviour, and the messages logged before and after come out.", "quantifier": "all schedules of any number of threads, any number of exceptions", "why_tests_cant": "all interleavings and crash points of a construction", "anchors": ["include/soralog/circular_buffer.hpp: put, Node::init", "include/soralog/sink.hpp: push", "include/soralog/event.hpp: Event::Event (catch block)"]}
{"id": "C91", "title": "What is logged alone appears as it is", "statement": "A log call with a single argument logs the text of this argument unchanged (up to the length limit), whatever characters it contains.", "quantifier": "all texts, levels, sinks and nestings of multisinks", "why_tests_cant": "all texts", "anchors": ["include/soralog/logger.hpp: trace, debug, verbose, info, warn, error, critical (both overloads), log", "include/soralog/macro.hpp", "include/soralog/event.hpp: vformat_to_n"]}
{"id": "C92", "title": "Under a fair scheduler calls return", "statement": "If every thread that has something to do is scheduled again and again, then as long as calls of a queue or of a sink are pending some call returns, all return once no more calls are made, and a destructor that has been started finishes once the deadlines of the worker's waits pass.", "quantifier": "all endless fair schedules of any number of client threads and the worker", "why_tests_cant": "endless executions: a test observes finite prefixes only, and schedulers that starve a thread at a spin lock are rare", "anchors": ["include/soralog/circular_buffer.hpp: put, get, size, avail, capacity", "include/soralog/sink.hpp: push", "src/impl/sink_to_file.cpp: flush, run, ~SinkToFile", "src/impl/sink_to_console.cpp: flush, run, ~SinkToConsole", "src/impl/sink_to_syslog.cpp: flush, run, ~SinkToSyslog"]}
{"id": "C93", "title": "The sink a log call is inside of is not destroyed", "statement": "While a thread is inside push or flush of a sink, called by a log call through a logger the program holds, the sink is not destroyed, whatever calls of the logging system other threads complete meanwhile.", "quantifier": "all programs, numbers of threads, calls and interleavings, any time spent inside the sink", "why_tests_cant": "a use after free needs the release of the last pointer within the call of another thread", "anchors": ["include/soralog/logger.hpp: push, sink_", "include/soralog/logging_system.hpp: makeSink", "src/logging_system.cpp: setSinkOfGroup, setSinkOfLogger, setGroupOfLogger", "src/logger.cpp: setSink"]}
{"id": "C94", "title": "The arguments of a sink's constructor mean what their names say", "statement": "A value given to a constructor of a sink for the parameter the header calls capacity, max_message_length, buffer_size or latency is used for that; a value left out is the default of that parameter. The same holds for the values of a document.", "quantifier": "all sink classes, all combinations of given and omitted values, all numbers", "why_tests_cant": "all combinations; the types of the parameters are the same, so no test that uses defaults or equal values notices an exchange", "anchors": ["include/soralog/impl/sink_to_file.hpp: SinkToFile", "src/impl/sink_to_file.cpp: SinkToFile::SinkToFile", "include/soralog/impl/sink_to_console.hpp", "include/soralog/impl/sink_to_syslog.hpp", "src/impl/configurator_from_yaml.cpp: parseSinkToFile, parseSinkToConsole, parseSinkToSyslog"]}
{"id": "C95", "title": "What has been logged is written in the end", "statement": "Every event a console, file or syslog sink has accepted is handed to its stream (to syslog()) some time later, in order, without anybody having to destroy the sink; for a file the bytes reach the operating system some time later.", "quantifier": "all endless fair schedules of any number of client threads and the worker, all calls", "why_tests_cant": "endless executions: a test can only wait for a while; whether an event is left behind depends on the schedule", "anchors": ["include/soralog/sink.hpp: push", "src/impl/sink_to_file.cpp: flush, run", "src/impl/sink_to_console.cpp: flush, run", "src/impl/sink_to_syslog.cpp: flush, run"]}
{"id": "C96", "title": "The worker hears the destructor", "statement": "A destructor of a sink that has been started makes the worker thread finish by its notification: if all threads keep being scheduled it finishes even if no wait of the worker ever reaches its deadline.", "quantifier": "all endless fair schedules of any number of client threads and the worker, all moments at which the destructor is started, all queue contents", "why_tests_cant": "a lost wake-up needs the notification to fall into a window of a few instructions; a test that passes has not hit it", "anchors": ["src/impl/sink_to_file.cpp: SinkToFile::run, async_flush, ~SinkToFile", "src/impl/sink_to_console.cpp: SinkToConsole::run, async_flush, ~SinkToConsole", "src/impl/sink_to_syslog.cpp: SinkToSyslog::run, async_flush, ~SinkToSyslog"]}
{"id": "C97", "title": "Destroying a sink takes no longer than its latency", "statement": "In a sink with latency L whose worker thread is never scheduled more than d late, the destructor returns at most L + d after it was started, whatever is queued.", "quantifier": "all executions with time, all queue contents, all moments of the destruction, of wake-ups and of timeouts", "why_tests_cant": "all timings and all numbers of queued events", "anchors": ["src/impl/sink_to_file.cpp: SinkToFile::run, flush, ~SinkToFile", "src/impl/sink_to_console.cpp: SinkToConsole::run, flush, ~SinkToConsole", "src/impl/sink_to_syslog.cpp: SinkToSyslog::run, flush, ~SinkToSyslog", "include/soralog/sink.hpp: latency_"]}
{"id": "C98", "title": "A program cannot deadlock", "statement": "Whatever several threads do with one logging system, its loggers and its sinks, at every moment all calls that have been started - of the logging system, of configure(), of loggers and sinks, and destructors of sinks - can be brought to their ends, with nobody starting anything new, provided no call uses a destroyed sink; this includes the warnings getLogger() writes and the sinks makeSink() destroys while the logging system's mutex is held. Log calls can be completed whoever holds that mutex, and no two threads are inside it at once.", "quantifier": "all programs of any number of threads, all interleavings down to the single atomic accesses of the queues, all sinks and multisinks", "why_tests_cant": "all interleavings; a test shows that it did not deadlock once", "anchors": ["src/logging_system.cpp: makeGroup, configure, getLogger, getSink, getGroup", "include/soralog/logging_system.hpp: makeSink, mutex_", "include/soralog/logger.hpp: Logger::push, flush", "src/impl/multisink.cpp", "include/soralog/circular_buffer.hpp"]}
{"id": "C99", "title": "Several threads do nothing undefined", "statement": "In a program in which every group without a parent names its sink, no sink is an empty multisink and every queue has room, whatever several threads do at once: no log call goes through a null pointer, no element of a queue is accessed out of range, before it is constructed or after it has been given away, no queue holds more than its capacity, and the record of every accepted event fits the staging buffer of a console or file sink with the documented minimum sizes.", "quantifier": "all programs of any number of threads, all interleavings, all messages, clocks and threads", "why_tests_cant": "all interleavings and all messages", "anchors": ["src/logging_system.cpp", "src/group.cpp: Group::Group", "include/soralog/logger.hpp: Logger::push", "include/soralog/circular_buffer.hpp", "src/impl/sink_to_file.cpp: flush", "src/impl/sink_to_console.cpp: flush"]}
{"id": "C100", "title": "Colour does not leak and shows what it should", "statement": "After each record of a coloured console sink the terminal is in its normal style and outside any escape sequence, whatever the terminal was doing before and whatever escape sequences, complete or cut off, the texts of the event contain. For texts without escape characters the terminal shows exactly the characters of the plain record: the microseconds gray, the level word bold in the colour of its level, the name bold, the message in the style of its level, everything else normal.", "quantifier": "all messages, names and thread names, all levels, both colour options, all terminal states, all interleavings of any number of threads", "why_tests_cant": "all texts, including those that contain escape sequences; what a terminal shows depends on everything it has received before", "anchors": ["src/impl/sink_to_console.cpp: SinkToConsole::flush, put_level_style, put_text_style, put_reset_style"]}
{"id": "C101", "title": "A log file can be read back", "statement": "The lines of a log file are the records, one for each event, and reading each line gives back the time, level, logger name and message of its event; nobody can make a log call that leaves what two others would leave.", "quantifier": "all sequences of events, all interleavings of any number of threads, all flushes and rotations", "why_tests_cant": "all texts and all sequences; a test with well-behaved messages says nothing about others", "anchors": ["src/impl/sink_to_file.cpp: SinkToFile::flush", "include/soralog/event.hpp: Event"]}
{"id": "C102", "title": "A program that stops logging comes to rest and its log is complete", "statement": "Take any program of several threads that use one logging system, its loggers and its sinks, under a fair scheduler, with spin locks that starve nobody, timed waits that end and stores that become visible. If from some moment on nobody starts a call and no pending call uses a destroyed sink, then after some time no thread is inside any call - of the logging system, configure(), loggers, sinks or destructors of sinks - and nobody holds the mutex, for ever; and every opened sink with a latency has handed to its stream (to syslog()) the records of exactly the messages each thread addressed to it: all, in order, each once.", "quantifier": "all programs of any number of threads, all endless fair interleavings down to the single atomic accesses of the queues, all sinks and multisinks", "why_tests_cant": "liveness: every test is finite, and the property speaks of all endless schedules", "anchors": ["src/logging_system.cpp: makeGroup, configure, getLogger", "include/soralog/logging_system.hpp: makeSink, mutex_", "include/soralog/logger.hpp: Logger::push, flush", "src/impl/multisink.cpp", "include/soralog/circular_buffer.hpp", "src/impl/sink_to_file.cpp: SinkToFile::run, flush, ~SinkToFile", "src/impl/sink_to_console.cpp: SinkToConsole::run, flush", "src/impl/sink_to_syslog.cpp: SinkToSyslog::run, flush"]}
{"id": "C103", "title": "What was said first stands first, and a crash loses only an end", "statement": "In a program of several threads that use one logging system, its loggers and sinks: what a log call put into a sink before it returned stands in that sink before everything put there by any call that began later, by whatever thread and through whatever logger or multisink, and is written in that order. If the process is killed at any moment, what the operating system has of a file or console is a beginning of the records accepted so far, those of each thread being the first ones it addressed to this sink, and what the operating system has it keeps.", "quantifier": "all programs of any number of threads, all interleavings down to the single atomic accesses of the queues, all sinks and multisinks, all crash points", "why_tests_cant": "all interleavings and all crash points", "anchors": ["include/soralog/logger.hpp: Logger::push", "include/soralog/sink.hpp: Sink::push", "src/impl/multisink.cpp", "include/soralog/circular_buffer.hpp", "src/impl/sink_to_file.cpp: SinkToFile::flush", "src/impl/sink_to_console.cpp: SinkToConsole::flush", "src/logging_system.cpp"]}
{"id": "C104", "title": "A requested flush brings the log to the operating system", "statement": "After async_flush() (or rotate(), or when the high-water mark has been passed), everything a console or file sink had handed to its stream by then reaches the operating system some time later, as long as the program goes on under a fair scheduler.", "quantifier": "all endless fair executions of any number of threads, all calls, all moments of the request", "why_tests_cant": "liveness over all schedules; a test cannot tell never from not yet", "anchors": ["src/impl/sink_to_file.cpp: async_flush, flush, run", "src/impl/sink_to_console.cpp: async_flush, flush, run"]}
{"id": "C105", "title": "When a log call has returned, its record is in the operating system", "statement": "When a log call has returned, every console or file sink that the message came to has handed its record to the operating system, provided that nobody else used that sink during the call and everything before had been handed to its stream.", "quantifier": "all programs of any number of threads, all nestings of multisinks, all messages, everything that may happen elsewhere meanwhile, all amounts the stream passes on by itself", "why_tests_cant": "whether the stream's buffer has reached the system cannot be seen from inside the process, and a test sees one nesting and one amount", "anchors": ["include/soralog/logger.hpp: Logger::push", "src/impl/multisink.cpp: Multisink::flush", "include/soralog/impl/multisink.hpp: async_flush", "src/impl/sink_to_file.cpp: async_flush, flush", "src/impl/sink_to_console.cpp: async_flush, flush"]}
{"id": "C106", "title": "A failing disk costs at most what is being written", "statement": "If an operation on the output of a console or file sink (write, flush, close) fails at some time - a full disk, a lost terminal - and later ones succeed again, no call throws, hangs or behaves otherwise, what was written before is kept, each file holds a beginning of the records of its time, and what is logged after the output works again is written.", "quantifier": "all executions of any number of threads, all moments and extents of failure of each single operation, all rotations", "why_tests_cant": "a test would have to make each single operation of the operating system fail, in every combination and at every moment", "anchors": ["src/impl/sink_to_file.cpp: SinkToFile::flush, ~SinkToFile, out_", "src/impl/sink_to_console.cpp: SinkToConsole::flush, stream_"]}
{"id": "C107", "title": "What a document configures is what several threads log to", "statement": "configure() has read a document. Whatever threads then get loggers of its groups, log, flush and drop loggers, in whatever interleaving among them and with the sinks' workers: each sink of the document receives from each thread exactly the messages of its log calls that the level of the logger's group admits, once per path from the group's sink along which every sink admits it, in the order of the calls. A file or console without colours consists of lines of the documented layout with the sink's thread-info setting, those of each thread being its first messages owed to that sink; and when a file with a latency has been destroyed by a program that has come to rest, it has all of them. When the threads stop calling, under a fair scheduler they come to rest and every opened sink with a latency has been given all of them, and nothing else. Of a coloured console this holds after the escape sequences have been removed, for texts without ESC.", "quantifier": "all documents, all programs of any number of threads that log to registered groups, all interleavings down to the single atomic accesses of the queues, all trees of sinks", "why_tests_cant": "all documents and all interleavings; a test sees one configuration and one schedule", "anchors": ["src/logging_system.cpp: configure, getLogger, makeGroup", "src/impl/configurator_from_yaml.cpp: applyOn, createSink", "include/soralog/logger.hpp: Logger::push", "include/soralog/sink.hpp: Sink::push", "src/impl/multisink.cpp", "src/impl/sink_to_file.cpp: flush, ~SinkToFile"]}
{"id": "C108", "title": "A queue is ready when it has been constructed", "statement": "For every capacity and padding whose total number of bytes can be expressed in size_t the constructor of the queue returns, and then each of its slots has exactly one node, not in use, at its own place inside the allocation; in particular for the queue of every sink a document declares.", "quantifier": "all element sizes and alignments, all capacities and paddings, all documents", "why_tests_cant": "the loop runs once per slot; capacities from which its index overflows need more memory than a test machine has", "anchors": ["include/soralog/circular_buffer.hpp: CircularBuffer::CircularBuffer", "include/soralog/sink.hpp: Sink::Sink", "src/impl/configurator_from_yaml.cpp: capacity"]}
{"id": "C109", "title": "A requested rotation is carried out for every file below the sink", "statement": "When rotate() of a sink is called - of a file sink, or of a multisink of any depth - then the file of every file sink that is this sink or is below it is re-opened some time after the call, as long as the program goes on under a fair scheduler, re-opening succeeds and the sink is not destroyed.", "quantifier": "all endless fair executions of any number of threads, all nestings of multisinks, all moments of the call relative to what others do", "why_tests_cant": "liveness over all schedules; a test cannot tell never from not yet", "anchors": ["src/impl/multisink.cpp: Multisink::rotate", "src/impl/sink_to_file.cpp: SinkToFile::rotate, async_flush, flush, run"]}
{"id": "C110", "title": "Calls of sinks that do not overlap behave as in a program with one thread", "statement": "Several threads use the same console, file and syslog sinks and multisinks of them, but each call of push, flush, async_flush and rotate returns before the next one is made, whichever thread makes it, and the workers make their passes between the calls. Then the sinks are, call after call, as if one thread had made the calls, a pass being a flush of the worker's sink: same events queued, same account and requests, same contents of every file (also of those a rotation has left behind), same calls of syslog(). So what holds of these calls in a program with one thread holds of them here.", "quantifier": "all sequences of calls by any threads and passes of workers, all trees of sinks, all parameters (buffer below 2^62), all answers of the clock, of the exchanges and of re-opening; in particular the sinks of every configuration document", "why_tests_cant": "all sequences of calls and all environments", "anchors": ["include/soralog/sink.hpp: Sink::push", "src/impl/multisink.cpp", "src/impl/sink_to_file.cpp: flush, async_flush, rotate", "src/impl/sink_to_console.cpp: flush, async_flush", "src/impl/sink_to_syslog.cpp: flush, async_flush", "include/soralog/circular_buffer.hpp: put, get"]}
{"id": "C111", "title": "A program whose calls do not overlap behaves as a program with one thread", "statement": "Several threads log through loggers, flush and rotate, get and drop loggers, make groups, change levels, sinks and parents of groups and loggers - but each call is over before the next one is made, whichever thread makes it, and the workers of the sinks make their passes between the calls. Then the logging system (groups, loggers, tables, warnings) and every sink (queue, account, requests, contents of all files, calls of syslog()) are, call after call, as if one thread had made the calls. So everything that is guaranteed for a program with one thread - what is delivered, in which order, with which text - holds of such a program too; in particular after any configuration document has been applied.", "quantifier": "all sequences of calls by any threads and passes of workers that create no sink, all documents, all trees of sinks with a queue, all answers of the clock, of the exchanges and of re-opening", "why_tests_cant": "all sequences of calls and all environments", "anchors": ["include/soralog/logger.hpp: Logger::push, Logger::flush", "src/logging_system.cpp", "src/group.cpp", "src/impl/multisink.cpp", "include/soralog/sink.hpp: Sink::push", "src/impl/sink_to_file.cpp", "src/impl/sink_to_console.cpp", "src/impl/sink_to_syslog.cpp"]}
{"id": "C112", "title": "In a program that never stops, what has been logged is written in the end", "statement": "Any number of threads use one logging system and its sinks and never stop making calls; the scheduler is fair, the spin locks starve nobody and the timed waits end. Take any moment, and an opened console, file or syslog sink with a latency that is not destroyed: some time later and from then on its stream has been given (syslog() has been called for) the record of every message that any thread whose calls of sinks had returned at that moment had addressed to the sink - all, in the order of the thread, each once - and nothing that was not addressed to it.", "quantifier": "all endless fair executions of any number of threads that start calls for ever, all moments, all trees of sinks", "why_tests_cant": "liveness over all schedules; a test cannot tell never from not yet", "anchors": ["include/soralog/sink.hpp: Sink::push", "include/soralog/logger.hpp: Logger::push", "src/impl/sink_to_file.cpp: run, flush", "src/impl/sink_to_console.cpp: run, flush", "src/impl/sink_to_syslog.cpp: run, flush", "include/soralog/circular_buffer.hpp: put, get"]}
