NOTES={
'C01':('proved','all capacities >= 1, any number of threads, any schedule'),
'C02':('proved',''),
'C03':('proved','C03_capacity_zero_refuted documents why capacity 0 is excluded'),
'C04':('proved','possibility of completion from every reachable state, with the queue as atomic operations and as it is written; scheduler fairness is not modelled'),
'C05':('proved',''),
'C06':('proved','C06_document_slots: sinks declared in documents always meet the size bound; C06_wraparound_refuted shows that the bound in the statement is needed for a constructor called directly'),
'C07':('proved',''),
'C08':('proved',''),
'C09':('proved','with the exact threshold; C09_bound_tight shows it is sharp, C09_unchecked_constructor_overflows shows a directly constructed sink below the threshold overflows'),
'C10':('proved',''),
'C11':('proved','for events whose texts contain no ESC character themselves'),
'C12':('partial','true for every event whose second is not second 0 of the epoch; C12_iff_partial: exactly when an event prints a wrong date; C12_of_calls_partial: for what the log call gives; C12_refuted exhibits the exception, so the full statement is false of the code'),
'C13':('proved',''),
'C14':('partial','true unless formatting fails on a sink of level CRITICAL; C14_refuted shows that case, so the full statement is false of the code; C14_iff_partial: exactly the histories for which it holds'),
'C15':('proved','for sink graphs without empty multisinks (C31)'),
'C16':('proved','argument expressions may change the user state only'),
'C17':('proved','for sinks whose file could be opened; C17_unopened_file_loses shows the other case'),
'C18':('proved',''),
'C19':('partial','true for syslog and null sink; console/file flush writes one event per call (C19_refuted); C19_iff_partial: exactly when nothing is left'),
'C20':('partial','proved for one thread at a time, and for any number of threads in executions where no flush was skipped because another thread was inside (C20_written_unless_skipped_partial); with n skipped flushes at most n events, the newest, stay behind (C20_left_at_most_skips_partial, every execution: C20_skips_counted; also with the queue as written: C20_left_at_most_skips_real_queue_partial); false without that condition (C20_refuted)'),
'C21':('partial','one thread at a time and only loggers used; false otherwise (C21_refuted, C21_refuted_concurrent); C21_iff_partial: for one thread exactly when the record has been written'),
'C22':('proved','for sinks whose queue fits the address space'),
'C23':('proved',''),
'C30':('proved',''),
'C31':('partial','pushes admitted by an empty multisink are undefined behaviour (C31_refuted), so the full statement is false of the code; C31_iff_partial: exactly the log calls that are undefined, for any nesting'),
'C59':('proved',''),
'C61':('proved',''),
'C24':('proved',''),
'C25':('proved',''),
'C26':('partial','proved for sinks with a worker thread, and for latency 0 when at most one event is queued; for the syslog sink also with latency 0 (C26_syslog_zero_latency); false otherwise (C26_refuted: latency 0 after a race; C26_unopened_file_refuted); exactly what is lost then: C26_zero_latency_lost_partial, C26_lost_at_most_skips_real_queue_partial'),
'C27':('proved',''),
'C28':('proved','for sinks whose stream is open'),
'C29':('partial','true when a flush request is pending and the weak exchange does not fail; false in general (C29_refuted); C29_iff_partial: exactly when, for a flush that runs to its end undisturbed'),
'C89':('proved','for programs without an empty multisink that admits messages (Setup.Sound; outside it the code has undefined behaviour, C31); completeness after the destructor for file sinks with a worker (without one: C26); syslog calls by priority (C89_syslog_calls), their texts are the subject of C54 and C70'),
'C90':('partial','safety and order stay as they are with any number of exceptions (C90_no_damage_partial); C90_refuted: the place of the message whose construction threw stays taken; once it is the oldest one, for every continuation no get returns any more, so flush and worker hang. With NDEBUG the exception ends the process (noexcept)'),
'C93':('partial','proved as long as no other sink is registered under the name of the sink in use; it can be lost only if its name was registered again and the logger got another sink (C93_lost_only_if); otherwise refuted (C93_refuted)'),
'C95':('partial','handed to the stream: proved with a worker whose waits end (C95_worker_partial) and, without one, when the sink keeps being used (C95_used_partial), both for a spin lock that starves nobody; otherwise refuted (C95_refuted); reaching the operating system is refuted even with a worker (C95_device_refuted): an idle worker never flushes the stream'),
'C94':('partial','console, syslog and documents: proved; the file sink is characterised exactly (C94_file_iff): its header names two parameters the other way round than its definition (C94_refuted)'),
'C96':('partial','false as stated: the notification is lost when the worker is not inside its wait (C96_refuted, nothing queued), and a console or file sink waits for the deadline again for each event after the first (C96_waiting_refuted), and the worker may load old values of the flags after it has been notified (C96_old_values_refuted); proved when the worker is inside its wait, no spurious wake-ups, no loads of old values and at most one event queued or a syslog sink (C96_waiting_partial), and when deadlines pass and stores become visible (C96_deadlines_partial)'),
'C97':('partial','syslog: proved (at most d); console and file: proved with at most one event queued, and in general with max(n,1)(L+d) for n queued events; false as stated (C97_refuted: no bound; C97_each_event_costs_a_latency: at least n-1-k latencies in every execution with k early wake-ups)'),
'C102':('proved','the assumptions (fair scheduler, no starvation at spin locks, waits end, stores visible, sinks kept) are part of the property; sinks without latency: C95'),
'C103':('proved','sinks opened, no empty multisink (C31); a crash is the end of the execution at an arbitrary state, after which gens and dev are left'),
'C98':('proved','deadlock freedom; that every call does return under a fair scheduler is C92; C98_document: the same after a document has been read, with what the sinks have then accepted'),
'C99':('proved','the conditions on groups and multisinks are needed: C46_refuted, C31_refuted; C99_document: after a document has been read the conditions are those on the document, and the buffer sizes need no condition'),
'C92':('partial','queue: proved (some pending call returns; all return once calls stop), for single calls refuted (C92_queue_refuted); destructor: proved when the waits of the worker end and stores become visible (C96 says what happens otherwise); sink calls: proved when the spin lock of the queue starves nobody (C92_some_call_returns_partial, C92_all_calls_return_partial), otherwise refuted: a fair schedule in which no call ever returns (C92_refuted)'),
'C91':('partial','info(x) and its siblings: proved for everything but std::string_view; exactly the texts without braces for std::string_view, log(level, x) and the macros (C91_format_iff_partial); C91_refuted; of fmt only literal text, doubled braces and {} are modelled'),
'C62':('proved','possibility of completion from every reachable state, with the queue as atomic operations and as it is written; scheduler fairness is not modelled'),
'C32':('proved','for all histories of LoggingSystem calls and Logger method calls; direct calls of the public Group setters are outside (C66)'),
'C33':('proved','as C32'),
'C34':('proved','as C32'),
'C35':('proved','for registered groups and live loggers of registered groups; the reset forms on a root group change nothing but the mark'),
'C36':('proved',''),
'C37':('proved',''),
'C38':('partial','the only cycles that can arise are groups that are their own direct parent; acyclic if no group is made its own parent; C38_refuted: setParentOfGroup(r, r) is accepted, so the full statement is false of the code; it is the only call that makes a cycle (C38_cycle_iff_partial)'),
'C39':('partial','exact: C39_ends_iff_partial says which calls end in which states of any history (also with methods of Group objects); all of them unless some group is its own parent; C39_refuted shows setLevelOfGroup running forever then'),
'C40':('proved',''),
'C41':('proved',''),
'C42':('proved',''),
'C43':('proved',''),
'C44':('proved',''),
'C45':('proved',''),
'C46':('partial','true if every parentless group is created with a sink; C46_refuted: a root group with a level but no sink is accepted; C46_new_iff_partial: exactly when a new logger has no sink'),
'C60':('proved','for histories of getLogger calls and drops after configure()'),
'C47':('proved',''),
'C48':('proved',''),
'C49':('partial','proved: E:/W: problems <-> flags for all documents except the odd kinds (sink without name, ...), accumulation in chains and configure, every rejected node gives the error flag; C49_iff_partial: exactly which problems set which flag, for every document; C49_refuted: the odd kinds are printed as E: with neither flag'),
'C50':('partial','every group has a sink after any documents (proved); nesting as written for documents in which every group is declared once under a new name; C50_nesting_refuted: false with repeated names'),
'C51':('proved',''),
'C52':('partial','proved for documents without alias cycles and without a group nested directly in a node of its own name; C52_refuted: false otherwise'),
'C53':('proved',''),
'C63':('partial','for histories in which groups are created under new names; C63_refuted: false after a group is created again; C63_iff_partial: for every history, exactly the loggers that are reached'),
'C64':('partial','values stay; the marks are not set (C64_refuted), so the documented behaviour is false of the code; C64_group_partial, C64_survives_iff_partial: exactly what happens instead'),
'C65':('partial','true if the group has a parent; C65_refuted: false of root groups; C65_mark_iff_partial: exactly when the mark is set'),
'C66':('partial','exact (iff): equal precisely if everything that inherits from the group has the new value already; C66_refuted: direct setters do not propagate'),
'C67':('partial','proved for documents whose scalars convert (Readable): no exception, everything usable is applied, every wrong value is named in the message with its flag; false in general (C67_refuted): a value that does not convert throws out of configure()'),
'C68':('proved',''),
'C69':('proved',''),
'C70':('proved',''),
'C71':('partial','proved for console and file sinks: one flush takes at most one event; false for the syslog sink (C71_refuted: for every n a flush that has processed n events pushed meanwhile and has not returned)'),
'C72':('proved','composition of Ring and SinkConc (SinkFull), refinement in both directions; the latency-0 destructor of console and file sinks is C26_refuted'),
'C73':('partial','proved if no root group is made by hand without sink (C46), getLogger is not called before there is a group, no multisink is without underlying sinks (C31) and the buffers are large enough (automatic for console and file sinks of a document: C73_document_sinks_roomy); C73_refuted: a document that is accepted with a warning only makes the first log call undefined'),
'C74':('proved','for sinks below multisinks that are not empty (C31); C74_lines: colourless console or opened file, second not 0 of the epoch (C12); worker threads appear as flush calls'),
'C75':('partial','console and file: proved with (n+1)(L+d) for an event with n events queued before it, and the worker wakes once per L; false as stated (C75_refuted, C75_unbounded_refuted: one event per flush; C75_busy_refuted: the worker of a syslog sink never waits because next_flush_ is never advanced)'),
'C54':('partial','proved: number, order and priorities of the calls for all queues; own text if at most one event per run (latency 0, or use through loggers, one thread); under every schedule all calls of one flush carry the text of its first event (C54_concurrent_first_text_partial); C54_iff_partial says exactly when it holds; C54_refuted: every call of a run carries the text of the first event'),
'C55':('partial','C55_iff_partial says exactly when it holds; proved for one thread if the buffer has room for a full queue; C55_refuted: false with parameters the configurator accepts; C55_every_buffer_refuted'),
'C56':('partial','at most one at a time and a second one throws: proved; C56_refuted/C56_never_again_refuted: after the first one no syslog sink can ever be created again'),
'C57':('proved',''),
'C58':('proved',''),
'C76':('partial','proved for executions in which no makeGroup overlaps a call that changes groups or re-registers its names (and so always when groups are made before the threads start); C76_refuted: makeGroup builds the group before it takes the mutex, so a child can keep the level its parent had before a concurrent setLevelOfGroup'),
'C77':('partial','at most one push, to a sink and because of a level held during the call; as alone if level and sink of the logger do not change meanwhile; C77_refuted: level and sink are read separately, a debug message can go to a sink the logger has only together with level info'),
'C78':('proved','steps: LoggingSystem calls with the mutex are one step, makeGroup and log calls step by step; sequentially consistent memory'),
'C79':('proved','all flags have the default memory order; other atomics are left out (they could only add happens-before); construction of an object happens before its use; the destructor starts after all calls have returned'),
'C80':('partial','no race among accesses with the mutex; no race at all if settings are not changed once a thread logs (Settled) and the methods of logger objects are not used; C80_refuted: Logger::push reads level_ and sink_ without the mutex, a concurrent setLevelOfLogger is a data race'),
'C81':('partial','proved: put and size of the queue, and the storing part of a log call, never need a thread that is formatting; get needs only the one that formats the oldest message. Refuted otherwise, for every state: while the oldest message is being formatted nothing leaves the queue (C81_nothing_leaves_refuted), flush/worker/destructor hang (C81_flush_refuted), log calls hang once the queue is full (C81_push_refuted), and a formatter that logs hangs itself (C81_nested_refuted)'),
'C82':('proved','on the queue as written; records of accepted events appear in the order of acceptance (C72)'),
'C83':('proved','on the queue as written, with a clock that is never set back'),
'C84':('partial','proved for the messages of one thread and for messages whose calls do not overlap; C84_refuted: the place in the queue is taken before the clock is read, so overlapping calls may come out with decreasing times'),
'C85':('partial','exact for all histories: destroyed is what neither a remaining pointer nor a group that is its own parent owns; so everything goes if no group is its own parent; C85_refuted: after setParentOfGroup(g, g) the group holds itself and the destructors of its sinks never run'),
'C86':('proved',''),
'C87':('partial','proved for groups with a parent, setParentGroup and the values after unsetParentGroup; C87_refuted: the marks promised for roots and by unsetParentGroup are not set; C87_root_partial: exactly what happens to roots'),
'C88':('partial','proved for histories in which no action closes a cycle (which calls end otherwise: C39_ends_iff_partial); C88_refuted: a.setParentGroup(b) is not checked'),
'C100':('proved',''),
'C101':('partial','proved for texts without line ends and names that do not run into the separator; C101_line_count: the number of lines is exactly the number of events plus the line ends in their texts; C101_forgery_refuted: one call whose text contains a line end leaves exactly what two other calls leave (log injection)'),
'C104':('partial','proved if some event is still to be handed over when the request is made or later, for one sink and in a whole program that makes calls for ever (C104_program_partial); C104_empty_refuted: with an empty queue no number of flush() and async_flush() calls ever flushes the stream; C104_zero_latency_refuted: a sink with latency 0 never flushes its stream at all'),
'C112':('proved','the assumptions (fair scheduler, no starvation at spin locks, waits end, the sink kept, start of calls listed as such) are part of the property; no multisink is empty (C31); sinks without latency: C95; reaching the operating system: C104_program_partial; C112_document says it for the sinks of a document in terms of what the document owes'),
'C111':('proved','one call (C111_one_call), any sequence of calls by any threads and passes of workers (C111_one_by_one), after any document (C111_document): the many-thread model of system and sinks against the model of the whole program with one thread (the one of C73, C74); no sink is created and none of the sinks called is the one to nowhere'),
'C110':('proved','one call (C110_lone_call), one pass of a worker (C110_worker_pass), any sequence of calls by any threads and passes (C110_one_by_one), from newly constructed sinks and from a configured document; the model with many threads down to the atomic accesses of the queue against the sequential model'),
'C109':('partial','proved for opened files with a worker: one sink while any threads make any calls (C109_worker_rotates_partial), every file below a multisink of any depth in a whole program whose last call is rotate() (C109_every_file_partial) and in one that makes calls for ever when all files below have a worker (C109_busy_program_partial); for every file sink when flush() is called afterwards (C109_flush_rotates_partial); false for zero latency when another thread is inside flush() (C109_zero_latency_refuted) and for a file that could not be opened, which has no worker (C109_unopened_refuted)'),
'C108':('partial','proved for capacities up to 2^31 - 1 (C108_ready_partial, C108_apart) and for every sink of every document (C108_document); C108_ready_iff: exactly these; C108_refuted: the index of the loop is an int and overflows for larger ones. C108_initial: the state left is the initial state of the queue model'),
'C107':('proved','C107_configured: configure() ends in a state of the many-thread model; C107_delivered, C107_lines, C107_file_complete say what the sinks get, C107_coloured_lines and C107_coloured_in_the_end the same of a coloured console, C107_in_the_end what they have got when the threads have stopped calling (fair scheduler, no starvation at spin locks, waits end, stores visible). The threads get loggers of registered groups, log, flush and drop loggers (level and sink changes while logging: C77, C89); no multisink is empty (C31)'),
'C106':('partial','proved: no call notices (C106_unnoticed), every file holds a beginning of its records (C106_kept_partial), nothing is lost while nothing fails and after a successful rotation (C106_complete_while_fine, C106_reopening_helps); C106_refuted, C106_silent_until_reopened, C106_console_silent_for_ever: the state of the stream is never looked at or cleared, so after one failed operation nothing more reaches the file until a rotation succeeds, and a console shows nothing ever again'),
'C105':('partial','proved for loggers on a multisink, sinks with latency not zero and messages that come to the sink once; C105_direct_refuted: a logger on the file sink itself leaves its record inside the process; C105_twice_refuted: the second record of a message that comes twice stays there; for latency 0 see C104_zero_latency_refuted'),
}
