{
 "claims": [
  {
   "property": "C01",
   "status": "proved",
   "theorems": [
    "Soralog.Ring.C01_linearizable",
    "Soralog.Ring.C01_nothing_lost",
    "Soralog.Ring.C01_get_returns_element"
   ],
   "note": "all capacities >= 1, any number of threads, any schedule"
  },
  {
   "property": "C02",
   "status": "proved",
   "theorems": [
    "Soralog.Ring.C02_noderef_owns",
    "Soralog.Ring.C02_stable",
    "Soralog.Ring.C02_put_get_disjoint"
   ],
   "note": ""
  },
  {
   "property": "C03",
   "status": "proved",
   "theorems": [
    "Soralog.Ring.C03_bounds",
    "Soralog.Ring.C03_observers",
    "Soralog.Ring.C03_answers",
    "Soralog.Ring.C03_capacity_zero_refuted"
   ],
   "note": "C03_capacity_zero_refuted documents why capacity 0 is excluded"
  },
  {
   "property": "C04",
   "status": "proved",
   "theorems": [
    "Soralog.Ring.C04_can_complete",
    "Soralog.Ring.C04_lock_released",
    "Soralog.Ring.C04_uncontended"
   ],
   "note": "possibility of completion from every reachable state, with the queue as atomic operations and as it is written; scheduler fairness is not modelled"
  },
  {
   "property": "C05",
   "status": "proved",
   "theorems": [
    "Soralog.Ring.C05_per_producer_order"
   ],
   "note": ""
  },
  {
   "property": "C06",
   "status": "proved",
   "theorems": [
    "Soralog.Yaml.C06_document_slots",
    "Soralog.Layout.C06_slots",
    "Soralog.Layout.C06_event_layout",
    "Soralog.Layout.C06_event_slots",
    "Soralog.Layout.C06_wraparound_refuted"
   ],
   "note": "C06_document_slots: sinks declared in documents always meet the size bound; C06_wraparound_refuted shows that the bound in the statement is needed for a constructor called directly"
  },
  {
   "property": "C07",
   "status": "proved",
   "theorems": [
    "Soralog.Render.C07_event_text"
   ],
   "note": ""
  },
  {
   "property": "C08",
   "status": "proved",
   "theorems": [
    "Soralog.Render.C08_format_failure"
   ],
   "note": ""
  },
  {
   "property": "C09",
   "status": "proved",
   "theorems": [
    "Soralog.Render.C09_records_fit",
    "Soralog.Render.C09_bound_tight",
    "Soralog.Render.C09_unchecked_constructor_overflows"
   ],
   "note": "with the exact threshold; C09_bound_tight shows it is sharp, C09_unchecked_constructor_overflows shows a directly constructed sink below the threshold overflows"
  },
  {
   "property": "C10",
   "status": "proved",
   "theorems": [
    "Soralog.Render.C10_layout",
    "Soralog.Render.C10_record_of_call",
    "Soralog.Render.C10_thread_column",
    "Soralog.Render.C10_invertible",
    "Soralog.Render.C10_level_determined",
    "Soralog.Render.C10_trailing_space_ambiguous"
   ],
   "note": ""
  },
  {
   "property": "C11",
   "status": "proved",
   "theorems": [
    "Soralog.Render.C11_whole_log",
    "Soralog.Render.C11_color_only_escapes"
   ],
   "note": "for events whose texts contain no ESC character themselves"
  },
  {
   "property": "C12",
   "status": "partial",
   "theorems": [
    "Soralog.Render.C12_own_time_partial",
    "Soralog.Render.C12_refuted",
    "Soralog.Render.C12_iff_partial",
    "Soralog.Render.C12_of_calls_partial"
   ],
   "note": "true for every event whose second is not second 0 of the epoch; C12_iff_partial: exactly when an event prints a wrong date; C12_of_calls_partial: for what the log call gives; C12_refuted exhibits the exception, so the full statement is false of the code"
  },
  {
   "property": "C13",
   "status": "proved",
   "theorems": [
    "Soralog.Sink.C13_filter_exact",
    "Soralog.Sink.C13_multisink_rejects",
    "Soralog.Sink.C13_level_order",
    "Soralog.Sink.C13_admits_iff"
   ],
   "note": ""
  },
  {
   "property": "C14",
   "status": "partial",
   "theorems": [
    "Soralog.Sink.C14_no_more_detailed_partial",
    "Soralog.Sink.C14_iff_partial",
    "Soralog.Sink.C14_refuted"
   ],
   "note": "true unless formatting fails on a sink of level CRITICAL; C14_refuted shows that case, so the full statement is false of the code; C14_iff_partial: exactly the histories for which it holds"
  },
  {
   "property": "C15",
   "status": "proved",
   "theorems": [
    "Soralog.Sink.C15_delivered_iff_admitted"
   ],
   "note": "for sink graphs without empty multisinks (C31)"
  },
  {
   "property": "C16",
   "status": "proved",
   "theorems": [
    "Soralog.Sink.C16_macro_same_effect",
    "Soralog.Sink.C16_macro_lazy",
    "Soralog.Sink.C16_macro_admitted",
    "Soralog.Sink.C16_trace_debug_switches"
   ],
   "note": "argument expressions may change the user state only"
  },
  {
   "property": "C17",
   "status": "proved",
   "theorems": [
    "Soralog.Sink.C17_no_loss_no_dup_no_reorder",
    "Soralog.Sink.C17_unopened_file_loses"
   ],
   "note": "for sinks whose file could be opened; C17_unopened_file_loses shows the other case"
  },
  {
   "property": "C18",
   "status": "proved",
   "theorems": [
    "Soralog.Sink.C18_push_terminates_and_stores"
   ],
   "note": ""
  },
  {
   "property": "C19",
   "status": "partial",
   "theorems": [
    "Soralog.Sink.C19_iff_partial",
    "Soralog.Sink.C19_syslog_flush_drains",
    "Soralog.Sink.C19_flush_writes_oldest_partial",
    "Soralog.Sink.C19_refuted"
   ],
   "note": "true for syslog and null sink; console/file flush writes one event per call (C19_refuted); C19_iff_partial: exactly when nothing is left"
  },
  {
   "property": "C20",
   "status": "partial",
   "theorems": [
    "Soralog.Sink.C20_zero_latency_written_partial",
    "Soralog.SinkConc.C20_refuted",
    "Soralog.SinkConc.C20_taken_is_written_partial",
    "Soralog.SinkConc.C20_left_at_most_skips_partial",
    "Soralog.SinkConc.C20_skips_counted",
    "Soralog.SinkConc.C20_written_unless_skipped_partial",
    "Soralog.SinkFull.C20_refuted_real_queue",
    "Soralog.SinkFull.C20_skips_counted_real_queue",
    "Soralog.SinkFull.C20_left_at_most_skips_real_queue_partial"
   ],
   "note": "proved for one thread at a time, and for any number of threads in executions where no flush was skipped because another thread was inside (C20_written_unless_skipped_partial); with n skipped flushes at most n events, the newest, stay behind (C20_left_at_most_skips_partial, every execution: C20_skips_counted; also with the queue as written: C20_left_at_most_skips_real_queue_partial); false without that condition (C20_refuted)"
  },
  {
   "property": "C21",
   "status": "partial",
   "theorems": [
    "Soralog.Sink.C21_iff_partial",
    "Soralog.SinkConc.C21_refuted_concurrent",
    "Soralog.SinkFull.C21_refuted_real_queue",
    "Soralog.Sink.C21_log_call_writes_through_partial",
    "Soralog.Sink.C21_refuted"
   ],
   "note": "one thread at a time and only loggers used; false otherwise (C21_refuted, C21_refuted_concurrent); C21_iff_partial: for one thread exactly when the record has been written"
  },
  {
   "property": "C22",
   "status": "proved",
   "theorems": [
    "Soralog.Sink.C22_account_exact",
    "Soralog.SinkConc.C22_account_exact_concurrent",
    "Soralog.SinkConc.C22_never_negative"
   ],
   "note": "for sinks whose queue fits the address space"
  },
  {
   "property": "C23",
   "status": "proved",
   "theorems": [
    "Soralog.Sink.C23_high_water_mark"
   ],
   "note": ""
  },
  {
   "property": "C24",
   "status": "proved",
   "theorems": [
    "Soralog.SinkConc.C24_written_is_prefix",
    "Soralog.SinkConc.C24_stream_contents",
    "Soralog.SinkConc.C24_history_only_grows",
    "Soralog.SinkConc.C24_push_accepts_once",
    "Soralog.SinkConc.C24_unopened_file",
    "Soralog.SinkConc.C24_once_open"
   ],
   "note": ""
  },
  {
   "property": "C25",
   "status": "proved",
   "theorems": [
    "Soralog.SinkConc.C25_one_writer"
   ],
   "note": ""
  },
  {
   "property": "C26",
   "status": "partial",
   "theorems": [
    "Soralog.SinkConc.C26_destructor_writes_all_partial",
    "Soralog.SinkConc.C26_zero_latency_partial",
    "Soralog.SinkConc.C26_refuted",
    "Soralog.SinkConc.C26_unopened_file_refuted",
    "Soralog.SinkConc.C26_zero_latency_lost_partial",
    "Soralog.SinkConc.C26_lost_at_most_skips_partial",
    "Soralog.SinkFull.C26_refuted_real_queue",
    "Soralog.SinkFull.C26_lost_at_most_skips_real_queue_partial",
    "Soralog.SinkConc.C26_syslog_zero_latency"
   ],
   "note": "proved for sinks with a worker thread, and for latency 0 when at most one event is queued; for the syslog sink also with latency 0 (C26_syslog_zero_latency); false otherwise (C26_refuted: latency 0 after a race; C26_unopened_file_refuted); exactly what is lost then: C26_zero_latency_lost_partial, C26_lost_at_most_skips_real_queue_partial"
  },
  {
   "property": "C27",
   "status": "proved",
   "theorems": [
    "Soralog.Sink.C27_rotate_is_carried_out",
    "Soralog.SinkConc.C27_rotation_partitions",
    "Soralog.SinkConc.C27_reopen",
    "Soralog.SinkConc.C27_rotate_requests",
    "Soralog.SinkConc.C27_request_kept",
    "Soralog.SinkConc.C27_request_honoured"
   ],
   "note": ""
  },
  {
   "property": "C28",
   "status": "proved",
   "theorems": [
    "Soralog.SinkConc.C28_crash_prefix",
    "Soralog.SinkConc.C28_device_only_grows"
   ],
   "note": "for sinks whose stream is open"
  },
  {
   "property": "C29",
   "status": "partial",
   "theorems": [
    "Soralog.SinkConc.C29_iff_partial",
    "Soralog.SinkConc.C29_refuted",
    "Soralog.SinkConc.C29_requested_flush_durable_partial",
    "Soralog.SinkFull.C29_refuted_real_queue"
   ],
   "note": "true when a flush request is pending and the weak exchange does not fail; false in general (C29_refuted); C29_iff_partial: exactly when, for a flush that runs to its end undisturbed"
  },
  {
   "property": "C30",
   "status": "proved",
   "theorems": [
    "Soralog.Sink.C30_push_forwards",
    "Soralog.Sink.C30_rotate_reaches_all",
    "Soralog.Sink.C30_flush_reaches_all"
   ],
   "note": ""
  },
  {
   "property": "C31",
   "status": "partial",
   "theorems": [
    "Soralog.Sink.C31_iff_partial",
    "Soralog.Sink.C31_empty_multisink_partial",
    "Soralog.Sink.C31_refuted"
   ],
   "note": "pushes admitted by an empty multisink are undefined behaviour (C31_refuted), so the full statement is false of the code; C31_iff_partial: exactly the log calls that are undefined, for any nesting"
  },
  {
   "property": "C32",
   "status": "proved",
   "theorems": [
    "Soralog.System.C32_group_levels_up_to_date"
   ],
   "note": "for all histories of LoggingSystem calls and Logger method calls; direct calls of the public Group setters are outside (C66)"
  },
  {
   "property": "C33",
   "status": "proved",
   "theorems": [
    "Soralog.System.C33_group_sinks_up_to_date"
   ],
   "note": "as C32"
  },
  {
   "property": "C34",
   "status": "proved",
   "theorems": [
    "Soralog.System.C34_logger_properties_up_to_date"
   ],
   "note": "as C32"
  },
  {
   "property": "C35",
   "status": "proved",
   "theorems": [
    "Soralog.System.C35_setLevelOfGroup",
    "Soralog.System.C35_resetLevelOfGroup",
    "Soralog.System.C35_resetLevelOfGroup_root",
    "Soralog.System.C35_setSinkOfGroup",
    "Soralog.System.C35_resetSinkOfGroup",
    "Soralog.System.C35_resetSinkOfGroup_root"
   ],
   "note": "for registered groups and live loggers of registered groups; the reset forms on a root group change nothing but the mark"
  },
  {
   "property": "C36",
   "status": "proved",
   "theorems": [
    "Soralog.System.C36_order_irrelevant",
    "Soralog.System.C36_histories"
   ],
   "note": ""
  },
  {
   "property": "C37",
   "status": "proved",
   "theorems": [
    "Soralog.System.C37_setParentOfGroup",
    "Soralog.System.C37_unsetParentOfGroup",
    "Soralog.System.C37_all_registered",
    "Soralog.System.C37_closed"
   ],
   "note": ""
  },
  {
   "property": "C38",
   "status": "partial",
   "theorems": [
    "Soralog.System.C38_cycle_iff_partial",
    "Soralog.System.C38_only_self_cycles_partial",
    "Soralog.System.C38_acyclic_partial",
    "Soralog.System.C38_refused",
    "Soralog.System.C38_refuted"
   ],
   "note": "the only cycles that can arise are groups that are their own direct parent; acyclic if no group is made its own parent; C38_refuted: setParentOfGroup(r, r) is accepted, so the full statement is false of the code; it is the only call that makes a cycle (C38_cycle_iff_partial)"
  },
  {
   "property": "C39",
   "status": "partial",
   "theorems": [
    "Soralog.System.C39_ends_iff_partial",
    "Soralog.System.C39_ends_always_partial",
    "Soralog.System.C39_terminates_partial",
    "Soralog.System.C39_histories_partial",
    "Soralog.System.C39_refuted"
   ],
   "note": "exact: C39_ends_iff_partial says which calls end in which states of any history (also with methods of Group objects); all of them unless some group is its own parent; C39_refuted shows setLevelOfGroup running forever then"
  },
  {
   "property": "C40",
   "status": "proved",
   "theorems": [
    "Soralog.System.C40_same_logger",
    "Soralog.System.C40_unique",
    "Soralog.System.C40_new_logger"
   ],
   "note": ""
  },
  {
   "property": "C41",
   "status": "proved",
   "theorems": [
    "Soralog.System.C41_fallback",
    "Soralog.System.C41_unknown_sink"
   ],
   "note": ""
  },
  {
   "property": "C42",
   "status": "proved",
   "theorems": [
    "Soralog.System.C42_second_configure",
    "Soralog.System.C42_getLogger_before",
    "Soralog.System.C42_only_configure",
    "Soralog.System.C42_configured",
    "Soralog.System.C42_first_group_is_fallback",
    "Soralog.System.C42_setFallbackGroup"
   ],
   "note": ""
  },
  {
   "property": "C43",
   "status": "proved",
   "theorems": [
    "Soralog.System.C43_refused_changes_nothing",
    "Soralog.System.C43_refused_exactly"
   ],
   "note": ""
  },
  {
   "property": "C44",
   "status": "proved",
   "theorems": [
    "Soralog.System.C44_logger_level_sticky",
    "Soralog.System.C44_logger_sink_sticky",
    "Soralog.System.C44_group_level_sticky",
    "Soralog.System.C44_group_sink_sticky",
    "Soralog.System.C44_logger_set_reset",
    "Soralog.System.C44_methods"
   ],
   "note": ""
  },
  {
   "property": "C45",
   "status": "proved",
   "theorems": [
    "Soralog.System.C45_makeGroup"
   ],
   "note": ""
  },
  {
   "property": "C46",
   "status": "partial",
   "theorems": [
    "Soralog.System.C46_new_iff_partial",
    "Soralog.System.C46_sinks_partial",
    "Soralog.System.C46_refuted"
   ],
   "note": "true if every parentless group is created with a sink; C46_refuted: a root group with a level but no sink is accepted; C46_new_iff_partial: exactly when a new logger has no sink"
  },
  {
   "property": "C47",
   "status": "proved",
   "theorems": [
    "Soralog.Yaml.C47_names",
    "Soralog.Yaml.C47_property"
   ],
   "note": ""
  },
  {
   "property": "C48",
   "status": "proved",
   "theorems": [
    "Soralog.Yaml.C48_sane",
    "Soralog.Yaml.C48_values",
    "Soralog.Yaml.C48_numbers",
    "Soralog.Yaml.C48_records_fit"
   ],
   "note": ""
  },
  {
   "property": "C49",
   "status": "partial",
   "theorems": [
    "Soralog.System.C49_configure_flags",
    "Soralog.Yaml.C49_partial",
    "Soralog.Yaml.C49_iff_partial",
    "Soralog.Yaml.C49_chain",
    "Soralog.Yaml.C49_configure",
    "Soralog.Yaml.C49_rejected",
    "Soralog.Yaml.C49_refuted"
   ],
   "note": "proved: E:/W: problems <-> flags for all documents except the odd kinds (sink without name, ...), accumulation in chains and configure, every rejected node gives the error flag; C49_iff_partial: exactly which problems set which flag, for every document; C49_refuted: the odd kinds are printed as E: with neither flag"
  },
  {
   "property": "C50",
   "status": "partial",
   "theorems": [
    "Soralog.Yaml.C50_sinks",
    "Soralog.Yaml.C50_nesting_partial",
    "Soralog.Yaml.C50_nesting_refuted"
   ],
   "note": "every group has a sink after any documents (proved); nesting as written for documents in which every group is declared once under a new name; C50_nesting_refuted: false with repeated names"
  },
  {
   "property": "C51",
   "status": "proved",
   "theorems": [
    "Soralog.Yaml.C51_reserved",
    "Soralog.Yaml.C51_reported"
   ],
   "note": ""
  },
  {
   "property": "C52",
   "status": "partial",
   "theorems": [
    "Soralog.Yaml.C52_partial",
    "Soralog.Yaml.C52_refuted"
   ],
   "note": "proved for documents without alias cycles and without a group nested directly in a node of its own name; C52_refuted: false otherwise"
  },
  {
   "property": "C53",
   "status": "proved",
   "theorems": [
    "Soralog.Yaml.C53_left_out",
    "Soralog.Yaml.C53_same"
   ],
   "note": ""
  },
  {
   "property": "C54",
   "status": "partial",
   "theorems": [
    "Soralog.Sink.C54_calls_partial",
    "Soralog.Sink.C54_first_text_partial",
    "Soralog.Sink.C54_single_partial",
    "Soralog.Sink.C54_iff_partial",
    "Soralog.Sink.C54_refuted",
    "Soralog.Sink.C54_zero_latency_partial",
    "Soralog.Sink.C54_loggers_partial",
    "Soralog.SinkConc.C54_concurrent_first_text_partial"
   ],
   "note": "proved: number, order and priorities of the calls for all queues; own text if at most one event per run (latency 0, or use through loggers, one thread); under every schedule all calls of one flush carry the text of its first event (C54_concurrent_first_text_partial); C54_iff_partial says exactly when it holds; C54_refuted: every call of a run carries the text of the first event"
  },
  {
   "property": "C55",
   "status": "partial",
   "theorems": [
    "Soralog.Sink.C55_iff_partial",
    "Soralog.Sink.C55_roomy_partial",
    "Soralog.Sink.C55_refuted",
    "Soralog.Sink.C55_every_buffer_refuted"
   ],
   "note": "C55_iff_partial says exactly when it holds; proved for one thread if the buffer has room for a full queue; C55_refuted: false with parameters the configurator accepts; C55_every_buffer_refuted"
  },
  {
   "property": "C56",
   "status": "partial",
   "theorems": [
    "Soralog.SyslogOpen.C56_one_partial",
    "Soralog.SyslogOpen.C56_refused_partial",
    "Soralog.SyslogOpen.C56_never_again_refuted",
    "Soralog.SyslogOpen.C56_refuted",
    "Soralog.Whole.C56_program_partial",
    "Soralog.Whole.C56_program_calls_partial"
   ],
   "note": "at most one at a time and a second one throws: proved; C56_refuted/C56_never_again_refuted: after the first one no syslog sink can ever be created again"
  },
  {
   "property": "C57",
   "status": "proved",
   "theorems": [
    "Soralog.Thread.C57_numbers"
   ],
   "note": ""
  },
  {
   "property": "C58",
   "status": "proved",
   "theorems": [
    "Soralog.Thread.C58_first_name",
    "Soralog.Thread.C58_set_cut"
   ],
   "note": ""
  },
  {
   "property": "C59",
   "status": "proved",
   "theorems": [
    "Soralog.Sink.C59_levels_in_tables"
   ],
   "note": ""
  },
  {
   "property": "C60",
   "status": "proved",
   "theorems": [
    "Soralog.System.C60_configure",
    "Soralog.System.C60_loggers"
   ],
   "note": "for histories of getLogger calls and drops after configure()"
  },
  {
   "property": "C61",
   "status": "proved",
   "theorems": [
    "Soralog.Sink.C61_null_sink_stores_nothing"
   ],
   "note": ""
  },
  {
   "property": "C62",
   "status": "proved",
   "theorems": [
    "Soralog.SinkConc.C62_call_can_complete",
    "Soralog.SinkConc.C62_destructor_can_complete",
    "Soralog.SinkFull.C62_call_can_complete_real_queue",
    "Soralog.SinkFull.C62_destructor_can_complete_real_queue",
    "Soralog.SinkFull.C62_lock_can_be_freed_real_queue"
   ],
   "note": "possibility of completion from every reachable state, with the queue as atomic operations and as it is written; scheduler fairness is not modelled"
  },
  {
   "property": "C63",
   "status": "partial",
   "theorems": [
    "Soralog.System.C63_reaches_partial",
    "Soralog.System.C63_refuted",
    "Soralog.System.C63_iff_partial"
   ],
   "note": "for histories in which groups are created under new names; C63_refuted: false after a group is created again; C63_iff_partial: for every history, exactly the loggers that are reached"
  },
  {
   "property": "C64",
   "status": "partial",
   "theorems": [
    "Soralog.System.C64_values_partial",
    "Soralog.System.C64_refuted",
    "Soralog.System.C64_group_partial",
    "Soralog.System.C64_survives_iff_partial"
   ],
   "note": "values stay; the marks are not set (C64_refuted), so the documented behaviour is false of the code; C64_group_partial, C64_survives_iff_partial: exactly what happens instead"
  },
  {
   "property": "C65",
   "status": "partial",
   "theorems": [
    "Soralog.System.C65_marks_partial",
    "Soralog.System.C65_kept_partial",
    "Soralog.System.C65_refuted",
    "Soralog.System.C65_mark_iff_partial"
   ],
   "note": "true if the group has a parent; C65_refuted: false of root groups; C65_mark_iff_partial: exactly when the mark is set"
  },
  {
   "property": "C66",
   "status": "partial",
   "theorems": [
    "Soralog.System.C66_level_iff_partial",
    "Soralog.System.C66_sink_iff_partial",
    "Soralog.System.C66_direct_partial",
    "Soralog.System.C66_refuted"
   ],
   "note": "exact (iff): equal precisely if everything that inherits from the group has the new value already; C66_refuted: direct setters do not propagate"
  },
  {
   "property": "C67",
   "status": "partial",
   "theorems": [
    "Soralog.Yaml.C67_refuted",
    "Soralog.Yaml.C67_no_exception",
    "Soralog.Yaml.C67_partial",
    "Soralog.Yaml.C67_reported"
   ],
   "note": "proved for documents whose scalars convert (Readable): no exception, everything usable is applied, every wrong value is named in the message with its flag; false in general (C67_refuted): a value that does not convert throws out of configure()"
  },
  {
   "property": "C68",
   "status": "proved",
   "theorems": [
    "Soralog.Yaml.C68_sinks",
    "Soralog.Yaml.C68_unique"
   ],
   "note": ""
  },
  {
   "property": "C69",
   "status": "proved",
   "theorems": [
    "Soralog.Yaml.C69_calls",
    "Soralog.Yaml.C69_not_map"
   ],
   "note": ""
  },
  {
   "property": "C70",
   "status": "proved",
   "theorems": [
    "Soralog.SinkConc.C70_syslog_calls",
    "Soralog.SinkConc.C70_syslog_texts",
    "Soralog.SinkConc.C70_flush_drains"
   ],
   "note": ""
  },
  {
   "property": "C71",
   "status": "partial",
   "theorems": [
    "Soralog.SinkConc.C71_flush_takes_at_most_one_partial",
    "Soralog.SinkConc.C71_refuted"
   ],
   "note": "proved for console and file sinks: one flush takes at most one event; false for the syslog sink (C71_refuted: for every n a flush that has processed n events pushed meanwhile and has not returned)"
  },
  {
   "property": "C72",
   "status": "proved",
   "theorems": [
    "Soralog.SinkFull.C72_same_observations",
    "Soralog.SinkFull.C72_no_undefined_behaviour",
    "Soralog.SinkFull.C72_exactly_once_in_order",
    "Soralog.SinkFull.C72_crash_prefix",
    "Soralog.SinkFull.C72_destructor_writes_all",
    "Soralog.SinkFull.C72_one_writer",
    "Soralog.SinkFull.C72_account_exact",
    "Soralog.SinkFull.C72_syslog_texts",
    "Soralog.SinkFull.C72_push_accepts_once",
    "Soralog.SinkFull.C72_own_order",
    "Soralog.SinkFull.C72_accepted_only_grows",
    "Soralog.SinkFull.C72_every_observation_occurs"
   ],
   "note": "composition of Ring and SinkConc (SinkFull), refinement in both directions; the latency-0 destructor of console and file sinks is C26_refuted"
  },
  {
   "property": "C73",
   "status": "partial",
   "theorems": [
    "Soralog.Whole.C73_nothing_undefined_partial",
    "Soralog.Whole.C73_document_sinks_roomy",
    "Soralog.Whole.C73_refuted"
   ],
   "note": "proved if no root group is made by hand without sink (C46), getLogger is not called before there is a group, no multisink is without underlying sinks (C31) and the buffers are large enough (automatic for console and file sinks of a document: C73_document_sinks_roomy); C73_refuted: a document that is accepted with a warning only makes the first log call undefined"
  },
  {
   "property": "C74",
   "status": "proved",
   "theorems": [
    "Soralog.Whole.C74_accepted",
    "Soralog.Whole.C74_written",
    "Soralog.Whole.C74_structure",
    "Soralog.Whole.C74_lines"
   ],
   "note": "for sinks below multisinks that are not empty (C31); C74_lines: colourless console or opened file, second not 0 of the epoch (C12); worker threads appear as flush calls"
  },
  {
   "property": "C75",
   "status": "partial",
   "theorems": [
    "Soralog.Timed.C75_waits_partial",
    "Soralog.Timed.C75_refuted",
    "Soralog.Timed.C75_unbounded_refuted",
    "Soralog.Timed.C75_idle_partial",
    "Soralog.Timed.C75_time_passes",
    "Soralog.Timed.C75_syslog_at_once_partial",
    "Soralog.Timed.C75_busy_refuted"
   ],
   "note": "console and file: proved with (n+1)(L+d) for an event with n events queued before it, and the worker wakes once per L; false as stated (C75_refuted, C75_unbounded_refuted: one event per flush; C75_busy_refuted: the worker of a syslog sink never waits because next_flush_ is never advanced)"
  },
  {
   "property": "C76",
   "status": "partial",
   "theorems": [
    "Soralog.System.Conc.C76_serial_partial",
    "Soralog.System.Conc.C76_up_to_date_partial",
    "Soralog.System.Conc.C76_calm_without_makeGroup",
    "Soralog.System.Conc.C76_refuted"
   ],
   "note": "proved for executions in which no makeGroup overlaps a call that changes groups or re-registers its names (and so always when groups are made before the threads start); C76_refuted: makeGroup builds the group before it takes the mutex, so a child can keep the level its parent had before a concurrent setLevelOfGroup"
  },
  {
   "property": "C77",
   "status": "partial",
   "theorems": [
    "Soralog.System.Conc.C77_at_most_once_partial",
    "Soralog.System.Conc.C77_unchanged_partial",
    "Soralog.System.Conc.C77_refuted"
   ],
   "note": "at most one push, to a sink and because of a level held during the call; as alone if level and sink of the logger do not change meanwhile; C77_refuted: level and sink are read separately, a debug message can go to a sink the logger has only together with level info"
  },
  {
   "property": "C78",
   "status": "proved",
   "theorems": [
    "Soralog.System.Conc.C78_structure",
    "Soralog.System.Conc.C78_calls_end",
    "Soralog.System.Conc.C78_steps_bounded"
   ],
   "note": "steps: LoggingSystem calls with the mutex are one step, makeGroup and log calls step by step; sequentially consistent memory"
  },
  {
   "property": "C79",
   "status": "proved",
   "theorems": [
    "Soralog.Race.C79_queue",
    "Soralog.Race.C79_sink",
    "Soralog.Race.C79_runs",
    "Soralog.Race.C79_queue_complete",
    "Soralog.Race.C79_sink_complete",
    "Soralog.Race.C79_reads_complete"
   ],
   "note": "all flags have the default memory order; other atomics are left out (they could only add happens-before); construction of an object happens before its use; the destructor starts after all calls have returned"
  },
  {
   "property": "C80",
   "status": "partial",
   "theorems": [
    "Soralog.Race.C80_locked_partial",
    "Soralog.Race.C80_unlocked_partial",
    "Soralog.Race.C80_settled_partial",
    "Soralog.Race.C80_runs",
    "Soralog.Race.C80_reads_complete",
    "Soralog.Race.C80_refuted"
   ],
   "note": "no race among accesses with the mutex; no race at all if settings are not changed once a thread logs (Settled) and the methods of logger objects are not used; C80_refuted: Logger::push reads level_ and sink_ without the mutex, a concurrent setLevelOfLogger is a data race"
  },
  {
   "property": "C81",
   "status": "partial",
   "theorems": [
    "Soralog.Ring.C81_put_returns_partial",
    "Soralog.Ring.C81_get_returns_partial",
    "Soralog.Ring.C81_get_refuted",
    "Soralog.SinkFull.C81_push_returns_partial",
    "Soralog.SinkFull.C81_nothing_leaves_refuted",
    "Soralog.SinkFull.C81_flush_refuted",
    "Soralog.SinkFull.C81_push_refuted",
    "Soralog.SinkFull.C81_nested_refuted"
   ],
   "note": "proved: put and size of the queue, and the storing part of a log call, never need a thread that is formatting; get needs only the one that formats the oldest message. Refuted otherwise, for every state: while the oldest message is being formatted nothing leaves the queue (C81_nothing_leaves_refuted), flush/worker/destructor hang (C81_flush_refuted), log calls hang once the queue is full (C81_push_refuted), and a formatter that logs hangs itself (C81_nested_refuted)"
  },
  {
   "property": "C82",
   "status": "proved",
   "theorems": [
    "Soralog.SinkFull.C82_returned_first_written_first"
   ],
   "note": "on the queue as written; records of accepted events appear in the order of acceptance (C72)"
  },
  {
   "property": "C83",
   "status": "proved",
   "theorems": [
    "Soralog.SinkClock.C83_time_of_the_call"
   ],
   "note": "on the queue as written, with a clock that is never set back"
  },
  {
   "property": "C84",
   "status": "partial",
   "theorems": [
    "Soralog.SinkClock.C84_thread_times_partial",
    "Soralog.SinkClock.C84_separate_calls_partial",
    "Soralog.SinkClock.C84_refuted"
   ],
   "note": "proved for the messages of one thread and for messages whose calls do not overlap; C84_refuted: the place in the queue is taken before the clock is read, so overlapping calls may come out with decreasing times"
  },
  {
   "property": "C85",
   "status": "partial",
   "theorems": [
    "Soralog.Lifetime.C85_destroyed_exactly",
    "Soralog.Lifetime.C85_everything_goes_partial",
    "Soralog.Lifetime.C85_logger_keeps",
    "Soralog.Lifetime.C85_system_keeps",
    "Soralog.Lifetime.C85_refuted"
   ],
   "note": "exact for all histories: destroyed is what neither a remaining pointer nor a group that is its own parent owns; so everything goes if no group is its own parent; C85_refuted: after setParentOfGroup(g, g) the group holds itself and the destructors of its sinks never run"
  },
  {
   "property": "C86",
   "status": "proved",
   "theorems": [
    "Soralog.System.C86_only_this_group",
    "Soralog.System.C86_group_by_name",
    "Soralog.System.C86_logger_by_name",
    "Soralog.System.C86_sound"
   ],
   "note": ""
  },
  {
   "property": "C87",
   "status": "partial",
   "theorems": [
    "Soralog.System.C87_setters_partial",
    "Soralog.System.C87_setParentGroup_partial",
    "Soralog.System.C87_unsetParentGroup_partial",
    "Soralog.System.C87_refuted",
    "Soralog.System.C87_root_partial"
   ],
   "note": "proved for groups with a parent, setParentGroup and the values after unsetParentGroup; C87_refuted: the marks promised for roots and by unsetParentGroup are not set; C87_root_partial: exactly what happens to roots"
  },
  {
   "property": "C88",
   "status": "partial",
   "theorems": [
    "Soralog.System.C88_calls_end_partial",
    "Soralog.System.C88_refuted"
   ],
   "note": "proved for histories in which no action closes a cycle (which calls end otherwise: C39_ends_iff_partial); C88_refuted: a.setParentGroup(b) is not checked"
  },
  {
   "property": "C89",
   "status": "proved",
   "theorems": [
    "Soralog.Many.C89_parts",
    "Soralog.Many.C89_delivered_once_in_order",
    "Soralog.Many.C89_never_too_much",
    "Soralog.Many.C89_file_contents",
    "Soralog.Many.C89_syslog_calls",
    "Soralog.Many.C89_file_complete",
    "Soralog.Many.C89_history",
    "Soralog.Many.C89_log_call"
   ],
   "note": "for programs without an empty multisink that admits messages (Setup.Sound; outside it the code has undefined behaviour, C31); completeness after the destructor for file sinks with a worker (without one: C26); syslog calls by priority (C89_syslog_calls), their texts are the subject of C54 and C70"
  },
  {
   "property": "C90",
   "status": "partial",
   "theorems": [
    "Soralog.Ring.C90_no_damage_partial",
    "Soralog.Ring.C90_refuted"
   ],
   "note": "safety and order stay as they are with any number of exceptions (C90_no_damage_partial); C90_refuted: the place of the message whose construction threw stays taken; once it is the oldest one, for every continuation no get returns any more, so flush and worker hang. With NDEBUG the exception ends the process (noexcept)"
  },
  {
   "property": "C91",
   "status": "partial",
   "theorems": [
    "Soralog.Overload.C91_value_partial",
    "Soralog.Overload.C91_format_iff_partial",
    "Soralog.Overload.C91_no_braces_partial",
    "Soralog.Overload.C91_escaped",
    "Soralog.Overload.C91_refuted"
   ],
   "note": "info(x) and its siblings: proved for everything but std::string_view; exactly the texts without braces for std::string_view, log(level, x) and the macros (C91_format_iff_partial); C91_refuted; of fmt only literal text, doubled braces and {} are modelled"
  },
  {
   "property": "C92",
   "status": "partial",
   "theorems": [
    "Soralog.Ring.C92_queue_progress",
    "Soralog.Ring.C92_queue_all_return",
    "Soralog.Ring.C92_queue_refuted",
    "Soralog.SinkFull.C92_some_call_returns_partial",
    "Soralog.SinkFull.C92_all_calls_return_partial",
    "Soralog.SinkFull.C92_destructor_ends",
    "Soralog.SinkFull.C92_refuted"
   ],
   "note": "queue: proved (some pending call returns; all return once calls stop), for single calls refuted (C92_queue_refuted); destructor: proved when the waits of the worker end and stores become visible (C96 says what happens otherwise); sink calls: proved when the spin lock of the queue starves nobody (C92_some_call_returns_partial, C92_all_calls_return_partial), otherwise refuted: a fair schedule in which no call ever returns (C92_refuted)"
  },
  {
   "property": "C93",
   "status": "partial",
   "theorems": [
    "Soralog.InUse.C93_registered_partial",
    "Soralog.InUse.C93_partial",
    "Soralog.InUse.C93_lost_only_if",
    "Soralog.InUse.C93_refuted"
   ],
   "note": "proved as long as no other sink is registered under the name of the sink in use; it can be lost only if its name was registered again and the logger got another sink (C93_lost_only_if); otherwise refuted (C93_refuted)"
  },
  {
   "property": "C94",
   "status": "partial",
   "theorems": [
    "Soralog.Construct.C94_partial",
    "Soralog.Construct.C94_file_iff",
    "Soralog.Construct.C94_refuted",
    "Soralog.Construct.C94_document"
   ],
   "note": "console, syslog and documents: proved; the file sink is characterised exactly (C94_file_iff): its header names two parameters the other way round than its definition (C94_refuted)"
  },
  {
   "property": "C95",
   "status": "partial",
   "theorems": [
    "Soralog.SinkFull.C95_worker_partial",
    "Soralog.SinkFull.C95_used_partial",
    "Soralog.SinkFull.C95_refuted",
    "Soralog.SinkFull.C95_device_refuted"
   ],
   "note": "handed to the stream: proved with a worker whose waits end (C95_worker_partial) and, without one, when the sink keeps being used (C95_used_partial), both for a spin lock that starves nobody; otherwise refuted (C95_refuted); reaching the operating system is refuted even with a worker (C95_device_refuted): an idle worker never flushes the stream"
  },
  {
   "property": "C96",
   "status": "partial",
   "theorems": [
    "Soralog.Wake.C96_deadlines_partial",
    "Soralog.Wake.C96_waiting_partial",
    "Soralog.Wake.C96_refuted",
    "Soralog.Wake.C96_waiting_refuted",
    "Soralog.Wake.C96_old_values_refuted"
   ],
   "note": "false as stated: the notification is lost when the worker is not inside its wait (C96_refuted, nothing queued), and a console or file sink waits for the deadline again for each event after the first (C96_waiting_refuted), and the worker may load old values of the flags after it has been notified (C96_old_values_refuted); proved when the worker is inside its wait, no spurious wake-ups, no loads of old values and at most one event queued or a syslog sink (C96_waiting_partial), and when deadlines pass and stores become visible (C96_deadlines_partial)"
  },
  {
   "property": "C97",
   "status": "partial",
   "theorems": [
    "Soralog.TimedEnd.C97_within_partial",
    "Soralog.TimedEnd.C97_one_event_partial",
    "Soralog.TimedEnd.C97_syslog_partial",
    "Soralog.TimedEnd.C97_each_event_costs_a_latency",
    "Soralog.TimedEnd.C97_refuted"
   ],
   "note": "syslog: proved (at most d); console and file: proved with at most one event queued, and in general with max(n,1)(L+d) for n queued events; false as stated (C97_refuted: no bound; C97_each_event_costs_a_latency: at least n-1-k latencies in every execution with k early wake-ups)"
  },
  {
   "property": "C98",
   "status": "proved",
   "theorems": [
    "Soralog.Many.C98_document",
    "Soralog.Many.Lock.C98_all_calls_can_end",
    "Soralog.Many.Lock.C98_log_calls_need_no_mutex",
    "Soralog.Many.Lock.C98_is_an_execution",
    "Soralog.Many.Lock.C98_mutex_excludes"
   ],
   "note": "deadlock freedom; that every call does return under a fair scheduler is C92; C98_document: the same after a document has been read, with what the sinks have then accepted"
  },
  {
   "property": "C99",
   "status": "proved",
   "theorems": [
    "Soralog.Many.C99_document",
    "Soralog.Many.C99_no_null_pointer",
    "Soralog.Many.C99_queues",
    "Soralog.Many.C99_records_fit"
   ],
   "note": "the conditions on groups and multisinks are needed: C46_refuted, C31_refuted; C99_document: after a document has been read the conditions are those on the document, and the buffer sizes need no condition"
  },
  {
   "property": "C100",
   "status": "proved",
   "theorems": [
    "Soralog.Render.C100_record_restores",
    "Soralog.Render.C100_shown",
    "Soralog.Sink.C100_console_sink",
    "Soralog.SinkFull.C100_any_threads",
    "Soralog.Many.C100_program"
   ],
   "note": ""
  },
  {
   "property": "C101",
   "status": "partial",
   "theorems": [
    "Soralog.Render.C101_read_back_partial",
    "Soralog.Render.C101_line_count",
    "Soralog.Render.C101_forgery_refuted",
    "Soralog.Sink.C101_file_sink_partial",
    "Soralog.SinkFull.C101_any_threads_partial",
    "Soralog.Many.C101_program_partial"
   ],
   "note": "proved for texts without line ends and names that do not run into the separator; C101_line_count: the number of lines is exactly the number of events plus the line ends in their texts; C101_forgery_refuted: one call whose text contains a line end leaves exactly what two other calls leave (log injection)"
  },
  {
   "property": "C102",
   "status": "proved",
   "theorems": [
    "Soralog.Many.Lock.C102_comes_to_rest",
    "Soralog.Many.Lock.C102_log_complete",
    "Soralog.Many.Lock.C102_destroyed_complete",
    "Soralog.Many.Lock.C102_can_go_on"
   ],
   "note": "the assumptions (fair scheduler, no starvation at spin locks, waits end, stores visible, sinks kept) are part of the property; sinks without latency: C95"
  },
  {
   "property": "C103",
   "status": "proved",
   "theorems": [
    "Soralog.Many.C103_order",
    "Soralog.Many.C103_crash"
   ],
   "note": "sinks opened, no empty multisink (C31); a crash is the end of the execution at an arbitrary state, after which gens and dev are left"
  },
  {
   "property": "C104",
   "status": "partial",
   "theorems": [
    "Soralog.SinkFull.C104_requested_partial",
    "Soralog.SinkFull.C104_request_pending",
    "Soralog.SinkFull.C104_empty_refuted",
    "Soralog.SinkFull.C104_zero_latency_refuted",
    "Soralog.SinkFull.C104_refuted",
    "Soralog.Many.Lock.C104_program_partial"
   ],
   "note": "proved if some event is still to be handed over when the request is made or later, for one sink and in a whole program that makes calls for ever (C104_program_partial); C104_empty_refuted: with an empty queue no number of flush() and async_flush() calls ever flushes the stream; C104_zero_latency_refuted: a sink with latency 0 never flushes its stream at all"
  },
  {
   "property": "C105",
   "status": "partial",
   "theorems": [
    "Soralog.Many.C105_multisink_partial",
    "Soralog.Many.C105_direct_refuted",
    "Soralog.Many.C105_twice_refuted"
   ],
   "note": "proved for loggers on a multisink, sinks with latency not zero and messages that come to the sink once; C105_direct_refuted: a logger on the file sink itself leaves its record inside the process; C105_twice_refuted: the second record of a message that comes twice stays there; for latency 0 see C104_zero_latency_refuted"
  },
  {
   "property": "C106",
   "status": "partial",
   "theorems": [
    "Soralog.FailingStream.C106_unnoticed",
    "Soralog.FailingStream.C106_kept_partial",
    "Soralog.FailingStream.C106_silent_until_reopened",
    "Soralog.FailingStream.C106_console_silent_for_ever",
    "Soralog.FailingStream.C106_reopening_helps",
    "Soralog.FailingStream.C106_complete_while_fine",
    "Soralog.FailingStream.C106_nothing_left",
    "Soralog.FailingStream.C106_refuted"
   ],
   "note": "proved: no call notices (C106_unnoticed), every file holds a beginning of its records (C106_kept_partial), nothing is lost while nothing fails and after a successful rotation (C106_complete_while_fine, C106_reopening_helps); C106_refuted, C106_silent_until_reopened, C106_console_silent_for_ever: the state of the stream is never looked at or cleared, so after one failed operation nothing more reaches the file until a rotation succeeds, and a console shows nothing ever again"
  },
  {
   "property": "C107",
   "status": "proved",
   "theorems": [
    "Soralog.Many.C107_coloured_lines",
    "Soralog.Many.C107_coloured_in_the_end",
    "Soralog.Many.C107_configured",
    "Soralog.Many.C107_delivered",
    "Soralog.Many.C107_lines",
    "Soralog.Many.C107_file_complete",
    "Soralog.Many.Lock.C107_in_the_end"
   ],
   "note": "C107_configured: configure() ends in a state of the many-thread model; C107_delivered, C107_lines, C107_file_complete say what the sinks get, C107_coloured_lines and C107_coloured_in_the_end the same of a coloured console, C107_in_the_end what they have got when the threads have stopped calling (fair scheduler, no starvation at spin locks, waits end, stores visible). The threads get loggers of registered groups, log, flush and drop loggers (level and sink changes while logging: C77, C89); no multisink is empty (C31)"
  },
  {
   "property": "C108",
   "status": "partial",
   "theorems": [
    "Soralog.RingInit.C108_ready_partial",
    "Soralog.RingInit.C108_ready_iff",
    "Soralog.RingInit.C108_refuted",
    "Soralog.RingInit.C108_apart",
    "Soralog.RingInit.C108_initial",
    "Soralog.Yaml.C108_document"
   ],
   "note": "proved for capacities up to 2^31 - 1 (C108_ready_partial, C108_apart) and for every sink of every document (C108_document); C108_ready_iff: exactly these; C108_refuted: the index of the loop is an int and overflows for larger ones. C108_initial: the state left is the initial state of the queue model"
  },
  {
   "property": "C109",
   "status": "partial",
   "theorems": [
    "Soralog.SinkFull.C109_request_pending",
    "Soralog.SinkFull.C109_worker_rotates_partial",
    "Soralog.SinkFull.C109_flush_rotates_partial",
    "Soralog.SinkFull.C109_zero_latency_refuted",
    "Soralog.SinkFull.C109_unopened_refuted",
    "Soralog.Many.Lock.C109_every_file_partial",
    "Soralog.Many.Lock.C109_busy_program_partial"
   ],
   "note": "proved for opened files with a worker: one sink while any threads make any calls (C109_worker_rotates_partial), every file below a multisink of any depth in a whole program whose last call is rotate() (C109_every_file_partial) and in one that makes calls for ever when all files below have a worker (C109_busy_program_partial); for every file sink when flush() is called afterwards (C109_flush_rotates_partial); false for zero latency when another thread is inside flush() (C109_zero_latency_refuted) and for a file that could not be opened, which has no worker (C109_unopened_refuted)"
  },
  {
   "property": "C110",
   "status": "proved",
   "theorems": [
    "Soralog.Many.C110_lone_call",
    "Soralog.Many.C110_worker_pass",
    "Soralog.Many.C110_one_by_one",
    "Soralog.Many.C110_from_the_start",
    "Soralog.Many.C110_document"
   ],
   "note": "one call (C110_lone_call), one pass of a worker (C110_worker_pass), any sequence of calls by any threads and passes (C110_one_by_one), from newly constructed sinks and from a configured document; the model with many threads down to the atomic accesses of the queue against the sequential model"
  },
  {
   "property": "C111",
   "status": "proved",
   "theorems": [
    "Soralog.Many.C111_one_call",
    "Soralog.Many.C111_one_by_one",
    "Soralog.Many.C111_document"
   ],
   "note": "one call (C111_one_call), any sequence of calls by any threads and passes of workers (C111_one_by_one), after any document (C111_document): the many-thread model of system and sinks against the model of the whole program with one thread (the one of C73, C74); no sink is created and none of the sinks called is the one to nowhere"
  },
  {
   "property": "C112",
   "status": "proved",
   "theorems": [
    "Soralog.Many.Lock.C112_written_in_the_end",
    "Soralog.Many.Lock.C112_configured",
    "Soralog.Many.Lock.C112_document"
   ],
   "note": "the assumptions (fair scheduler, no starvation at spin locks, waits end, the sink kept, start of calls listed as such) are part of the property; no multisink is empty (C31); sinks without latency: C95; reaching the operating system: C104_program_partial; C112_document says it for the sinks of a document in terms of what the document owes"
  }
 ]
}