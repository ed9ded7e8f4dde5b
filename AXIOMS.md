# Axioms per theorem (`#print axioms`)

| theorem | axioms |
|---|---|
| Soralog.Ring.C01_linearizable | propext, Classical.choice, Quot.sound |
| Soralog.Ring.C01_nothing_lost | propext, Classical.choice, Quot.sound |
| Soralog.Ring.C01_get_returns_element | propext, Classical.choice, Quot.sound |
| Soralog.Ring.C02_noderef_owns | propext, Classical.choice, Quot.sound |
| Soralog.Ring.C02_stable | propext, Classical.choice, Quot.sound |
| Soralog.Ring.C02_put_get_disjoint | propext, Classical.choice, Quot.sound |
| Soralog.Ring.C03_bounds | propext, Classical.choice, Quot.sound |
| Soralog.Ring.C03_observers | propext, Quot.sound |
| Soralog.Ring.C03_answers | propext, Classical.choice, Quot.sound |
| Soralog.Ring.C03_capacity_zero_refuted | propext |
| Soralog.Ring.C04_can_complete | propext, Classical.choice, Quot.sound |
| Soralog.Ring.C04_lock_released | propext, Classical.choice, Quot.sound |
| Soralog.Ring.C04_uncontended | propext, Classical.choice, Quot.sound |
| Soralog.Ring.C05_per_producer_order | propext, Classical.choice, Quot.sound |
| Soralog.Yaml.C06_document_slots | propext, Classical.choice, Quot.sound |
| Soralog.Layout.C06_slots | propext, Classical.choice, Quot.sound |
| Soralog.Layout.C06_event_layout | propext |
| Soralog.Layout.C06_event_slots | propext, Classical.choice, Quot.sound |
| Soralog.Layout.C06_wraparound_refuted | none |
| Soralog.Render.C07_event_text | propext, Classical.choice, Quot.sound |
| Soralog.Render.C08_format_failure | propext, Classical.choice, Quot.sound |
| Soralog.Render.C09_records_fit | propext, Classical.choice, Quot.sound |
| Soralog.Render.C09_bound_tight | propext, Classical.choice, Quot.sound |
| Soralog.Render.C09_unchecked_constructor_overflows | propext, Classical.choice, Quot.sound |
| Soralog.Render.C10_layout | propext, Classical.choice, Quot.sound |
| Soralog.Render.C10_record_of_call | propext, Classical.choice, Quot.sound |
| Soralog.Render.C10_thread_column | propext, Classical.choice, Quot.sound |
| Soralog.Render.C10_invertible | propext, Classical.choice, Quot.sound |
| Soralog.Render.C10_level_determined | propext, Classical.choice, Quot.sound |
| Soralog.Render.C10_trailing_space_ambiguous | propext |
| Soralog.Render.C11_whole_log | propext, Classical.choice, Quot.sound |
| Soralog.Render.C11_color_only_escapes | propext, Classical.choice, Quot.sound |
| Soralog.Render.C12_own_time_partial | propext, Classical.choice, Quot.sound |
| Soralog.Render.C12_refuted | propext, Classical.choice, Quot.sound |
| Soralog.Render.C12_iff_partial | propext, Classical.choice, Quot.sound |
| Soralog.Render.C12_of_calls_partial | propext, Classical.choice, Quot.sound |
| Soralog.Sink.C13_filter_exact | propext, Classical.choice, Quot.sound |
| Soralog.Sink.C13_multisink_rejects | propext, Classical.choice, Quot.sound |
| Soralog.Sink.C13_level_order | none |
| Soralog.Sink.C13_admits_iff | propext |
| Soralog.Sink.C14_no_more_detailed_partial | propext, Classical.choice, Quot.sound |
| Soralog.Sink.C14_iff_partial | propext, Classical.choice, Quot.sound |
| Soralog.Sink.C14_refuted | propext, Classical.choice, Quot.sound |
| Soralog.Sink.C15_delivered_iff_admitted | propext, Classical.choice, Quot.sound |
| Soralog.Sink.C16_macro_same_effect | propext, Classical.choice, Quot.sound |
| Soralog.Sink.C16_macro_lazy | propext, Classical.choice, Quot.sound |
| Soralog.Sink.C16_macro_admitted | propext, Classical.choice, Quot.sound |
| Soralog.Sink.C16_trace_debug_switches | propext, Classical.choice, Quot.sound |
| Soralog.Sink.C17_no_loss_no_dup_no_reorder | propext, Classical.choice, Quot.sound |
| Soralog.Sink.C17_unopened_file_loses | propext, Classical.choice, Quot.sound |
| Soralog.Sink.C18_push_terminates_and_stores | propext, Classical.choice, Quot.sound |
| Soralog.Sink.C19_iff_partial | propext, Classical.choice, Quot.sound |
| Soralog.Sink.C19_syslog_flush_drains | propext, Classical.choice, Quot.sound |
| Soralog.Sink.C19_flush_writes_oldest_partial | propext, Classical.choice, Quot.sound |
| Soralog.Sink.C19_refuted | propext, Classical.choice, Quot.sound |
| Soralog.Sink.C20_zero_latency_written_partial | propext, Classical.choice, Quot.sound |
| Soralog.SinkConc.C20_refuted | propext |
| Soralog.SinkConc.C20_taken_is_written_partial | propext, Quot.sound |
| Soralog.SinkConc.C20_left_at_most_skips_partial | propext, Quot.sound |
| Soralog.SinkConc.C20_skips_counted | propext, Classical.choice, Quot.sound |
| Soralog.SinkConc.C20_written_unless_skipped_partial | propext, Quot.sound |
| Soralog.SinkFull.C20_refuted_real_queue | propext, Classical.choice, Quot.sound |
| Soralog.SinkFull.C20_skips_counted_real_queue | propext, Classical.choice, Quot.sound |
| Soralog.SinkFull.C20_left_at_most_skips_real_queue_partial | propext, Classical.choice, Quot.sound |
| Soralog.Sink.C21_iff_partial | propext, Classical.choice, Quot.sound |
| Soralog.SinkConc.C21_refuted_concurrent | propext |
| Soralog.SinkFull.C21_refuted_real_queue | propext |
| Soralog.Sink.C21_log_call_writes_through_partial | propext, Classical.choice, Quot.sound |
| Soralog.Sink.C21_refuted | propext, Classical.choice, Quot.sound |
| Soralog.Sink.C22_account_exact | propext, Classical.choice, Quot.sound |
| Soralog.SinkConc.C22_account_exact_concurrent | propext, Quot.sound |
| Soralog.SinkConc.C22_never_negative | propext, Quot.sound |
| Soralog.Sink.C23_high_water_mark | propext, Classical.choice, Quot.sound |
| Soralog.SinkConc.C24_written_is_prefix | propext, Quot.sound |
| Soralog.SinkConc.C24_stream_contents | propext, Quot.sound |
| Soralog.SinkConc.C24_history_only_grows | propext, Quot.sound |
| Soralog.SinkConc.C24_push_accepts_once | propext, Quot.sound |
| Soralog.SinkConc.C24_unopened_file | propext, Quot.sound |
| Soralog.SinkConc.C24_once_open | propext, Quot.sound |
| Soralog.SinkConc.C25_one_writer | propext, Classical.choice, Quot.sound |
| Soralog.SinkConc.C26_destructor_writes_all_partial | propext, Quot.sound |
| Soralog.SinkConc.C26_zero_latency_partial | propext, Quot.sound |
| Soralog.SinkConc.C26_refuted | propext |
| Soralog.SinkConc.C26_unopened_file_refuted | propext, Quot.sound |
| Soralog.SinkConc.C26_zero_latency_lost_partial | propext, Quot.sound |
| Soralog.SinkConc.C26_lost_at_most_skips_partial | propext, Quot.sound |
| Soralog.SinkFull.C26_refuted_real_queue | propext, Classical.choice, Quot.sound |
| Soralog.SinkFull.C26_lost_at_most_skips_real_queue_partial | propext, Classical.choice, Quot.sound |
| Soralog.SinkConc.C26_syslog_zero_latency | propext, Quot.sound |
| Soralog.Sink.C27_rotate_is_carried_out | propext, Classical.choice, Quot.sound |
| Soralog.SinkConc.C27_rotation_partitions | propext, Quot.sound |
| Soralog.SinkConc.C27_reopen | propext |
| Soralog.SinkConc.C27_rotate_requests | propext |
| Soralog.SinkConc.C27_request_kept | propext, Quot.sound |
| Soralog.SinkConc.C27_request_honoured | propext, Classical.choice, Quot.sound |
| Soralog.SinkConc.C28_crash_prefix | propext, Quot.sound |
| Soralog.SinkConc.C28_device_only_grows | propext |
| Soralog.SinkConc.C29_iff_partial | propext, Quot.sound |
| Soralog.SinkConc.C29_refuted | propext |
| Soralog.SinkConc.C29_requested_flush_durable_partial | propext, Quot.sound |
| Soralog.SinkFull.C29_refuted_real_queue | propext |
| Soralog.Sink.C30_push_forwards | propext, Classical.choice, Quot.sound |
| Soralog.Sink.C30_rotate_reaches_all | propext, Classical.choice, Quot.sound |
| Soralog.Sink.C30_flush_reaches_all | propext, Classical.choice, Quot.sound |
| Soralog.Sink.C31_iff_partial | propext, Classical.choice, Quot.sound |
| Soralog.Sink.C31_empty_multisink_partial | propext, Classical.choice, Quot.sound |
| Soralog.Sink.C31_refuted | propext, Classical.choice, Quot.sound |
| Soralog.System.C32_group_levels_up_to_date | propext, Classical.choice, Quot.sound |
| Soralog.System.C33_group_sinks_up_to_date | propext, Classical.choice, Quot.sound |
| Soralog.System.C34_logger_properties_up_to_date | propext, Classical.choice, Quot.sound |
| Soralog.System.C35_setLevelOfGroup | propext, Classical.choice, Quot.sound |
| Soralog.System.C35_resetLevelOfGroup | propext, Classical.choice, Quot.sound |
| Soralog.System.C35_resetLevelOfGroup_root | propext, Classical.choice, Quot.sound |
| Soralog.System.C35_setSinkOfGroup | propext, Classical.choice, Quot.sound |
| Soralog.System.C35_resetSinkOfGroup | propext, Classical.choice, Quot.sound |
| Soralog.System.C35_resetSinkOfGroup_root | propext, Classical.choice, Quot.sound |
| Soralog.System.C36_order_irrelevant | propext, Classical.choice, Quot.sound |
| Soralog.System.C36_histories | propext, Classical.choice, Quot.sound |
| Soralog.System.C37_setParentOfGroup | propext, Classical.choice, Quot.sound |
| Soralog.System.C37_unsetParentOfGroup | propext, Classical.choice, Quot.sound |
| Soralog.System.C37_all_registered | propext, Classical.choice, Quot.sound |
| Soralog.System.C37_closed | propext, Classical.choice, Quot.sound |
| Soralog.System.C38_cycle_iff_partial | propext, Classical.choice, Quot.sound |
| Soralog.System.C38_only_self_cycles_partial | propext, Classical.choice, Quot.sound |
| Soralog.System.C38_acyclic_partial | propext, Classical.choice, Quot.sound |
| Soralog.System.C38_refused | propext, Quot.sound |
| Soralog.System.C38_refuted | propext, Quot.sound |
| Soralog.System.C39_ends_iff_partial | propext, Classical.choice, Quot.sound |
| Soralog.System.C39_ends_always_partial | propext, Classical.choice, Quot.sound |
| Soralog.System.C39_terminates_partial | propext, Classical.choice, Quot.sound |
| Soralog.System.C39_histories_partial | propext, Classical.choice, Quot.sound |
| Soralog.System.C39_refuted | propext, Quot.sound |
| Soralog.System.C40_same_logger | propext, Classical.choice, Quot.sound |
| Soralog.System.C40_unique | propext, Classical.choice, Quot.sound |
| Soralog.System.C40_new_logger | propext, Classical.choice, Quot.sound |
| Soralog.System.C41_fallback | propext, Classical.choice, Quot.sound |
| Soralog.System.C41_unknown_sink | propext, Quot.sound |
| Soralog.System.C42_second_configure | propext, Quot.sound |
| Soralog.System.C42_getLogger_before | propext, Quot.sound |
| Soralog.System.C42_only_configure | propext, Classical.choice, Quot.sound |
| Soralog.System.C42_configured | propext, Classical.choice, Quot.sound |
| Soralog.System.C42_first_group_is_fallback | propext, Classical.choice, Quot.sound |
| Soralog.System.C42_setFallbackGroup | propext, Classical.choice, Quot.sound |
| Soralog.System.C43_refused_changes_nothing | propext, Classical.choice, Quot.sound |
| Soralog.System.C43_refused_exactly | propext, Classical.choice, Quot.sound |
| Soralog.System.C44_logger_level_sticky | propext, Classical.choice, Quot.sound |
| Soralog.System.C44_logger_sink_sticky | propext, Classical.choice, Quot.sound |
| Soralog.System.C44_group_level_sticky | propext, Classical.choice, Quot.sound |
| Soralog.System.C44_group_sink_sticky | propext, Classical.choice, Quot.sound |
| Soralog.System.C44_logger_set_reset | propext, Classical.choice, Quot.sound |
| Soralog.System.C44_methods | propext, Classical.choice, Quot.sound |
| Soralog.System.C45_makeGroup | propext, Classical.choice, Quot.sound |
| Soralog.System.C46_new_iff_partial | propext, Classical.choice, Quot.sound |
| Soralog.System.C46_sinks_partial | propext, Classical.choice, Quot.sound |
| Soralog.System.C46_refuted | propext, Quot.sound |
| Soralog.Yaml.C47_names | propext, Classical.choice, Quot.sound |
| Soralog.Yaml.C47_property | propext, Classical.choice, Quot.sound |
| Soralog.Yaml.C48_sane | propext, Classical.choice, Quot.sound |
| Soralog.Yaml.C48_values | propext, Classical.choice, Quot.sound |
| Soralog.Yaml.C48_numbers | propext, Quot.sound |
| Soralog.Yaml.C48_records_fit | propext, Classical.choice, Quot.sound |
| Soralog.System.C49_configure_flags | propext, Quot.sound |
| Soralog.Yaml.C49_partial | propext, Classical.choice, Quot.sound |
| Soralog.Yaml.C49_iff_partial | propext, Classical.choice, Quot.sound |
| Soralog.Yaml.C49_chain | propext, Classical.choice, Quot.sound |
| Soralog.Yaml.C49_configure | propext, Classical.choice, Quot.sound |
| Soralog.Yaml.C49_rejected | propext, Classical.choice, Quot.sound |
| Soralog.Yaml.C49_refuted | propext, Classical.choice, Quot.sound |
| Soralog.Yaml.C50_sinks | propext, Classical.choice, Quot.sound |
| Soralog.Yaml.C50_nesting_partial | propext, Classical.choice, Quot.sound |
| Soralog.Yaml.C50_nesting_refuted | propext, Classical.choice, Quot.sound |
| Soralog.Yaml.C51_reserved | propext, Classical.choice, Quot.sound |
| Soralog.Yaml.C51_reported | propext, Classical.choice, Quot.sound |
| Soralog.Yaml.C52_partial | propext, Classical.choice, Quot.sound |
| Soralog.Yaml.C52_refuted | propext, Classical.choice, Quot.sound |
| Soralog.Yaml.C53_left_out | propext, Classical.choice, Quot.sound |
| Soralog.Yaml.C53_same | propext, Classical.choice, Quot.sound |
| Soralog.Sink.C54_calls_partial | propext, Classical.choice, Quot.sound |
| Soralog.Sink.C54_first_text_partial | propext, Classical.choice, Quot.sound |
| Soralog.Sink.C54_single_partial | propext, Classical.choice, Quot.sound |
| Soralog.Sink.C54_iff_partial | propext, Classical.choice, Quot.sound |
| Soralog.Sink.C54_refuted | propext, Classical.choice, Quot.sound |
| Soralog.Sink.C54_zero_latency_partial | propext, Classical.choice, Quot.sound |
| Soralog.Sink.C54_loggers_partial | propext, Classical.choice, Quot.sound |
| Soralog.SinkConc.C54_concurrent_first_text_partial | propext, Classical.choice, Quot.sound |
| Soralog.Sink.C55_iff_partial | propext, Classical.choice, Quot.sound |
| Soralog.Sink.C55_roomy_partial | propext, Classical.choice, Quot.sound |
| Soralog.Sink.C55_refuted | propext, Classical.choice, Quot.sound |
| Soralog.Sink.C55_every_buffer_refuted | propext, Classical.choice, Quot.sound |
| Soralog.SyslogOpen.C56_one_partial | propext |
| Soralog.SyslogOpen.C56_refused_partial | propext |
| Soralog.SyslogOpen.C56_never_again_refuted | propext, Quot.sound |
| Soralog.SyslogOpen.C56_refuted | propext |
| Soralog.Whole.C56_program_partial | propext, Classical.choice, Quot.sound |
| Soralog.Whole.C56_program_calls_partial | propext, Classical.choice, Quot.sound |
| Soralog.Thread.C57_numbers | propext, Classical.choice, Quot.sound |
| Soralog.Thread.C58_first_name | propext, Classical.choice, Quot.sound |
| Soralog.Thread.C58_set_cut | propext |
| Soralog.Sink.C59_levels_in_tables | propext, Classical.choice, Quot.sound |
| Soralog.System.C60_configure | propext, Classical.choice, Quot.sound |
| Soralog.System.C60_loggers | propext, Classical.choice, Quot.sound |
| Soralog.Sink.C61_null_sink_stores_nothing | propext, Classical.choice, Quot.sound |
| Soralog.SinkConc.C62_call_can_complete | propext, Classical.choice, Quot.sound |
| Soralog.SinkConc.C62_destructor_can_complete | propext, Classical.choice, Quot.sound |
| Soralog.SinkFull.C62_call_can_complete_real_queue | propext, Classical.choice, Quot.sound |
| Soralog.SinkFull.C62_destructor_can_complete_real_queue | propext, Classical.choice, Quot.sound |
| Soralog.SinkFull.C62_lock_can_be_freed_real_queue | propext, Classical.choice, Quot.sound |
| Soralog.System.C63_reaches_partial | propext, Classical.choice, Quot.sound |
| Soralog.System.C63_refuted | propext, Quot.sound |
| Soralog.System.C63_iff_partial | propext, Classical.choice, Quot.sound |
| Soralog.System.C64_values_partial | propext, Classical.choice, Quot.sound |
| Soralog.System.C64_refuted | propext, Quot.sound |
| Soralog.System.C64_group_partial | propext, Classical.choice, Quot.sound |
| Soralog.System.C64_survives_iff_partial | propext, Classical.choice, Quot.sound |
| Soralog.System.C65_marks_partial | propext, Classical.choice, Quot.sound |
| Soralog.System.C65_kept_partial | propext, Classical.choice, Quot.sound |
| Soralog.System.C65_refuted | propext, Quot.sound |
| Soralog.System.C65_mark_iff_partial | propext, Classical.choice, Quot.sound |
| Soralog.System.C66_level_iff_partial | propext, Classical.choice, Quot.sound |
| Soralog.System.C66_sink_iff_partial | propext, Classical.choice, Quot.sound |
| Soralog.System.C66_direct_partial | propext, Classical.choice, Quot.sound |
| Soralog.System.C66_refuted | propext, Quot.sound |
| Soralog.Yaml.C67_refuted | propext, Classical.choice, Quot.sound |
| Soralog.Yaml.C67_no_exception | propext, Classical.choice, Quot.sound |
| Soralog.Yaml.C67_partial | propext, Classical.choice, Quot.sound |
| Soralog.Yaml.C67_reported | propext, Classical.choice, Quot.sound |
| Soralog.Yaml.C68_sinks | propext, Classical.choice, Quot.sound |
| Soralog.Yaml.C68_unique | propext, Classical.choice, Quot.sound |
| Soralog.Yaml.C69_calls | propext, Classical.choice, Quot.sound |
| Soralog.Yaml.C69_not_map | propext, Classical.choice, Quot.sound |
| Soralog.SinkConc.C70_syslog_calls | propext, Quot.sound |
| Soralog.SinkConc.C70_syslog_texts | propext, Quot.sound |
| Soralog.SinkConc.C70_flush_drains | propext, Classical.choice, Quot.sound |
| Soralog.SinkConc.C71_flush_takes_at_most_one_partial | propext, Classical.choice, Quot.sound |
| Soralog.SinkConc.C71_refuted | propext, Quot.sound |
| Soralog.SinkFull.C72_same_observations | propext, Classical.choice, Quot.sound |
| Soralog.SinkFull.C72_no_undefined_behaviour | propext, Classical.choice, Quot.sound |
| Soralog.SinkFull.C72_exactly_once_in_order | propext, Classical.choice, Quot.sound |
| Soralog.SinkFull.C72_crash_prefix | propext, Classical.choice, Quot.sound |
| Soralog.SinkFull.C72_destructor_writes_all | propext, Classical.choice, Quot.sound |
| Soralog.SinkFull.C72_one_writer | propext, Classical.choice, Quot.sound |
| Soralog.SinkFull.C72_account_exact | propext, Classical.choice, Quot.sound |
| Soralog.SinkFull.C72_syslog_texts | propext, Classical.choice, Quot.sound |
| Soralog.SinkFull.C72_push_accepts_once | propext, Classical.choice, Quot.sound |
| Soralog.SinkFull.C72_own_order | propext, Quot.sound |
| Soralog.SinkFull.C72_accepted_only_grows | propext, Classical.choice, Quot.sound |
| Soralog.SinkFull.C72_every_observation_occurs | propext, Classical.choice, Quot.sound |
| Soralog.Whole.C73_nothing_undefined_partial | propext, Classical.choice, Quot.sound |
| Soralog.Whole.C73_document_sinks_roomy | propext, Classical.choice, Quot.sound |
| Soralog.Whole.C73_refuted | propext, Classical.choice, Quot.sound |
| Soralog.Whole.C74_accepted | propext, Classical.choice, Quot.sound |
| Soralog.Whole.C74_written | propext, Classical.choice, Quot.sound |
| Soralog.Whole.C74_structure | propext, Classical.choice, Quot.sound |
| Soralog.Whole.C74_lines | propext, Classical.choice, Quot.sound |
| Soralog.Timed.C75_waits_partial | propext, Quot.sound |
| Soralog.Timed.C75_refuted | none |
| Soralog.Timed.C75_unbounded_refuted | propext, Quot.sound |
| Soralog.Timed.C75_idle_partial | propext, Quot.sound |
| Soralog.Timed.C75_time_passes | propext, Quot.sound |
| Soralog.Timed.C75_syslog_at_once_partial | propext, Classical.choice, Quot.sound |
| Soralog.Timed.C75_busy_refuted | propext, Classical.choice, Quot.sound |
| Soralog.System.Conc.C76_serial_partial | propext, Classical.choice, Quot.sound |
| Soralog.System.Conc.C76_up_to_date_partial | propext, Classical.choice, Quot.sound |
| Soralog.System.Conc.C76_calm_without_makeGroup | propext |
| Soralog.System.Conc.C76_refuted | propext, Classical.choice, Quot.sound |
| Soralog.System.Conc.C77_at_most_once_partial | propext, Quot.sound |
| Soralog.System.Conc.C77_unchanged_partial | propext, Quot.sound |
| Soralog.System.Conc.C77_refuted | propext, Quot.sound |
| Soralog.System.Conc.C78_structure | propext, Classical.choice, Quot.sound |
| Soralog.System.Conc.C78_calls_end | propext, Classical.choice, Quot.sound |
| Soralog.System.Conc.C78_steps_bounded | propext, Quot.sound |
| Soralog.Race.C79_queue | propext, Classical.choice, Quot.sound |
| Soralog.Race.C79_sink | propext, Classical.choice, Quot.sound |
| Soralog.Race.C79_runs | propext |
| Soralog.Race.C79_queue_complete | propext, Quot.sound |
| Soralog.Race.C79_sink_complete | propext, Quot.sound |
| Soralog.Race.C79_reads_complete | propext, Quot.sound |
| Soralog.Race.C80_locked_partial | propext, Classical.choice, Quot.sound |
| Soralog.Race.C80_unlocked_partial | propext, Classical.choice, Quot.sound |
| Soralog.Race.C80_settled_partial | propext, Classical.choice, Quot.sound |
| Soralog.Race.C80_runs | propext, Quot.sound |
| Soralog.Race.C80_reads_complete | propext, Quot.sound |
| Soralog.Race.C80_refuted | propext, Quot.sound |
| Soralog.Ring.C81_put_returns_partial | propext, Classical.choice, Quot.sound |
| Soralog.Ring.C81_get_returns_partial | propext, Classical.choice, Quot.sound |
| Soralog.Ring.C81_get_refuted | propext, Classical.choice, Quot.sound |
| Soralog.SinkFull.C81_push_returns_partial | propext, Classical.choice, Quot.sound |
| Soralog.SinkFull.C81_nothing_leaves_refuted | propext, Classical.choice, Quot.sound |
| Soralog.SinkFull.C81_flush_refuted | propext, Classical.choice, Quot.sound |
| Soralog.SinkFull.C81_push_refuted | propext, Classical.choice, Quot.sound |
| Soralog.SinkFull.C81_nested_refuted | propext, Classical.choice, Quot.sound |
| Soralog.SinkFull.C82_returned_first_written_first | propext, Classical.choice, Quot.sound |
| Soralog.SinkClock.C83_time_of_the_call | propext, Classical.choice, Quot.sound |
| Soralog.SinkClock.C84_thread_times_partial | propext, Classical.choice, Quot.sound |
| Soralog.SinkClock.C84_separate_calls_partial | propext, Classical.choice, Quot.sound |
| Soralog.SinkClock.C84_refuted | propext, Quot.sound |
| Soralog.Lifetime.C85_destroyed_exactly | propext, Classical.choice, Quot.sound |
| Soralog.Lifetime.C85_everything_goes_partial | propext, Classical.choice, Quot.sound |
| Soralog.Lifetime.C85_logger_keeps | propext, Classical.choice, Quot.sound |
| Soralog.Lifetime.C85_system_keeps | propext, Classical.choice, Quot.sound |
| Soralog.Lifetime.C85_refuted | propext, Classical.choice, Quot.sound |
| Soralog.System.C86_only_this_group | propext, Classical.choice, Quot.sound |
| Soralog.System.C86_group_by_name | propext, Quot.sound |
| Soralog.System.C86_logger_by_name | propext, Quot.sound |
| Soralog.System.C86_sound | propext, Classical.choice, Quot.sound |
| Soralog.System.C87_setters_partial | propext, Quot.sound |
| Soralog.System.C87_setParentGroup_partial | propext, Quot.sound |
| Soralog.System.C87_unsetParentGroup_partial | propext, Quot.sound |
| Soralog.System.C87_refuted | propext, Quot.sound |
| Soralog.System.C87_root_partial | propext, Quot.sound |
| Soralog.System.C88_calls_end_partial | propext, Classical.choice, Quot.sound |
| Soralog.System.C88_refuted | propext, Classical.choice, Quot.sound |
| Soralog.Many.C89_parts | propext, Classical.choice, Quot.sound |
| Soralog.Many.C89_delivered_once_in_order | propext, Classical.choice, Quot.sound |
| Soralog.Many.C89_never_too_much | propext, Classical.choice, Quot.sound |
| Soralog.Many.C89_file_contents | propext, Classical.choice, Quot.sound |
| Soralog.Many.C89_syslog_calls | propext, Classical.choice, Quot.sound |
| Soralog.Many.C89_file_complete | propext, Classical.choice, Quot.sound |
| Soralog.Many.C89_history | propext, Classical.choice, Quot.sound |
| Soralog.Many.C89_log_call | propext, Classical.choice, Quot.sound |
| Soralog.Ring.C90_no_damage_partial | propext, Classical.choice, Quot.sound |
| Soralog.Ring.C90_refuted | propext, Classical.choice, Quot.sound |
| Soralog.Overload.C91_value_partial | propext, Classical.choice, Quot.sound |
| Soralog.Overload.C91_format_iff_partial | propext, Classical.choice, Quot.sound |
| Soralog.Overload.C91_no_braces_partial | propext, Classical.choice, Quot.sound |
| Soralog.Overload.C91_escaped | propext, Classical.choice, Quot.sound |
| Soralog.Overload.C91_refuted | propext, Classical.choice, Quot.sound |
| Soralog.Ring.C92_queue_progress | propext, Classical.choice, Quot.sound |
| Soralog.Ring.C92_queue_all_return | propext, Classical.choice, Quot.sound |
| Soralog.Ring.C92_queue_refuted | propext, Classical.choice, Quot.sound |
| Soralog.SinkFull.C92_some_call_returns_partial | propext, Classical.choice, Quot.sound |
| Soralog.SinkFull.C92_all_calls_return_partial | propext, Classical.choice, Quot.sound |
| Soralog.SinkFull.C92_destructor_ends | propext, Classical.choice, Quot.sound |
| Soralog.SinkFull.C92_refuted | propext, Classical.choice, Quot.sound |
| Soralog.InUse.C93_registered_partial | propext, Classical.choice, Quot.sound |
| Soralog.InUse.C93_partial | propext, Classical.choice, Quot.sound |
| Soralog.InUse.C93_lost_only_if | propext, Classical.choice, Quot.sound |
| Soralog.InUse.C93_refuted | propext, Quot.sound |
| Soralog.Construct.C94_partial | propext, Quot.sound |
| Soralog.Construct.C94_file_iff | propext, Quot.sound |
| Soralog.Construct.C94_refuted | propext, Classical.choice, Quot.sound |
| Soralog.Construct.C94_document | propext, Quot.sound |
| Soralog.SinkFull.C95_worker_partial | propext, Classical.choice, Quot.sound |
| Soralog.SinkFull.C95_used_partial | propext, Classical.choice, Quot.sound |
| Soralog.SinkFull.C95_refuted | propext, Classical.choice, Quot.sound |
| Soralog.SinkFull.C95_device_refuted | propext, Classical.choice, Quot.sound |
| Soralog.Wake.C96_deadlines_partial | propext, Classical.choice, Quot.sound |
| Soralog.Wake.C96_waiting_partial | propext, Classical.choice, Quot.sound |
| Soralog.Wake.C96_refuted | propext, Quot.sound |
| Soralog.Wake.C96_waiting_refuted | propext, Quot.sound |
| Soralog.Wake.C96_old_values_refuted | propext, Quot.sound |
| Soralog.TimedEnd.C97_within_partial | propext, Quot.sound |
| Soralog.TimedEnd.C97_one_event_partial | propext, Quot.sound |
| Soralog.TimedEnd.C97_syslog_partial | propext, Classical.choice, Quot.sound |
| Soralog.TimedEnd.C97_each_event_costs_a_latency | propext, Quot.sound |
| Soralog.TimedEnd.C97_refuted | propext, Quot.sound |
| Soralog.Many.C98_document | propext, Classical.choice, Quot.sound |
| Soralog.Many.Lock.C98_all_calls_can_end | propext, Classical.choice, Quot.sound |
| Soralog.Many.Lock.C98_log_calls_need_no_mutex | propext, Classical.choice, Quot.sound |
| Soralog.Many.Lock.C98_is_an_execution | propext, Classical.choice, Quot.sound |
| Soralog.Many.Lock.C98_mutex_excludes | propext, Classical.choice, Quot.sound |
| Soralog.Many.C99_document | propext, Classical.choice, Quot.sound |
| Soralog.Many.C99_no_null_pointer | propext, Classical.choice, Quot.sound |
| Soralog.Many.C99_queues | propext, Classical.choice, Quot.sound |
| Soralog.Many.C99_records_fit | propext, Classical.choice, Quot.sound |
| Soralog.Render.C100_record_restores | propext, Classical.choice, Quot.sound |
| Soralog.Render.C100_shown | propext, Classical.choice, Quot.sound |
| Soralog.Sink.C100_console_sink | propext, Classical.choice, Quot.sound |
| Soralog.SinkFull.C100_any_threads | propext, Classical.choice, Quot.sound |
| Soralog.Many.C100_program | propext, Classical.choice, Quot.sound |
| Soralog.Render.C101_read_back_partial | propext, Classical.choice, Quot.sound |
| Soralog.Render.C101_line_count | propext, Classical.choice, Quot.sound |
| Soralog.Render.C101_forgery_refuted | propext, Classical.choice, Quot.sound |
| Soralog.Sink.C101_file_sink_partial | propext, Classical.choice, Quot.sound |
| Soralog.SinkFull.C101_any_threads_partial | propext, Classical.choice, Quot.sound |
| Soralog.Many.C101_program_partial | propext, Classical.choice, Quot.sound |
| Soralog.Many.Lock.C102_comes_to_rest | propext, Classical.choice, Quot.sound |
| Soralog.Many.Lock.C102_log_complete | propext, Classical.choice, Quot.sound |
| Soralog.Many.Lock.C102_destroyed_complete | propext, Classical.choice, Quot.sound |
| Soralog.Many.Lock.C102_can_go_on | propext, Classical.choice, Quot.sound |
| Soralog.Many.C103_order | propext, Classical.choice, Quot.sound |
| Soralog.Many.C103_crash | propext, Classical.choice, Quot.sound |
| Soralog.SinkFull.C104_requested_partial | propext, Classical.choice, Quot.sound |
| Soralog.SinkFull.C104_request_pending | propext |
| Soralog.SinkFull.C104_empty_refuted | propext, Classical.choice, Quot.sound |
| Soralog.SinkFull.C104_zero_latency_refuted | propext, Classical.choice, Quot.sound |
| Soralog.SinkFull.C104_refuted | propext, Classical.choice, Quot.sound |
| Soralog.Many.Lock.C104_program_partial | propext, Classical.choice, Quot.sound |
| Soralog.Many.C105_multisink_partial | propext, Classical.choice, Quot.sound |
| Soralog.Many.C105_direct_refuted | propext, Classical.choice, Quot.sound |
| Soralog.Many.C105_twice_refuted | propext, Classical.choice, Quot.sound |
| Soralog.FailingStream.C106_unnoticed | propext |
| Soralog.FailingStream.C106_kept_partial | propext, Classical.choice, Quot.sound |
| Soralog.FailingStream.C106_silent_until_reopened | propext, Classical.choice, Quot.sound |
| Soralog.FailingStream.C106_console_silent_for_ever | propext, Classical.choice, Quot.sound |
| Soralog.FailingStream.C106_reopening_helps | propext |
| Soralog.FailingStream.C106_complete_while_fine | propext, Quot.sound |
| Soralog.FailingStream.C106_nothing_left | propext, Classical.choice, Quot.sound |
| Soralog.FailingStream.C106_refuted | propext, Classical.choice, Quot.sound |
| Soralog.Many.C107_coloured_lines | propext, Classical.choice, Quot.sound |
| Soralog.Many.C107_coloured_in_the_end | propext, Classical.choice, Quot.sound |
| Soralog.Many.C107_configured | propext, Classical.choice, Quot.sound |
| Soralog.Many.C107_delivered | propext, Classical.choice, Quot.sound |
| Soralog.Many.C107_lines | propext, Classical.choice, Quot.sound |
| Soralog.Many.C107_file_complete | propext, Classical.choice, Quot.sound |
| Soralog.Many.Lock.C107_in_the_end | propext, Classical.choice, Quot.sound |
| Soralog.RingInit.C108_ready_partial | propext, Quot.sound |
| Soralog.RingInit.C108_ready_iff | propext, Quot.sound |
| Soralog.RingInit.C108_refuted | propext, Classical.choice, Quot.sound |
| Soralog.RingInit.C108_apart | propext, Classical.choice, Quot.sound |
| Soralog.RingInit.C108_initial | propext, Quot.sound |
| Soralog.Yaml.C108_document | propext, Classical.choice, Quot.sound |
| Soralog.SinkFull.C109_request_pending | propext |
| Soralog.SinkFull.C109_worker_rotates_partial | propext, Classical.choice, Quot.sound |
| Soralog.SinkFull.C109_flush_rotates_partial | propext, Classical.choice, Quot.sound |
| Soralog.SinkFull.C109_zero_latency_refuted | propext, Classical.choice, Quot.sound |
| Soralog.SinkFull.C109_unopened_refuted | propext, Classical.choice, Quot.sound |
| Soralog.Many.Lock.C109_every_file_partial | propext, Classical.choice, Quot.sound |
| Soralog.Many.Lock.C109_busy_program_partial | propext, Classical.choice, Quot.sound |
| Soralog.Many.C110_lone_call | propext, Classical.choice, Quot.sound |
| Soralog.Many.C110_worker_pass | propext, Classical.choice, Quot.sound |
| Soralog.Many.C110_one_by_one | propext, Classical.choice, Quot.sound |
| Soralog.Many.C110_from_the_start | propext, Classical.choice, Quot.sound |
| Soralog.Many.C110_document | propext, Classical.choice, Quot.sound |
| Soralog.Many.C111_one_call | propext, Classical.choice, Quot.sound |
| Soralog.Many.C111_one_by_one | propext, Classical.choice, Quot.sound |
| Soralog.Many.C111_document | propext, Classical.choice, Quot.sound |
| Soralog.Many.Lock.C112_written_in_the_end | propext, Classical.choice, Quot.sound |
| Soralog.Many.Lock.C112_configured | propext, Classical.choice, Quot.sound |
| Soralog.Many.Lock.C112_document | propext, Classical.choice, Quot.sound |
