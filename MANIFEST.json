{
 "claims": [
  {
   "property": "C01",
   "status": "proved",
   "theorems": [
    "Verif.Buffer.C01_fifo",
    "Verif.Buffer.C01_refines_spec",
    "Verif.Buffer.C01_accounting"
   ],
   "note": "All interleavings of API calls, any number of producers; bytes agree with what the producer stored. A record whose reader is dropped without finishing is read again by the next consumer (not counted as delivered twice: delivery = finish_read)."
  },
  {
   "property": "C02",
   "status": "proved",
   "theorems": [
    "Verif.Buffer.C02_exclusive"
   ],
   "note": ""
  },
  {
   "property": "C03",
   "status": "proved",
   "theorems": [
    "Verif.Buffer.C03_reserve"
   ],
   "note": "Exact decision table including the condition for ResourceExhausted."
  },
  {
   "property": "C04",
   "status": "proved",
   "theorems": [
    "Verif.Buffer.C04_overwrite_oldest"
   ],
   "note": "Volatile ring buffer (always overwriting)."
  },
  {
   "property": "C19",
   "status": "proved",
   "theorems": [
    "Verif.Session.C19_changes_exactly",
    "Verif.Session.C19_start_new_is_new",
    "Verif.Session.C19_disk_is_last_returned",
    "Verif.Session.C19_restart"
   ],
   "note": "Any history of calls, restarts, failing writes and lost storage; the disk and restart parts assume storage works. The recorded activity lags the true one by at most 15 s, which the restart theorem states."
  },
  {
   "property": "C20",
   "status": "proved",
   "theorems": [
    "Verif.Session.C20_stable",
    "Verif.Session.C20_previous_constant",
    "Verif.Session.C20_previous_is_last",
    "Verif.Session.C20_previous_stored"
   ],
   "note": "Calls made from inside the application's own id callback are modelled too."
  },
  {
   "property": "C21",
   "status": "proved",
   "theorems": [
    "Verif.Startup.C21_at_most_six",
    "Verif.Startup.C21_start",
    "Verif.Startup.C21_not_removed",
    "Verif.Startup.C21_unwritten",
    "Verif.Startup.C21_torn",
    "Verif.Startup.C21_write_back",
    "Verif.Startup.C21_dies",
    "Verif.Startup.C21_uncounted",
    "Verif.Startup.C21_reset"
   ],
   "note": "With arbitrary write failures, torn writes and process deaths."
  },
  {
   "property": "C22",
   "status": "proved",
   "theorems": [
    "Verif.Startup.C22_tried_once",
    "Verif.Startup.C22_version",
    "Verif.Startup.C22_not_removed",
    "Verif.Startup.C22_unwritten",
    "Verif.Startup.C22_torn",
    "Verif.Startup.C22_dies"
   ],
   "note": ""
  },
  {
   "property": "C23",
   "status": "proved",
   "theorems": [
    "Verif.Startup.C23_rejected_process_silent",
    "Verif.Startup.C23_rejected_later_silent",
    "Verif.Startup.C23_kill_switch",
    "Verif.Startup.C23_connects_again",
    "Verif.Startup.C23_unwritten",
    "Verif.Startup.C23_torn",
    "Verif.Startup.C23_unread",
    "Verif.Startup.C23_not_removed",
    "Verif.Startup.C23_other_key_lifts_kill"
   ],
   "note": "C23_other_key_lifts_kill is a witness that the same-key condition is needed."
  },
  {
   "property": "C24",
   "status": "proved",
   "theorems": [
    "Verif.Startup.C24_read",
    "Verif.Startup.C24_notify",
    "Verif.Startup.C24_read_value",
    "Verif.Startup.C24_type"
   ],
   "note": ""
  },
  {
   "property": "C14",
   "status": "partial",
   "theorems": [
    "Verif.Upload.C14_attempts_bounded",
    "Verif.Upload.C14_retry_only_after_failure",
    "Verif.Upload.C14_dropped_partial",
    "Verif.Upload.C14_dropped_violated"
   ],
   "note": "A success on the last allowed attempt is counted as dropped by the code (witness C14_dropped_violated); the rest is proved in full."
  },
  {
   "property": "C15",
   "status": "proved",
   "theorems": [
    "Verif.Upload.C15_window",
    "Verif.Upload.C15_refills_apart",
    "Verif.Upload.C15_no_starvation",
    "Verif.Upload.C15_refused_only_when_used"
   ],
   "note": ""
  },
  {
   "property": "C44",
   "status": "proved",
   "theorems": [
    "Verif.App.C44_report",
    "Verif.App.C44_once"
   ],
   "note": ""
  },
  {
   "property": "C45",
   "status": "partial",
   "theorems": [
    "Verif.App.C45_one_at_a_time_partial",
    "Verif.App.C45_passed_on",
    "Verif.App.C45_accounting",
    "Verif.App.C45_unsolicited_violated"
   ],
   "note": "The code trusts that every screenshot log answers a request; an unsolicited one breaks the claim (witness)."
  },
  {
   "property": "C47",
   "status": "partial",
   "theorems": [
    "Verif.Time.C47_floor",
    "Verif.Time.C47_floor_total",
    "Verif.Time.C47_ceil_partial",
    "Verif.Time.C47_ceil_violated",
    "Verif.Time.C47_ceil_bound",
    "Verif.Time.C47_time_roundtrip",
    "Verif.Time.C47_time_from",
    "Verif.Time.C47_duration_roundtrip",
    "Verif.Time.C47_duration_std",
    "Verif.Time.C47_millis"
   ],
   "note": "Rounding up fails for a time less than a second after a multiple (witness C47_ceil_violated)."
  },
  {
   "property": "C48",
   "status": "proved",
   "theorems": [
    "Verif.Flags.C48_fraction",
    "Verif.Flags.C48_edges",
    "Verif.Flags.C48_getters"
   ],
   "note": ""
  },
  {
   "property": "C10",
   "status": "proved",
   "theorems": [
    "Verif.Queue.C10_budget",
    "Verif.Queue.C10_fifo",
    "Verif.Queue.C10_accounting",
    "Verif.Queue.C10_alone_exact"
   ],
   "note": "Any number of senders, interleaved at every atomic operation."
  },
  {
   "property": "C11",
   "status": "proved",
   "theorems": [
    "Verif.Queue.C11_replay",
    "Verif.Queue.C11_limits",
    "Verif.Queue.C11_kept_sublist"
   ],
   "note": ""
  },
  {
   "property": "C29",
   "status": "partial",
   "theorems": [
    "Verif.Match.C29_meaning",
    "Verif.Match.C29_rejected",
    "Verif.Match.C29_missing_input",
    "Verif.Match.C29_buffer_meaning",
    "Verif.Match.C29_buffer_rejected",
    "Verif.Match.C29_operator_violated"
   ],
   "note": "Both matchers. Deviations of the code (witness C29_operator_violated): log type leaves ignore the operator, integer leaves accept the unspecified operator."
  },
  {
   "property": "C30",
   "status": "partial",
   "theorems": [
    "Verif.Match.C30_swap",
    "Verif.Match.C30_equal_iff",
    "Verif.Match.C30_operators",
    "Verif.Match.C30_suffix_ignored",
    "Verif.Match.C30_trailing_zero",
    "Verif.Match.C30_trans_partial",
    "Verif.Match.C30_numeric",
    "Verif.Match.C30_trans_violated"
   ],
   "note": "Transitivity fails for segments mixing numbers and strings (witness)."
  },
  {
   "property": "C31",
   "status": "proved",
   "theorems": [
    "Verif.Match.C31_selection",
    "Verif.Match.C31_order_irrelevant"
   ],
   "note": ""
  },
  {
   "property": "C32",
   "status": "proved",
   "theorems": [
    "Verif.Match.C32_process",
    "Verif.Match.C32_broken_counted",
    "Verif.Match.C32_frame",
    "Verif.Match.C32_set",
    "Verif.Match.C32_set_noop",
    "Verif.Match.C32_remove",
    "Verif.Match.C32_capture",
    "Verif.Match.C32_regex"
   ],
   "note": ""
  },
  {
   "property": "C51",
   "status": "partial",
   "theorems": [
    "Verif.Match.C51_no_override_partial",
    "Verif.Match.C51_no_override_violated"
   ],
   "note": "A binary field is overwritten (witness)."
  },
  {
   "property": "C12",
   "status": "proved",
   "theorems": [
    "Verif.Upload.C12_batches",
    "Verif.Upload.C12_partition",
    "Verif.Upload.C12_lookback",
    "Verif.Upload.C12_limits",
    "Verif.Upload.C12_error",
    "Verif.Upload.C12_continuous",
    "Verif.Upload.C12_deadline"
   ],
   "note": "Triggered uploads with limits that may change at every log; the continuous uploader for arbitrary runs."
  },
  {
   "property": "C13",
   "status": "partial",
   "theorems": [
    "Verif.Upload.C13_acknowledged_partial",
    "Verif.Upload.C13_returned_partial",
    "Verif.Upload.C13_ack_order",
    "Verif.Upload.C13_restart",
    "Verif.Upload.C13_canceled_violated",
    "Verif.Upload.C13_abort_violated"
   ],
   "note": "The code violates the statement at shutdown: an upload cancelled by the shutdown is acknowledged (C13_canceled_violated), and an uploader that goes on after abandoning an upload acknowledges the abandoned logs (C13_abort_violated). Proved without these two races."
  },
  {
   "property": "C16",
   "status": "proved",
   "theorems": [
    "Verif.Upload.C16_exclusive",
    "Verif.Upload.C16_starts",
    "Verif.Upload.C16_only_requests",
    "Verif.Upload.C16_response",
    "Verif.Upload.C16_answered",
    "Verif.Upload.C16_again",
    "Verif.Upload.C16_window"
   ],
   "note": "C16_window shows the interval in which a finished upload still blocks a new request."
  },
  {
   "property": "C17",
   "status": "proved",
   "theorems": [
    "Verif.Api.C17_once",
    "Verif.Api.C17_answers",
    "Verif.Api.C17_upload_ack",
    "Verif.Api.C17_intent_ack",
    "Verif.Api.C17_unknown",
    "Verif.Api.C17_stream_end",
    "Verif.Api.C17_fail_drops"
   ],
   "note": "An unknown identifier ends not only the stream but the whole API task (the error is propagated out of maintain_active_stream)."
  },
  {
   "property": "C18",
   "status": "proved",
   "theorems": [
    "Verif.Grpc.C18_split",
    "Verif.Grpc.C18_chunks",
    "Verif.Grpc.C18_roundtrip",
    "Verif.Grpc.C18_partial_message",
    "Verif.Grpc.C18_compressed"
   ],
   "note": "Relative to a codec whose parser undoes its serialiser and whose decompressor undoes its compressor. C18_split and C18_chunks hold for arbitrary bytes."
  },
  {
   "property": "C52",
   "status": "proved",
   "theorems": [
    "Verif.Api.C52_handshake_first",
    "Verif.Api.C52_requests_after_handshake",
    "Verif.Api.C52_pings",
    "Verif.Api.C52_killed",
    "Verif.Api.C52_unauthenticated",
    "Verif.Api.C52_protocol_errors"
   ],
   "note": ""
  },
  {
   "property": "C46",
   "status": "proved",
   "theorems": [
    "Verif.Net.C46_summary",
    "Verif.Net.C46_when",
    "Verif.Net.C46_attached",
    "Verif.Net.C46_field",
    "Verif.Net.C46_response"
   ],
   "note": "C46_gap: traffic recorded while reports are more than a minute apart appears in no summary (it is older than the last minute's earliest report, so the property does not ask for it)."
  },
  {
   "property": "C41",
   "status": "partial",
   "theorems": [
    "Verif.Meta.C41_unique",
    "Verif.Meta.C41_precedence",
    "Verif.Meta.C41_globals",
    "Verif.Meta.C41_protected",
    "Verif.Meta.C41_written_partial",
    "Verif.Meta.C41_logged_at_violated"
   ],
   "note": "Proved for the normalised metadata. Missing: uniqueness for a log with a previous-session override whose platform fields include _logged_at; C41_logged_at_violated shows the code then writes the key twice."
  },
  {
   "property": "C53",
   "status": "proved",
   "theorems": [
    "Verif.Meta.C53_override",
    "Verif.Meta.C53_plain"
   ],
   "note": ""
  },
  {
   "property": "C50",
   "status": "partial",
   "theorems": [
    "Verif.Mgr.C50_set",
    "Verif.Mgr.C50_kept",
    "Verif.Mgr.C50_events",
    "Verif.Mgr.C50_stream",
    "Verif.Mgr.C50_failed",
    "Verif.Mgr.C50_succeeds",
    "Verif.Mgr.C50_history",
    "Verif.Mgr.C50_file_deleted",
    "Verif.Mgr.C50_readd_violated",
    "Verif.Mgr.C50_duplicate_violated",
    "Verif.Mgr.C50_type_violated"
   ],
   "note": "Proved for configurations with distinct buffer ids. Missing, because false: duplicate ids (C50_duplicate_violated), a buffer configured again before the last reference to the removed one is dropped loses its file (C50_readd_violated)."
  },
  {
   "property": "C54",
   "status": "partial",
   "theorems": [
    "Verif.Mgr.C54_flush",
    "Verif.Mgr.C54_unknown_violated"
   ],
   "note": "Missing, because false: a request naming an unknown buffer is not acknowledged and ends the flush task."
  },
  {
   "property": "C42",
   "status": "partial",
   "theorems": [
    "Verif.Pipe.C42_written_partial",
    "Verif.Pipe.C42_only",
    "Verif.Pipe.C42_flush_partial",
    "Verif.Pipe.C42_error",
    "Verif.Pipe.C42_error_violated",
    "Verif.Pipe.C42_flush_violated"
   ],
   "note": "Missing, because false: an error other than locked/full stops the remaining writes; a log in a trigger buffer that is not flushed gets no synthetic copy."
  },
  {
   "property": "C43",
   "status": "partial",
   "theorems": [
    "Verif.Pipe.C43_flushed_partial",
    "Verif.Pipe.C43_persist",
    "Verif.Pipe.C43_redirect_violated",
    "Verif.Pipe.C43_unknown_violated"
   ],
   "note": "Missing, because false: the buffers flushed are those of the selector, not those the engine redirected the log to; a buffer that no longer exists ends the flush task."
  },
  {
   "property": "C55",
   "status": "proved",
   "theorems": [
    "Verif.Pipe.C55_stream"
   ],
   "note": "Relative to the matcher verdicts of C29."
  },
  {
   "property": "C05",
   "status": "proved",
   "theorems": [
    "Verif.Buffer.C05_never_loses",
    "Verif.Buffer.C05_refines_spec"
   ],
   "note": "For calm histories (no consumer going away in the middle of a read, no alteration of the file, abandoned reservations only with record checksums). C05_refines_spec covers every history, up to an altered size field or a confused cursor, against a queue specification. C05_midread_violated and C05_uncommitted_violated show what the code does outside."
  },
  {
   "property": "C06",
   "status": "partial",
   "theorems": [
    "Verif.Buffer.C06_cursor_partial",
    "Verif.Buffer.C06_restart_partial",
    "Verif.Buffer.C06_hole_violated",
    "Verif.Buffer.C06_reregister_violated"
   ],
   "note": "Missing, because false: a reservation abandoned by a crash in front of a cursor consumer, a second registration in one process with unacknowledged records (witnesses)."
  },
  {
   "property": "C08",
   "status": "partial",
   "theorems": [
    "Verif.Buffer.C08_checked",
    "Verif.Buffer.C08_checked_cursor",
    "Verif.Buffer.C08_skips_partial",
    "Verif.Buffer.C08_skips_calm_partial",
    "Verif.Buffer.C08_counted",
    "Verif.Buffer.C08_one",
    "Verif.Buffer.C08_cursor_violated"
   ],
   "note": "The check is proved for both reader kinds after any history. That every other record is still delivered is proved for plain consumers; it is false for cursor consumers (witness)."
  },
  {
   "property": "C07",
   "status": "proved",
   "theorems": [
    "Verif.Buffer.C07_crash",
    "Verif.Buffer.C07_between_calls",
    "Verif.Buffer.C07_in_flight",
    "Verif.Buffer.C07_crash_cursor",
    "Verif.Buffer.stores_step",
    "Verif.Buffer.C07_exact_violated",
    "Verif.Buffer.C07_in_flight_violated"
   ],
   "note": "All histories of calls and earlier crashes with plain consumers; with cursor consumers for calm histories. Assumes that index fields are stored atomically and in program order and that the header checksum separates the index fields seen during one call (with CRC-32 that can fail, see C101_crash_violated; C101_crash_partial needs no such assumption). The two violated theorems show the exceptions named in the statement: an interrupted overwrite and, without record checksums, a reservation in flight."
  },
  {
   "property": "C09",
   "status": "proved",
   "theorems": [
    "Verif.Buffer.C09_order",
    "Verif.Buffer.C09_flush",
    "Verif.Buffer.C09_no_drops",
    "Verif.Buffer.C09_no_drops_cursor",
    "Verif.Buffer.C09_shutdown",
    "Verif.Buffer.C09_end_to_end",
    "Verif.Buffer.C09_flush_hangs"
   ],
   "note": "All interleavings of producers, flush thread, readers, flush and shutdown calls over the byte-level models of both rings. C09_flush_hangs shows that a flush need not return (the statement only speaks about flushes that return)."
  },
  {
   "property": "C56",
   "status": "partial",
   "theorems": [
    "Verif.Buffer.C56_alive",
    "Verif.Buffer.C56_alive_partial",
    "Verif.Buffer.C56_alive_violated"
   ],
   "note": "Missing, because false: with record checksums and a memory part as large as the disk part (witness). Proved without record checksums, and with them if the memory part is four bytes smaller."
  },
  {
   "property": "C57",
   "status": "proved",
   "theorems": [
    "Verif.Session.C57_previous_constant",
    "Verif.Session.C57_previous_is_last",
    "Verif.Session.C57_previous_handed_out"
   ],
   "note": "C57_previous_handed_out: whatever fails. The others: for histories in which the stored value is written and not lost."
  },
  {
   "property": "C25",
   "status": "partial",
   "theorems": [
    "Verif.Stats.C25_conserved",
    "Verif.Stats.C25_lost_partial",
    "Verif.Stats.C25_server_partial",
    "Verif.Stats.C25_race_violated",
    "Verif.Stats.C25_shared_name_violated",
    "Verif.Stats.C25_type_violated",
    "Verif.Stats.C25_empty_flush_discards"
   ],
   "note": "Conservation is proved for all histories with a list of losses. That the losses are only those the statement allows is proved under the conditions of `orderly`; outside it is false (witnesses)."
  },
  {
   "property": "C26",
   "status": "partial",
   "theorems": [
    "Verif.Stats.C26_same_content_partial",
    "Verif.Stats.C26_violated"
   ],
   "note": "Missing, because false: an index write that fails without effect while a file is closed (witness). Crashes, torn writes, damage and all other failures are covered."
  },
  {
   "property": "C27",
   "status": "proved",
   "theorems": [
    "Verif.Stats.C27_bounded",
    "Verif.Stats.C27_overflow",
    "Verif.Stats.C27_same_metric",
    "Verif.Stats.C27_recorded"
   ],
   "note": "For all histories, with flushes and other threads in between."
  },
  {
   "property": "C28",
   "status": "proved",
   "theorems": [
    "Verif.Stats.C28_every_observation",
    "Verif.Stats.C28_split",
    "Verif.Stats.C28_snapshot",
    "Verif.Stats.C28_inline_bound"
   ],
   "note": "A sketch is represented by the observations given to it."
  },
  {
   "property": "C58",
   "status": "proved",
   "theorems": [
    "Verif.Stats.C58_bounded",
    "Verif.Stats.C58_replaces"
   ],
   "note": ""
  },
  {
   "property": "C59",
   "status": "partial",
   "theorems": [
    "Verif.Stats.C59_no_panic_partial",
    "Verif.Stats.C59_zero_files_violated",
    "Verif.Stats.C59_one_file_violated",
    "Verif.Stats.C59_init_violated"
   ],
   "note": "Missing, because false: file limits of zero and one, and a directory that cannot be created (witnesses)."
  },
  {
   "property": "C60",
   "status": "proved",
   "theorems": [
    "Verif.Stats.C60_flush",
    "Verif.Stats.C60_upload",
    "Verif.Stats.C60_response"
   ],
   "note": ""
  },
  {
   "property": "C33",
   "status": "partial",
   "theorems": [
    "Verif.Wf.C33_partial",
    "Verif.Wf.C33_limit_constant",
    "Verif.Wf.C33_counter_violated",
    "Verif.Wf.C33_limit_violated"
   ],
   "note": "Proved for histories in which no run is stopped by its own limits in the middle of a log (hypothesis Calm). Missing, because false: when a run is stopped by its matched-logs limit after another traversal of it already forked or completed on the same log, the engine's counter goes wrong and the limit is exceeded later (two witnesses)."
  },
  {
   "property": "C34",
   "status": "proved",
   "theorems": [
    "Verif.Wf.C34_one_active",
    "Verif.Wf.C34_active_first",
    "Verif.Wf.C34_reset",
    "Verif.Wf.C34_idle",
    "Verif.Wf.C34_done_at_once",
    "Verif.Wf.C34_kind_violated"
   ],
   "note": "C34_kind_violated shows why the quantifier excludes an update that turns a parallel workflow into an exclusive one under the same identifier; C34_done_at_once shows a waiting run that completes at once leaving the progress alone."
  },
  {
   "property": "C35",
   "status": "proved",
   "theorems": [
    "Verif.Wf.C35_traversal",
    "Verif.Wf.C35_zero",
    "Verif.Wf.C35_actions",
    "Verif.Wf.C35_history",
    "Verif.Wf.C35_next",
    "Verif.Wf.C35_stopped",
    "Verif.Wf.C35_parallel"
   ],
   "note": ""
  },
  {
   "property": "C36",
   "status": "proved",
   "theorems": [
    "Verif.Wf.C36_progress",
    "Verif.Wf.C36_result",
    "Verif.Wf.C36_streaming",
    "Verif.Wf.C36_no_workflow",
    "Verif.Wf.C36_isolated"
   ],
   "note": ""
  },
  {
   "property": "C38",
   "status": "proved",
   "theorems": [
    "Verif.Wf.C38_destinations",
    "Verif.Wf.C38_not_lost",
    "Verif.Wf.C38_counts",
    "Verif.Wf.C38_ends",
    "Verif.Wf.C38_lifetime",
    "Verif.Wf.C38_flushing"
   ],
   "note": "C38_flushing is a witness that an action whose flush is not complete streams beyond its limit, as the statement allows."
  },
  {
   "property": "C39",
   "status": "partial",
   "theorems": [
    "Verif.Wf.C39_partial",
    "Verif.Wf.C39_system_partial",
    "Verif.Wf.C39_not_again",
    "Verif.Wf.C39_readded_violated",
    "Verif.Wf.C39_same_identifier"
   ],
   "note": "Proved per history in which an identifier names one action and no update removes buffers of a pending action. Missing, because false: after an update that drops and re-adds the buffers the action is sent again while the first negotiation is open (witness); two different actions under one identifier are negotiated separately (witness)."
  },
  {
   "property": "C61",
   "status": "proved",
   "theorems": [
    "Verif.Wf.C61_stopped",
    "Verif.Wf.C61_counted",
    "Verif.Wf.C61_limit"
   ],
   "note": ""
  },
  {
   "property": "C62",
   "status": "partial",
   "theorems": [
    "Verif.Wf.C62_accepted",
    "Verif.Wf.C62_ok",
    "Verif.Wf.C62_in_bounds_partial",
    "Verif.Wf.C62_changed_violated"
   ],
   "note": "Proved for histories in which the states belonging to an identifier do not change. Missing, because false: persisted progress restored under a changed configuration of the same identifier is out of bounds (witness)."
  },
  {
   "property": "C63",
   "status": "partial",
   "theorems": [
    "Verif.Wf.C63_partial",
    "Verif.Wf.C63_narrowed_violated"
   ],
   "note": "Missing, because false: an update that narrows the buffers of a pending action makes the answer miss it, so it stays pending for ever (witness)."
  },
  {
   "property": "C40",
   "status": "partial",
   "theorems": [
    "Verif.Wf.C40_path",
    "Verif.Wf.C40_bounded",
    "Verif.Wf.C40_uncounted",
    "Verif.Wf.C40_extract",
    "Verif.Wf.C40_emitted",
    "Verif.Wf.C40_accepted",
    "Verif.Wf.C40_memory",
    "Verif.Wf.C40_same_nodes",
    "Verif.Wf.C40_identifier_partial",
    "Verif.Wf.C40_identifier_violated",
    "Verif.Wf.C40_reported_once",
    "Verif.Wf.C40_cache_bounded",
    "Verif.Wf.C40_sent",
    "Verif.Wf.C40_collision_violated"
   ],
   "note": "Missing, because false: the identifier hashes the concatenated node values without separators, so different paths with the same characters share an identifier and the second is not uploaded while the first is remembered (witnesses). C40_identifier_partial covers paths whose nodes have the same lengths. Nodes that do not count are not bounded (C40_uncounted)."
  },
  {
   "property": "C64",
   "status": "proved",
   "theorems": [
    "Verif.Wf.C64_consent",
    "Verif.Wf.C64_refused",
    "Verif.Wf.C64_answered"
   ],
   "note": "Over the engine composed with the negotiator."
  },
  {
   "property": "C65",
   "status": "partial",
   "theorems": [
    "Verif.Wf.C65_partial",
    "Verif.Wf.C65_full_violated",
    "Verif.Wf.C65_narrowed_violated"
   ],
   "note": "Missing, because false: an action that does not fit into the channel stays pending without negotiation (witness), and an update that narrows its buffers (witness). Proved for histories without either."
  },
  {
   "property": "C37",
   "status": "partial",
   "theorems": [
    "Verif.Wf.C37_restore_partial",
    "Verif.Wf.C37_return_violated",
    "Verif.Wf.C37_limit_violated",
    "Verif.Wf.C37_flushing_violated"
   ],
   "note": "Proved for every history with workflows in which no transition leads back to the first state, everything that may follow, and both engines never hitting the traversal limit. Missing, because false: engines hitting the limit, which counts waiting runs that the restarted engine does not have yet (witness), a run that came back to its first state is not stored although it has counts and sankey values (witness), and a buffer flush in progress is not stored, which ends streaming early (witness)."
  },
  {
   "property": "C66",
   "status": "partial",
   "theorems": [
    "Verif.Wf.C66_partial",
    "Verif.Wf.C66_failed_violated"
   ],
   "note": "Missing, because false: a write that fails clears the flag (witness). That a write is complete when the engine goes on is assumed; writes that overlap: C119."
  },
  {
   "property": "C49",
   "status": "partial",
   "theorems": [
    "Verif.Pgv.C49_exact_partial",
    "Verif.Pgv.C49_unsupported_partial",
    "Verif.Pgv.C49_sint_violated",
    "Verif.Pgv.C49_duration_violated",
    "Verif.Pgv.C49_length_violated",
    "Verif.Pgv.C49_ignore_empty_violated",
    "Verif.Pgv.C49_wrapper_violated"
   ],
   "note": "Exact for the supported rules on the supported field types, over all messages and rule sets. Missing, because false, with a witness each: rules on sint/fixed kinds, durations out of range, length rules that are silently ignored, ignore_empty and wrapper types."
  },
  {
   "property": "C67",
   "status": "proved",
   "theorems": [
    "Verif.Wf.C67_records",
    "Verif.Wf.C67_log",
    "Verif.Wf.C67_only_logs"
   ],
   "note": ""
  },
  {
   "property": "C68",
   "status": "partial",
   "theorems": [
    "Verif.Grpc.C68_unary_partial",
    "Verif.Grpc.C68_answer",
    "Verif.Grpc.C68_headers_in_time",
    "Verif.Grpc.C68_message_violated",
    "Verif.Grpc.C68_trailers_violated",
    "Verif.Grpc.C68_timeout_violated"
   ],
   "note": "Missing, because false: the percent-encoded text of a status is never decoded by the client, error trailers after a message are ignored by the unary client, and the timeout covers only the time until the response headers (witnesses)."
  },
  {
   "property": "C69",
   "status": "partial",
   "theorems": [
    "Verif.Grpc.C69_handler_partial",
    "Verif.Grpc.C69_rest_violated"
   ],
   "note": "Missing, because false: a body that is cut within a second message is accepted (witness)."
  },
  {
   "property": "C70",
   "status": "partial",
   "theorems": [
    "Verif.Grpc.C70_stream_partial",
    "Verif.Grpc.C70_valid",
    "Verif.Grpc.C70_undecodable",
    "Verif.Grpc.C70_failed",
    "Verif.Grpc.C70_invalid_partial",
    "Verif.Grpc.C70_before_violated",
    "Verif.Grpc.C70_text_violated",
    "Verif.Grpc.C70_code_violated",
    "Verif.Grpc.C70_cut_violated"
   ],
   "note": "Missing, because false: messages before an invalid one in the same chunk are lost, an error text that is no header value ends the stream without trailers, which the client takes for a clean end, an error with code OK looks complete, and so does a stream cut within a message (witnesses)."
  },
  {
   "property": "C71",
   "status": "partial",
   "theorems": [
    "Verif.Tasks.C71_stuck_partial",
    "Verif.Tasks.C71_steps_bounded",
    "Verif.Tasks.C71_comes_to_rest_partial",
    "Verif.Tasks.C71_free",
    "Verif.Tasks.C71_again",
    "Verif.Tasks.C71_trigger_upload_violated",
    "Verif.Tasks.C71_blocking_call_violated",
    "Verif.Tasks.C71_killed_violated"
   ],
   "note": "Proved: without input the tasks make boundedly many steps and then all wait for input, or the client was killed, or one of two circular waits was reached. Missing, because false: both circular waits are reached and permanent (a configuration removing a buffer whose triggered upload is under way; a blocking call meeting a waiting stats upload and a second configuration), and after a kill a blocking call may never return (witnesses, for every later run)."
  },
  {
   "property": "C72",
   "status": "partial",
   "theorems": [
    "Verif.Conf.C72_selectable",
    "Verif.Conf.C72_written",
    "Verif.Conf.C72_version",
    "Verif.Conf.C72_cached",
    "Verif.Conf.C72_answer",
    "Verif.Conf.C72_stored",
    "Verif.Conf.C72_started",
    "Verif.Conf.C72_in_force_partial",
    "Verif.Conf.C72_refused_partial",
    "Verif.Conf.C72_flush_partial",
    "Verif.Conf.C72_refused_violated",
    "Verif.Conf.C72_refused_flush_violated",
    "Verif.Conf.C72_nack_violated",
    "Verif.Conf.C72_race_violated"
   ],
   "note": "Proved for histories in which a configuration is refused, if at all, by the buffer manager. Missing, because false: a matcher that does not compile is found only after the buffers were replaced; the nack names the refused version as last applied; a blocking log processed between the update of the manager and that of the log buffer ends the flush task for good (witnesses)."
  },
  {
   "property": "C73",
   "status": "partial",
   "theorems": [
    "Verif.Reconn.C73_gap",
    "Verif.Reconn.C73_rate",
    "Verif.Reconn.C73_growth",
    "Verif.Reconn.C73_delay_partial",
    "Verif.Reconn.C73_max_violated"
   ],
   "note": "Missing, because false: the randomised delay can exceed the configured maximum by half (witness); the bound of one and a half times the maximum is proved. The backoff crate is modelled from its documentation."
  },
  {
   "property": "C74",
   "status": "partial",
   "theorems": [
    "Verif.Reconn.C74_offline",
    "Verif.Reconn.C74_unknown",
    "Verif.Reconn.C74_online_partial",
    "Verif.Reconn.C74_online_violated"
   ],
   "note": "Missing, because false: after a stream was closed, online stays reported during the whole back-off (witness)."
  },
  {
   "property": "C75",
   "status": "partial",
   "theorems": [
    "Verif.Reentry.C75_returns_partial",
    "Verif.Reentry.C75_guard",
    "Verif.Reentry.C75_session_callback_violated",
    "Verif.Reentry.C75_previous_callback_violated",
    "Verif.Reentry.C75_blocking_callback_violated",
    "Verif.Reentry.C75_provider_flush_violated",
    "Verif.Reentry.C75_storage_error_violated",
    "Verif.Reentry.C75_reporter_violated"
   ],
   "note": "Proved for platform code that keeps to a lock order and does not wait with a lock held or on the log thread. Missing, because false: the rules are not enforced by the code; each breach blocks for good or panics (six witnesses)."
  },
  {
   "property": "C76",
   "status": "partial",
   "theorems": [
    "Verif.Hyper.C76_out",
    "Verif.Hyper.C76_delivered",
    "Verif.Hyper.C76_in",
    "Verif.Hyper.C76_received",
    "Verif.Hyper.C76_runs_partial",
    "Verif.Hyper.C76_reported_partial",
    "Verif.Hyper.C76_progress_partial",
    "Verif.Hyper.C76_deadlock_violated",
    "Verif.Hyper.C76_refused_violated",
    "Verif.Hyper.C76_refused_close_violated",
    "Verif.Hyper.C76_shutdown_violated"
   ],
   "note": "Order and completeness are proved in full. Missing, because false: with sixteen unread events both tasks wait for each other for good; an error message instead of the handshake makes the network task panic, or end and the api task panic; shutdown of the network task makes a sending api task panic (witnesses)."
  },
  {
   "property": "C77",
   "status": "partial",
   "theorems": [
    "Verif.Tasks.C77_stuck_partial",
    "Verif.Tasks.C77_steps_bounded",
    "Verif.Tasks.C77_completes_partial",
    "Verif.Tasks.C77_signalled",
    "Verif.Tasks.C77_after",
    "Verif.Tasks.C77_returned_partial",
    "Verif.Tasks.C77_runs",
    "Verif.Tasks.C77_undisturbed",
    "Verif.Tasks.C77_answered",
    "Verif.Tasks.C77_no_more",
    "Verif.Tasks.C77_flush_violated",
    "Verif.Tasks.C77_nonblocking_violated",
    "Verif.Tasks.C77_second_call_violated"
   ],
   "note": "Proved: with no more input every run after the signal ends within an explicit number of steps with all tasks ended and all calls returned, unless the circular wait of C71 over a blocking call was met; what has ended stays so. Missing, because false: that circular wait is not ended by a shutdown; a non-blocking call only drops the trigger while the log buffer holds a handle, so nothing ends at all; a second blocking call returns at once."
  },
  {
   "property": "C78",
   "status": "partial",
   "theorems": [
    "Verif.Store.C78_format",
    "Verif.Store.C78_canonical",
    "Verif.Store.C78_frame",
    "Verif.Store.C78_read_back_partial",
    "Verif.Store.C78_absent",
    "Verif.Store.C78_only_stored",
    "Verif.Store.C78_transient_read_violated",
    "Verif.Store.C78_damaged_text_violated"
   ],
   "note": "Proved in full: both text formats round-trip, base64 is canonical, keys do not interfere, a read returns only what is stored. Missing, because false: a refused read deletes the value for good; a damaged text that announces a huge string ends the process, in every later process again (this rests on the documented allocation of bincode 1.3, which is not part of /repo)."
  },
  {
   "property": "C79",
   "status": "partial",
   "theorems": [
    "Verif.Store.C79_process",
    "Verif.Store.C79_stable_partial",
    "Verif.Store.C79_stored_partial",
    "Verif.Store.C79_lost_write_violated",
    "Verif.Store.C79_refused_read_violated",
    "Verif.Store.C79_two_objects_violated"
   ],
   "note": "Within a process and an object: proved without conditions. Across processes: proved when the platform serves the reads and writes of this key and a process has one Device; missing, because false, otherwise (three witnesses)."
  },
  {
   "property": "C80",
   "status": "partial",
   "theorems": [
    "Verif.Errors.C80_limit",
    "Verif.Errors.C80_first_five",
    "Verif.Errors.C80_disabled",
    "Verif.Errors.C80_accounted",
    "Verif.Errors.C80_counted",
    "Verif.Errors.C80_target_partial",
    "Verif.Errors.C80_nested_violated",
    "Verif.Errors.C80_session_partial",
    "Verif.Errors.C80_session_violated"
   ],
   "note": "Bound, order and accounting are proved in full. Missing, because false: the end of an inner scope removes the outer scope too; a metadata value named session_id replaces the session identifier."
  },
  {
   "property": "C81",
   "status": "proved",
   "theorems": [
    "Verif.Errors.C81_spaced",
    "Verif.Errors.C81_bounded",
    "Verif.Errors.C81_not_lost",
    "Verif.Errors.C81_flags"
   ],
   "note": ""
  },
  {
   "property": "C82",
   "status": "partial",
   "theorems": [
    "Verif.Proto.C82_same",
    "Verif.Proto.C82_injective_partial",
    "Verif.Proto.C82_strings_violated",
    "Verif.Proto.C82_repeated_violated",
    "Verif.Proto.C82_nested_violated",
    "Verif.Proto.C82_zero_violated"
   ],
   "note": "Equal messages (bit for bit, maps as sets) have equal hashes: proved for all messages. Different messages: proved for types whose fields are all optional and of fixed width. Missing, because false: strings, repeated fields and nested messages collide; plus and minus zero are equal but hash differently."
  },
  {
   "property": "C83",
   "status": "partial",
   "theorems": [
    "Verif.Flow.C83_accounted",
    "Verif.Flow.C83_order",
    "Verif.Flow.C83_batches",
    "Verif.Flow.C83_uploaded_partial",
    "Verif.Flow.C83_once_partial",
    "Verif.Flow.C83_progress",
    "Verif.Flow.C83_twice_violated"
   ],
   "note": "The models of channel, log task, pipeline and uploader put together. Proved for all runs: accounting, order, unaltered content, progress. Once: for runs without a death of the process between the end of an upload and the removal of its logs, and without the race of C13; missing, because false, otherwise. Removed only after upload: missing, because false, for uploads cancelled by a shutdown (C13)."
  },
  {
   "property": "C84",
   "status": "partial",
   "theorems": [
    "Verif.Flow.C84_once",
    "Verif.Flow.C84_complete",
    "Verif.Flow.C84_ends",
    "Verif.Flow.C84_kept_partial",
    "Verif.Flow.C84_stream",
    "Verif.Flow.C84_died_violated",
    "Verif.Flow.C84_canceled_violated"
   ],
   "note": "Order, at most once, and completeness of an undisturbed upload are proved in full. Missing, because false: logs are removed when they are read, so a death or an error during an upload loses those held, and a shutdown drains the buffer into cancelled uploads."
  },
  {
   "property": "C85",
   "status": "partial",
   "theorems": [
    "Verif.Report.C85_follows",
    "Verif.Report.C85_final",
    "Verif.Report.C85_first_off",
    "Verif.Report.C85_alternates_partial",
    "Verif.Report.C85_started_twice_violated",
    "Verif.Report.C85_stop_first_violated",
    "Verif.Report.C85_initially_on_violated"
   ],
   "note": "Following the flag and finality are proved for all runs of a listener created with the flag off. Alternation is proved when every change is seen before the next; missing, because false, otherwise: start twice in a row, stop without start. A listener created with the flag on never starts (the logger creates it with the default, off)."
  },
  {
   "property": "C86",
   "status": "partial",
   "theorems": [
    "Verif.Report.C86_spaced",
    "Verif.Report.C86_count",
    "Verif.Report.C86_disabled",
    "Verif.Report.C86_due",
    "Verif.Report.C86_final",
    "Verif.Report.C86_no_panic_partial",
    "Verif.Report.C86_zero_violated"
   ],
   "note": "Spacing, count, gating and progress are proved for all runs. Missing, because false: an interval flag of zero (or of another type, which reads as zero) panics the log task."
  },
  {
   "property": "C87",
   "status": "proved",
   "theorems": [
    "Verif.Report.C87_counts",
    "Verif.Report.C87_all",
    "Verif.Report.C87_sum"
   ],
   "note": "Counters are u32 and wrap; the counts are exact modulo 2^32, the sum as long as fewer than 2^32 logs were seen."
  },
  {
   "property": "C88",
   "status": "partial",
   "theorems": [
    "Verif.Report.C88_real",
    "Verif.Report.C88_fresh_partial",
    "Verif.Report.C88_final",
    "Verif.Report.C88_error_violated",
    "Verif.Report.C88_moved_in_violated"
   ],
   "note": "Never an invented configuration: proved for all runs. Freshness: proved for renames within the directory with a working watcher; missing, because false, otherwise: one watcher error ends reloading for good, other ways to change the file are not noticed (the latter is documented)."
  },
  {
   "property": "C89",
   "status": "proved",
   "theorems": [
    "Verif.Buffer.C89_refines",
    "Verif.Buffer.C89_no_dangling",
    "Verif.Buffer.C89_exclusive"
   ],
   "note": "The links of the intrusive lists (crate intrusive_collections) are the order of two lists of addresses."
  },
  {
   "property": "C90",
   "status": "partial",
   "theorems": [
    "Verif.Server.C90_limit",
    "Verif.Server.C90_values",
    "Verif.Server.C90_series",
    "Verif.Server.C90_fallback",
    "Verif.Server.C90_stable",
    "Verif.Server.C90_late",
    "Verif.Server.C90_race_tight",
    "Verif.Server.C90_all_partial",
    "Verif.Server.C90_collision_violated"
   ],
   "note": "All parts per label name are proved for any number of threads; the bound max+n-1 is met. Missing, because false: the limit over all names, since the keys name_value of different labels can coincide; proved for names without underscore."
  },
  {
   "property": "C91",
   "status": "partial",
   "theorems": [
    "Verif.Server.C91_name",
    "Verif.Server.C91_labels",
    "Verif.Server.C91_identity",
    "Verif.Server.C91_once",
    "Verif.Server.C91_sum",
    "Verif.Server.C91_no_panic_partial",
    "Verif.Server.C91_label_names_violated",
    "Verif.Server.C91_kind_violated"
   ],
   "note": "Naming, labels, identity and sums are proved. Missing, because false: a request with the name of another metric but other label names or kind panics. The rule of the registry is that documented by crate prometheus."
  },
  {
   "property": "C92",
   "status": "proved",
   "theorems": [
    "Verif.Server.C92_gauge",
    "Verif.Server.C92_guards"
   ],
   "note": ""
  },
  {
   "property": "C93",
   "status": "partial",
   "theorems": [
    "Verif.Server.C93_range",
    "Verif.Server.C93_pool_partial",
    "Verif.Server.C93_hint_violated"
   ],
   "note": "Missing, because false: a numeric NUM_CPUS is ignored, `num_cpus as usize` is the address of the function."
  },
  {
   "property": "C94",
   "status": "partial",
   "theorems": [
    "Verif.Size.C94_covers_partial",
    "Verif.Size.C94_covers_log_partial",
    "Verif.Size.C94_twice",
    "Verif.Size.C94_twice_log",
    "Verif.Size.C94_at_most",
    "Verif.Size.C94_queue",
    "Verif.Size.C94_capacity_violated",
    "Verif.Size.C94_session_violated",
    "Verif.Size.C94_slots_violated"
   ],
   "note": "Within factor two for capacities left by doubling, exact cover without spare capacity. Missing, because false: spare capacity of strings, long session ids of overrides and reserved slots are not or not fully counted."
  },
  {
   "property": "C96",
   "status": "partial",
   "theorems": [
    "Verif.Server.C96_counted",
    "Verif.Server.C96_graceful",
    "Verif.Server.C96_told",
    "Verif.Server.C96_tells",
    "Verif.Server.C96_not_cut",
    "Verif.Server.C96_no_accept",
    "Verif.Server.C96_returns",
    "Verif.Server.C96_accept_error_violated"
   ],
   "note": "Proved for all runs ended by a shutdown. Missing, because false: one accept error makes the server return at once while connections are served."
  },
  {
   "property": "C95",
   "status": "partial",
   "theorems": [
    "Verif.Fb.C95_roundtrip",
    "Verif.Fb.C95_refused",
    "Verif.Fb.C95_independent",
    "Verif.Fb.C95_injective",
    "Verif.Fb.C95_age",
    "Verif.Fb.C95_kept",
    "Verif.Fb.C95_no_panic_partial",
    "Verif.Fb.C95_foreign_time_violated"
   ],
   "note": "Writing and reading logs is proved in full, at the level of the objects of the format (the bytes are made by crate flatbuffers). Missing, because false: a buffer entry that passes the verifier but carries seconds out of range makes the upload task panic."
  },
  {
   "property": "C97",
   "status": "partial",
   "theorems": [
    "Verif.Ping.C97_why",
    "Verif.Ping.C97_spacing",
    "Verif.Ping.C97_rate",
    "Verif.Ping.C97_none",
    "Verif.Ping.C97_hello",
    "Verif.Ping.C97_exact",
    "Verif.Ping.C97_not_late",
    "Verif.Ping.C97_sent",
    "Verif.Ping.C97_settings",
    "Verif.Ping.C97_refines",
    "Verif.Ping.C97_no_panic_partial",
    "Verif.Ping.C97_overflow_violated",
    "Verif.Ping.C97_dead_violated"
   ],
   "note": "Sending of pings is proved in full, and refines the stream model (Verif.Api.Stream). Missing, because false: an interval beyond the largest Instant panics, and an unanswered ping never closes the stream."
  },
  {
   "property": "C98",
   "status": "partial",
   "theorems": [
    "Verif.Wire.C98_server_partial",
    "Verif.Ring.C98_refines_partial",
    "Verif.Ring.C98_uploaded_partial",
    "Verif.Ring.C98_kept_partial",
    "Verif.Ring.C98_source_partial",
    "Verif.Ring.C98_batches_partial",
    "Verif.Ring.C98_alive_partial",
    "Verif.Ring.C98_released",
    "Verif.Ring.C98_error",
    "Verif.Ring.C98_restart_partial",
    "Verif.Ring.C98_hole_violated",
    "Verif.Ring.C98_reregister_violated",
    "Verif.Ring.C98_abort_violated"
   ],
   "note": "Both byte level rings, the flush thread, the uploader and any number of processes in one transition system. All parts are proved for runs in which no process ends between `reserve` and `commit` of the flush thread and no uploader is started in a process in which one went away with records read and not acknowledged; `uploaded` also needs that the uploader does not go on after abandoning an upload. Missing, because false otherwise: `C98_hole_violated`, `C98_reregister_violated`, `C98_abort_violated`."
  },
  {
   "property": "C99",
   "status": "partial",
   "theorems": [
    "Verif.Wf.C99_refines",
    "Verif.Wf.C99_workflows",
    "Verif.Wf.C99_runs_partial",
    "Verif.Wf.C99_runs_session_partial",
    "Verif.Wf.C99_traversals_partial",
    "Verif.Wf.C99_meaning",
    "Verif.Wf.C99_marks",
    "Verif.Wf.C99_ordered",
    "Verif.Wf.C99_log",
    "Verif.Wf.C99_active_partial",
    "Verif.Wf.C99_intents",
    "Verif.Wf.C99_flushes",
    "Verif.Wf.C99_limit_hits",
    "Verif.Wf.C99_session_violated",
    "Verif.Wf.C99_restore_violated",
    "Verif.Wf.C99_fork_violated",
    "Verif.Wf.C99_advance_violated"
   ],
   "note": "Workflows, meaning, order and failures are proved for all histories. The balance of runs is exact with the runs a session change discards; the balance of traversals also needs the configurations of C33 and that what is stored fits at a start. Missing, because false: discarded runs are not counted (`session`), traversals that were not restored count as started (`restore`), a run stopped while it forks loses completions (`fork`), and a workflow without a way out of its first state advances with every log (`advance`)."
  },
  {
   "property": "C100",
   "status": "partial",
   "theorems": [
    "Verif.Sync.C100_handshake",
    "Verif.Sync.C100_answers",
    "Verif.Sync.C100_ack_partial",
    "Verif.Sync.C100_nack",
    "Verif.Sync.C100_others",
    "Verif.Sync.C100_available",
    "Verif.Sync.C100_stream",
    "Verif.Sync.C100_counters",
    "Verif.Sync.C100_restart",
    "Verif.Sync.C100_restart_runtime",
    "Verif.Sync.C100_honest",
    "Verif.Sync.C100_nack_violated"
   ],
   "note": "Handshakes, answers, restarts and content of versions are proved over any number of processes and streams, down to the bytes of the handshake. Missing, because false: the answer to a refused logger configuration names the refused version as the one applied last (`C100_nack_violated`)."
  },
  {
   "property": "C101",
   "status": "partial",
   "theorems": [
    "Verif.Crc32.C101_burst",
    "Verif.Crc32.C101_bytes",
    "Verif.Crc32.C101_exact",
    "Verif.Crc32.C101_record",
    "Verif.Crc32.C101_stored",
    "Verif.Crc32.C101_header",
    "Verif.Crc32.C101_open",
    "Verif.Crc32.C101_crash_partial",
    "Verif.Crc32.C101_single",
    "Verif.Crc32.C101_collision_violated",
    "Verif.Crc32.C101_crash_violated"
   ],
   "note": "CRC-32 is modelled bit by bit; short errors in records and headers are proved for all histories and sizes. Crashes are proved without assumptions on the checksum for calls that change at most one index (`C101_single` says which). Missing, because false: a call that changes two indexes can leave a header whose checksum matches by accident (`C101_crash_violated`: two committed records are lost without an error); for the other calls C07 holds as long as no such accident happens."
  },
  {
   "property": "C102",
   "status": "partial",
   "theorems": [
    "Verif.Wf.Snap.C102_format",
    "Verif.Wf.Snap.C102_exact",
    "Verif.Wf.Snap.C102_sound",
    "Verif.Wf.Snap.C102_kept",
    "Verif.Wf.Snap.C102_counted",
    "Verif.Wf.Snap.C102_engine",
    "Verif.Wf.Snap.C102_foreign_partial",
    "Verif.Wf.Snap.C102_abort_violated",
    "Verif.Wf.Snap.C102_clock_violated",
    "Verif.Wf.Snap.C102_torn_violated",
    "Verif.Wf.Snap.C102_transient_violated"
   ],
   "note": "The bytes of bincode for all types of the state, and the store over any number of processes: what is read is exact, the counters are right, and the engine's model (C66) is refined. Missing, because false: a length beyond memory in the file ends every start; a run that began before 1970 makes all saves fail; a save that fails or is interrupted destroys the state before it; a start that cannot open the file deletes it."
  },
  {
   "property": "C103",
   "status": "proved",
   "theorems": [
    "Verif.Wire.C103_size",
    "Verif.Wire.C103_conforming",
    "Verif.Wire.C103_any_encoding",
    "Verif.Wire.C103_roundtrip",
    "Verif.Wire.C103_unique",
    "Verif.Wire.C103_last",
    "Verif.Wire.C103_newer",
    "Verif.Wire.C103_older",
    "Verif.Wire.C103_tables",
    "Verif.Wire.C103_grpc",
    "Verif.Wire.C103_logs",
    "Verif.Wire.C103_handshake"
   ],
   "note": "The tables of all 190 messages are extracted from the three generated functions and from the embedded descriptors by tools/protos.py, two independent sources that C103_tables compares; the general theorems hold for every table that agrees with a schema. Compression is a parameter assumed to invert; UTF-8 validity is a parameter."
  },
  {
   "property": "C104",
   "status": "partial",
   "theorems": [
    "Verif.Wire.C104_cut",
    "Verif.Files.C104_config",
    "Verif.Files.C104_config_back",
    "Verif.Files.C104_not_removed",
    "Verif.Files.C104_unwritten",
    "Verif.Files.C104_died",
    "Verif.Files.C104_compressed",
    "Verif.Files.C104_kill",
    "Verif.Files.C104_runtime_partial",
    "Verif.Files.C104_runtime_violated"
   ],
   "note": "Proved for the logger configuration (uncompressed: every cut is refused or leaves the whole configuration with its version, since the version is written first; over all histories) and for every compressed file (for the kill file down to the decision at the next start), given that zlib refuses a non-empty part of a stream. Violated for the runtime configuration: the fallback to the uncompressed format undoes the check for an empty file (and takes the two bytes of the zlib header for an unknown field), so an empty configuration is loaded as if it had been stored and written back (C104_runtime_violated); what a longer part says as an uncompressed message is not excluded (C104_runtime_partial)."
  },
  {
   "property": "C105",
   "status": "proved",
   "theorems": [
    "Verif.StatsBytes.C105_file",
    "Verif.StatsBytes.C105_index",
    "Verif.StatsBytes.C105_server",
    "Verif.StatsBytes.C105_older",
    "Verif.StatsBytes.C105_empty"
   ],
   "note": "Given that zlib refuses a non-empty part of a stream, that the encoding of a sketch can be undone and that the compression of the stream can be undone."
  },
  {
   "property": "C106",
   "status": "partial",
   "theorems": [
    "Verif.Buffer.C106_volatile",
    "Verif.Buffer.C106_persistent_partial",
    "Verif.Buffer.C106_refused_violated"
   ],
   "note": "Proved for the volatile buffer without exception, and for all counters of the persistent one except the refusals with Unavailable. Violated there: a request that does not wait and finds no space in a buffer that may not overwrite is refused with Unavailable and not counted (C106_refused_violated); refusals because all data was lost are counted, their bytes with up to the overhead of the record in addition (C106_persistent_partial). Overwritten records are counted in C02 and C03."
  },
  {
   "property": "C107",
   "status": "partial",
   "theorems": [
    "Verif.Grpc.Ends.C107_isolated_partial",
    "Verif.Grpc.Ends.C107_poisoned_violated"
   ],
   "note": "Proved for every history in which no call of the zlib library failed. Violated otherwise: the objects of the thread are given a new state only after a success, so one compressed message that cannot be decompressed makes every later compressed message of all stateless streams of the thread an error."
  },
  {
   "property": "C108",
   "status": "proved",
   "theorems": [
    "Verif.Grpc.Ends.C108_stream",
    "Verif.Grpc.Ends.C108_registered",
    "Verif.Grpc.Ends.C108_decompressed",
    "Verif.Grpc.Ends.C108_ends"
   ],
   "note": "For every library of serialisation and compression; the statement about both ends assumes that decompression undoes compression. No stream is registered twice (debug_assert in the code)."
  },
  {
   "property": "C109",
   "status": "partial",
   "theorems": [
    "Verif.Buffer.C109_volatile",
    "Verif.Buffer.C109_reader",
    "Verif.Buffer.C109_producer_partial",
    "Verif.Buffer.C109_await_partial",
    "Verif.Buffer.C109_loss_violated",
    "Verif.Buffer.C109_consumer_drop_violated",
    "Verif.Buffer.C109_producer_drop_violated"
   ],
   "note": "Proved in full for the volatile buffer and for readers of the persistent one; for producers and waiters of the persistent buffer when none of these happens while they sleep. Missing, because false: a reader that finds all data lost empties the buffer without waking the producer, and both sleep until a shutdown (loss); the drop of a consumer does not wake the producer that waits for its read (consumer_drop); the drop of a producer with its reservation does not wake who waits for the reservations to end (producer_drop). Flushes that hang are in C09."
  },
  {
   "property": "C110",
   "status": "partial",
   "theorems": [
    "Verif.Buffer.C110_waits_partial",
    "Verif.Buffer.C110_waiting",
    "Verif.Buffer.C110_spin_violated"
   ],
   "note": "Two rounds suffice unless the reset after a total data loss is pending. Missing, because false: if the size of the next record is destroyed while earlier records are read and not acknowledged, the loop goes round for good without waiting (spin), since only the same consumer could acknowledge them."
  },
  {
   "property": "C111",
   "status": "partial",
   "theorems": [
    "Verif.Buffer.C111_volatile",
    "Verif.Buffer.C111_drained",
    "Verif.Buffer.C111_aggregate",
    "Verif.Buffer.C111_consumer",
    "Verif.Buffer.C111_flush_returns",
    "Verif.Buffer.C111_drained_persistent",
    "Verif.Buffer.C111_persistent_partial",
    "Verif.Buffer.C111_persistent_violated"
   ],
   "note": "Proved in full for the volatile and the aggregate buffer, which are the ones locked by the logger. For the persistent buffer by itself when no producer is inside `reserve`. Missing, because false: a producer that sleeps in `reserve` when the lock is taken gets its reservation under the lock, after `await_reservations_drained` returned."
  },
  {
   "property": "C112",
   "status": "partial",
   "theorems": [
    "Verif.Switch.C112_off",
    "Verif.Switch.C112_filters",
    "Verif.Switch.C112_first",
    "Verif.Switch.C112_current",
    "Verif.Switch.C112_on_partial",
    "Verif.Switch.C112_on_violated"
   ],
   "note": "Switching off, the filters, the first configuration and the absence of old configurations are proved. Missing, because false: workflows that were switched off stay off after being switched on, until the next configuration comes (C112_on_violated); C112_on_partial is the statement from a configuration that comes while the flag is on."
  },
  {
   "property": "C113",
   "status": "partial",
   "theorems": [
    "Verif.Switch.C113_once",
    "Verif.Switch.C113_progress",
    "Verif.Switch.C113_kept_partial",
    "Verif.Switch.C113_kept_violated",
    "Verif.Switch.C113_one_violated"
   ],
   "note": "At most once, in order, and progress are proved for all histories. That no request disappears and that there is one request per action at a time is proved for histories in which workflows are not switched off. Missing, because false: when workflows are switched off and on, the requests in the old channel are lost without being counted (C113_kept_violated), and the new engine asks for a flush although the old one's is going on (C113_one_violated)."
  },
  {
   "property": "C114",
   "status": "partial",
   "theorems": [
    "Verif.Wf.C114_set_partial",
    "Verif.Wf.C114_update_partial",
    "Verif.Wf.C114_start",
    "Verif.Wf.C114_resume",
    "Verif.Wf.C114_twice_violated",
    "Verif.Wf.C114_restart_violated"
   ],
   "note": "Proved for lists in which each identifier occurs once, for all histories. Missing, because false: with an identifier twice, the same configuration given again stops a workflow, and a workflow can go on being run twice (C114_twice_violated); and a workflow that was changed between two processes goes on from the state of the old one (C114_restart_violated), which the check in `update` is there to prevent."
  },
  {
   "property": "C115",
   "status": "proved",
   "theorems": [
    "Verif.Wf.C115_alone",
    "Verif.Wf.C115_restored",
    "Verif.Wf.C115_each_log"
   ],
   "note": "C115_each_log: the same for what a single log adds to the emissions. C115_alone: processes that start without stored state. C115_restored: one process that starts from any stored state, which the processes with one workflow also find; runs of the stored state that are dropped because of the limit are hits of it. The limits of the processes with one workflow are arbitrary."
  },
  {
   "property": "C116",
   "status": "partial",
   "theorems": [
    "Verif.Wf.C116_accepted",
    "Verif.Wf.C116_written",
    "Verif.Wf.C116_others",
    "Verif.Wf.C116_order",
    "Verif.Wf.C116_runs_partial",
    "Verif.Wf.C116_timeout_violated"
   ],
   "note": "The conversion is proved in full, down to the meaning of each matcher (C29), and that running it follows the message. Missing, because false: a transition that waits for a time is accepted and never followed (C116_timeout_violated; the code has a TODO there)."
  },
  {
   "property": "C117",
   "status": "partial",
   "theorems": [
    "Verif.Mgr.C117_exclusive",
    "Verif.Mgr.C117_registers",
    "Verif.Mgr.C117_follow_partial",
    "Verif.Mgr.C117_nothing_else",
    "Verif.Mgr.C117_request",
    "Verif.Mgr.C117_stopped",
    "Verif.Mgr.C117_failed_violated"
   ],
   "note": "Everything is proved for all interleavings except one point that is false: an upload task that returned an error is never replaced (C117_failed_violated), so C117_follow_partial is for histories without such an error."
  },
  {
   "property": "C118",
   "status": "partial",
   "theorems": [
    "Verif.Buffer.C118_opens",
    "Verif.Buffer.C118_keeps",
    "Verif.Buffer.C118_untouched",
    "Verif.Buffer.C118_sizes",
    "Verif.Buffer.C118_not_removed",
    "Verif.Buffer.C118_interrupted_partial",
    "Verif.Buffer.C118_resized_violated"
   ],
   "note": "Proved for every disk and every failure. Interrupted openings are proved for parameters that stay the same. Missing, because false: when the size changes, two interrupted openings can leave a file that looks in order and has lost a record (C118_resized_violated)."
  },
  {
   "property": "C119",
   "status": "partial",
   "theorems": [
    "Verif.Wf.Writers.C119_state_partial",
    "Verif.Wf.Writers.C119_stored_partial",
    "Verif.Wf.Writers.C119_dropped",
    "Verif.Wf.Writers.C119_forced",
    "Verif.Wf.Writers.C119_stale_violated",
    "Verif.Wf.Writers.C119_mixed_violated"
   ],
   "note": "Violated by the code: maybe_store hands the write to the blocking pool, and the future that waits for it in WorkflowsEngine::run is a branch of the select! of the log buffer, so it is dropped when a log arrives while the write goes on. For all states a, b: the file can end with a although b was stored and reported as stored (C119_stale_violated), also after a blocking log; and for states larger than the capacity of the BufWriter with a mixture that is read without an error (C119_mixed_violated). Proved: for states that fit into one write, under all overlaps, the file is as at the start, unreadable, or exactly one state of the engine (C119_state_partial); for histories in which no wait is dropped, one write at a time and the file holds the stored state (C119_stored_partial). All writes succeed in this model (failures: C66, C102)."
  },
  {
   "property": "C120",
   "status": "partial",
   "theorems": [
    "Verif.Wf.Stale.C120_bounded_partial",
    "Verif.Wf.Stale.C120_forced",
    "Verif.Wf.Stale.C120_sparing",
    "Verif.Wf.Stale.C120_same_rule",
    "Verif.Wf.Stale.C120_steady_violated"
   ],
   "note": "Missing, because false: messages that do not reach maybe_persist (fields, configurations, answers) start the periodic sleep anew, so a steady stream of them keeps a change in memory for any length of time (C120_steady_violated, for all intervals). Proved: the bound counted from the later of the change and the last such message (C120_bounded_partial), that blocking logs and flushes store everything (C120_forced), and that nothing is written needlessly or too soon (C120_sparing). Writes take no time and succeed here (C119, C66)."
  },
  {
   "property": "C121",
   "status": "proved",
   "theorems": [
    "Verif.Flow.Consent.C121_consent",
    "Verif.Flow.Consent.C121_all",
    "Verif.Flow.Consent.C121_complete",
    "Verif.Flow.Consent.C121_tasks"
   ],
   "note": "The models of C39/C64 (engine and negotiator), C16 (manager) and C84 (buffer and task) composed with the channels between them. The intent sent to the server names the action and only the first of its buffers; the consent is for the action. C121_complete: for a known buffer that is not being uploaded already; requests lost in a full channel are in C113."
  },
  {
   "property": "C122",
   "status": "partial",
   "theorems": [
    "Verif.Net.Offline.C122_marked",
    "Verif.Net.Offline.C122_offline",
    "Verif.Net.Offline.C122_up",
    "Verif.Net.Offline.C122_answered_partial",
    "Verif.Net.Offline.C122_answered_violated",
    "Verif.Net.Offline.C122_own_violated"
   ],
   "note": "Missing, because false: an attempt of the API task that begins right after a response takes the word of the response back, and says offline (the comment in network.rs expects unknown), so the next log is marked (C122_answered_violated); begun between the two interceptors, it marks the log of the response itself (C122_own_violated). Proved: the exact condition of the mark, what it says about streams, and no mark after a response until the next attempt."
  },
  {
   "property": "C123",
   "status": "partial",
   "theorems": [
    "Verif.Grpc.Streams.C123_sum_partial",
    "Verif.Grpc.Streams.C123_once",
    "Verif.Grpc.Streams.C123_ends",
    "Verif.Grpc.Streams.C123_messages",
    "Verif.Grpc.Streams.C123_told",
    "Verif.Grpc.Streams.C123_panic_violated",
    "Verif.Grpc.Streams.C123_dropped_violated"
   ],
   "note": "Missing, because false: a stream whose handler panics and a stream whose request is dropped while it is being read are never counted as ended (C123_panic_violated, C123_dropped_violated); the same holds for tasks stopped with the runtime. Messages are counted when they are given to the stream, not when they leave it."
  },
  {
   "property": "C124",
   "status": "partial",
   "theorems": [
    "Verif.Upload.Service.C124_rate",
    "Verif.Upload.Service.C124_total_partial",
    "Verif.Upload.Service.C124_goes_on",
    "Verif.Upload.Service.C124_dropped",
    "Verif.Upload.Service.C124_period",
    "Verif.Upload.Service.C124_spin",
    "Verif.Upload.Service.C124_retries_violated",
    "Verif.Upload.Service.C124_order_violated"
   ],
   "note": "Missing, because false: the rate limiter is the outer layer, so repeated attempts need no permit and are sent on top of the quota (C124_retries_violated); an upload can be overtaken by later ones period after period (C124_order_violated, for any number of periods). Proved for first attempts in any stretch of time; for all attempts with the factor of the retry limit. C124_spin: at the very end of a period the loop goes round without waiting."
  },
  {
   "property": "C125",
   "status": "partial",
   "theorems": [
    "Verif.Session.Stamp.C125_block_partial",
    "Verif.Session.Stamp.C125_not_earlier_partial",
    "Verif.Session.Stamp.C125_take",
    "Verif.Session.Stamp.C125_turn",
    "Verif.Session.Stamp.C125_restart",
    "Verif.Session.Stamp.C125_called_violated",
    "Verif.Session.Stamp.C125_override_violated",
    "Verif.Session.Stamp.C125_progress_violated",
    "Verif.Session.Stamp.C125_unstored_violated"
   ],
   "note": "Missing, because false: a log that waits in the queue while the application starts a new session is given the new one (C125_called_violated); a log with the override of the previous session is processed between the logs of the current one (C125_override_violated) and makes the workflows forget their progress (C125_progress_violated); a session that could not be stored is followed by the one before it in the next process (C125_unstored_violated). Proved otherwise: blocks, and never a session that had ended before the log was logged."
  },
  {
   "property": "C126",
   "status": "partial",
   "theorems": [
    "Verif.Grpc.Resync.C126_resync_partial",
    "Verif.Grpc.Resync.C126_flag",
    "Verif.Grpc.Resync.C126_lost_sync_violated",
    "Verif.Grpc.Resync.C126_lost_message_violated"
   ],
   "note": "Missing, because false: after a frame whose payload could not be decompressed (or came compressed without a decompressor) the decoder still holds the size of that frame, so it takes the next frame for a payload (C126_lost_sync_violated); and the messages in front of a bad frame, in the same chunk, are dropped with the error (C126_lost_message_violated). Proved: what is left always begins with a frame, and after a message that could not be parsed the decoder expects one. Of the users of decode_data only StreamingApi::next of bd-grpc can be called again after an error; the API task of the client ends with it (C52)."
  },
  {
   "property": "C127",
   "status": "partial",
   "theorems": [
    "Verif.Session.StampF.C127_block",
    "Verif.Session.StampF.C127_not_earlier_partial",
    "Verif.Session.StampF.C127_current",
    "Verif.Session.StampF.C127_process",
    "Verif.Session.StampF.C127_previous",
    "Verif.Session.StampF.C127_take",
    "Verif.Session.StampF.C127_turn",
    "Verif.Session.StampF.C127_restart",
    "Verif.Session.StampF.C127_called_violated",
    "Verif.Session.StampF.C127_repeat_violated",
    "Verif.Session.StampF.C127_callback_violated"
   ],
   "note": "Missing, because false: a log that waits in the queue while the application starts a new session is given the new one (C127_called_violated). Nothing prevents a callback from returning an identifier again (C127_repeat_violated), and who asks from inside the callback is told an identifier no log will have (C127_callback_violated). All else is proved, the blocks also when nothing can be stored."
  }
 ]
}