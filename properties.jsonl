{"id": "C01", "title": "Volatile ring buffer is a FIFO of committed records", "statement": "Whatever sequence of reserve, write, commit, start_read and finish_read calls producers and the consumer make on an in-memory ring buffer, each record handed to the consumer is byte for byte a record some producer committed, records arrive in the order their space was reserved, no record arrives twice, and a record that never arrives is either still unread, still uncommitted (or behind an uncommitted one), or was one of the oldest records discarded to make room for a newer one.", "quantifier": "all buffer sizes, all record sizes and contents, all numbers of producers, all interleavings of the API calls (each call is one lock-protected step)", "why_tests_cant": "the wrap-around gap, partially filled space and several outstanding reservations interact in unboundedly many ways; unit tests pick a few offsets", "anchors": ["bd-buffer/src/buffer/volatile_ring_buffer.rs: ProducerImpl::reserve, commit; ConsumerImpl::start_read, finish_read", "bd-buffer/src/buffer/common_ring_buffer.rs: LockedData::calculate_next_write_start, advance_next_read_due_to_write, advance_next_read"]}
{"id": "C02", "title": "Memory handed out is exclusively owned", "statement": "At every moment the byte ranges handed to producers that have reserved and not yet committed, and the byte range handed to the consumer that has started a read and not finished it, lie inside the buffer, are pairwise disjoint, and are disjoint from every committed unread record.", "quantifier": "all buffer sizes, record sizes, producer counts and call histories", "why_tests_cant": "an overlap needs a particular combination of offsets, wrap gap and outstanding reservations; the code only checks the first outstanding reservation, so the claim rests on an ordering argument over all histories", "anchors": ["bd-buffer/src/buffer/volatile_ring_buffer.rs: reserve (front-of-queue check)", "bd-buffer/src/buffer/common_ring_buffer.rs: intersect_reservation, intersect_in_wrap_gap"]}
{"id": "C03", "title": "Reserve accepts exactly the requests that fit", "statement": "A reserve of zero bytes or of more than the buffer can hold is refused as an invalid argument and changes nothing; while the buffer is locked it is refused as a failed precondition and changes nothing; any other refusal leaves every committed unread record readable except those discarded as oldest; a granted reserve hands out exactly the requested number of bytes.", "quantifier": "all buffer sizes, all requested sizes including those that overflow 32 bits, all reachable buffer states", "why_tests_cant": "boundary sizes depend on the 4-byte header, per-record extra bytes and 32-bit overflow; only a proof covers every reachable offset", "anchors": ["bd-buffer/src/buffer/common_ring_buffer.rs: start_reserve_common, overflow_add, calculate_next_write_start"]}
{"id": "C04", "title": "Overwriting discards only the oldest records and only when needed", "statement": "When an overwriting ring buffer grants a reservation, the committed unread records that survive are a suffix (the newest ones) of those there before, every discarded record overlapped the space that was needed, and the overwritten-record and overwritten-byte counters grow by exactly the number and size of the records discarded.", "quantifier": "all reachable states of an overwriting ring buffer and all requested sizes", "why_tests_cant": "depends on the exact layout of the records; tests only check layouts someone thought of", "anchors": ["bd-buffer/src/buffer/common_ring_buffer.rs: advance_next_read_due_to_write, RingBufferStats"]}
{"id": "C05", "title": "A non-overwriting persistent ring buffer never loses committed records", "statement": "With overwriting disabled, no reserve ever discards a committed record: the sequence of records read is always a prefix of the sequence of records committed, and everything committed and not yet read is still there, also after a restart (the reading of a record ends with finish_read; the file is not altered from outside, which is C08).", "quantifier": "all histories of single-producer writes, reads, abandoned reservations and restarts in which consumers do not go away in the middle of a read, all sizes", "why_tests_cant": "a lost record needs a particular wrap position", "anchors": ["bd-buffer/src/buffer/non_volatile_ring_buffer.rs: ProducerImpl::reserve, commit; ConsumerImpl", "bd-buffer/src/buffer/common_ring_buffer.rs: AllowOverwrite::Block"]}
{"id": "C06", "title": "Cursor reading does not consume until acknowledged", "statement": "A cursor consumer sees committed records in order, each once per process; a record leaves the buffer only when the cursor consumer acknowledges it, acknowledgements remove the oldest read record, and after a restart reading starts again at the oldest unacknowledged record.", "quantifier": "all interleavings of writes, cursor reads, acknowledgements and restarts", "why_tests_cant": "read position and acknowledge position move independently around the ring", "anchors": ["bd-buffer/src/buffer/non_volatile_ring_buffer.rs: CursorConsumerImpl::start_read, advance_read_pointer; RingBufferImpl::new"]}
{"id": "C07", "title": "A crash loses nothing that was committed or the whole file, never a mixture", "statement": "If the process dies between any two stores of a call on the persistent ring buffer and the file is opened again, either the open reports data loss (only possible inside a call; the file is then recreated empty) or the readable records are, in order, exactly those readable before the interrupted call or exactly those readable after it; the only other outcome is that an interrupted overwriting reservation has already taken the oldest record and not yet the others. With record checksums, a reservation in flight at a crash is never delivered as a record.", "quantifier": "all histories, all crash points between memory writes of an operation", "why_tests_cant": "a crash can fall between any two stores; tests can only simulate a few", "anchors": ["bd-buffer/src/buffer/non_volatile_ring_buffer.rs: FileHeader, write_header_crc32, RingBufferImpl::new"]}
{"id": "C08", "title": "Corrupt records are never delivered", "statement": "The persistent ring buffer hands a record to a reader only if the checksum stored with it matches its size and contents; a record whose bytes were altered so that the checksum differs is skipped and counted, and every other record is still delivered in order.", "quantifier": "all records, all alterations of record contents, all reader kinds", "why_tests_cant": "the set of alterations is unbounded and interacts with cursor bookkeeping", "anchors": ["bd-buffer/src/buffer/non_volatile_ring_buffer.rs: common_consumer_start_read, crc32"]}
{"id": "C09", "title": "The aggregate buffer moves records to disk in order", "statement": "Records written to the aggregate buffer (memory ring draining into a disk ring) reach the disk ring in the order they were written, each at most once; a flush that returns has moved every record committed before it, except those discarded for lack of space.", "quantifier": "all histories of writes, background drain steps and flushes", "why_tests_cant": "background thread can be scheduled anywhere between writes", "anchors": ["bd-buffer/src/buffer/aggregate_ring_buffer.rs: flush_thread_func, RingBufferImpl::flush"]}
{"id": "C10", "title": "The queue into the logger respects its byte and count budget under every interleaving", "statement": "The bounded channel never holds messages whose total size exceeds its byte capacity or whose number exceeds its slot capacity, whatever the interleaving of concurrent senders and the receiver; received messages come out in the order accepted; when all senders and the receiver are idle the accounted size equals the size of what is queued.", "quantifier": "all interleavings of atomic steps of any number of senders and one receiver, all message sizes", "why_tests_cant": "races between the size counter and the channel only show in specific schedules", "anchors": ["bd-logger/src/memory_bound.rs: Sender::try_send, Receiver::recv"]}
{"id": "C11", "title": "Logs before configuration are replayed once, in order, within limits", "statement": "Before configuration arrives the logger keeps logs in arrival order, never more than the configured count and byte limits; a log is refused exactly when keeping it would break a limit; when the first configuration arrives all kept logs are processed first, once each, in order, before any later log.", "quantifier": "all sequences of log and configuration events", "why_tests_cant": "limits interact with log sizes in unbounded combinations", "anchors": ["bd-logger/src/pre_config_buffer.rs: PreConfigBuffer::push, pop_all", "bd-logger/src/async_log_buffer.rs: write_log, update, maybe_replay_pre_config_buffer_logs"]}
{"id": "C12", "title": "Upload batches partition the logs", "statement": "Uploading a buffer splits the logs read from it into batches that are never empty, whose concatenation is exactly the logs read in order (for a triggered upload: those not older than the look-back window), and each batch without its last log is below both the byte and the count limit; every batch but the last reached a limit when it was sent.", "quantifier": "all log sequences, all sizes, all limits (also changing during the upload)", "why_tests_cant": "batch boundaries depend on every prefix of the log sizes", "anchors": ["bd-logger/src/consumer.rs: BatchBuilder, CompleteBufferUpload::run, ContinuousBufferUploader"]}
{"id": "C13", "title": "Continuous uploads acknowledge exactly what was uploaded", "statement": "The continuous uploader acknowledges a log in the buffer only after an upload containing it has finished, acknowledges logs in order, and when it stops at any point every log read but not yet part of a finished upload is still in the buffer and is read again after a restart.", "quantifier": "all sequences of reads, deadlines, upload results and a shutdown at any point", "why_tests_cant": "shutdown may arrive at any await point", "anchors": ["bd-logger/src/consumer.rs: ContinuousBufferUploader::consume_continuous_logs, flush_current_batch"]}
{"id": "C14", "title": "Upload attempts are bounded and identical", "statement": "One upload request is attempted at most one more time than the configured maximum number of retries, only after a failed attempt, always with the same identifier and payload; a cancelled or successful attempt is never repeated; an upload is reported as dropped only if its last attempt failed.", "quantifier": "all sequences of attempt outcomes and retry limits", "why_tests_cant": "the property quantifies over every outcome history", "anchors": ["bd-logger/src/service.rs: RetryPolicy::retry, Uploader"]}
{"id": "C15", "title": "Upload rate limit bounds bytes per period", "statement": "Between two refills of the rate limiter the total size of the uploads let through, not counting the last one, is below the configured byte count; refills are more than the configured period apart; a refused upload is let through after the next refill, so an upload larger than the whole quota is never starved.", "quantifier": "all sequences of request sizes and times, all quotas and periods (also changing)", "why_tests_cant": "window boundaries and sizes combine in unbounded ways", "anchors": ["bd-logger/src/ratelimit.rs: try_acquire_ratelimit_permit"]}
{"id": "C16", "title": "At most one triggered upload per buffer at a time", "statement": "However many flush requests arrive, a trigger buffer is never uploaded by two uploads at once; a request naming existing buffers that are idle (no upload running and the completion of the last one processed) starts exactly one upload for each distinct buffer; requests for unknown buffers or buffers already being uploaded start nothing; a request is answered only when all uploads it started have ended.", "quantifier": "all sequences of flush requests, completions and buffer additions and removals", "why_tests_cant": "depends on the order of completions and requests", "anchors": ["bd-logger/src/consumer.rs: BufferUploadManager::handle_trigger_uploads, handle_buffer_event"]}
{"id": "C17", "title": "Every acknowledgement goes to the request it answers", "statement": "Each server response to an upload or intent completes exactly the pending request with that identifier, once, with success exactly when the response carries no error; a response with an unknown identifier ends the stream; when the stream ends every pending request is told it failed.", "quantifier": "all sequences of tracked requests and responses with distinct identifiers", "why_tests_cant": "interleavings of requests and responses are unbounded", "anchors": ["bd-api/src/upload.rs: StateTracker::track_upload, resolve_pending_upload", "bd-api/src/api.rs: handle_responses"]}
{"id": "C18", "title": "gRPC framing is independent of how bytes are chunked", "statement": "Decoding the concatenation of any encoded messages yields exactly those messages in order however the bytes are split into chunks, and a partial message is never delivered.", "quantifier": "all message sequences (each shorter than 2^32 bytes), all ways to split the byte stream into chunks, compression on or off", "why_tests_cant": "the number of ways to split is exponential", "anchors": ["bd-grpc-codec/src/lib.rs: Encoder::encode, Decoder::decode_data"]}
{"id": "C19", "title": "Activity-based sessions change exactly when they should", "statement": "With the activity-based strategy the session identifier changes between two log calls exactly when the gap since the previous activity exceeds the inactivity threshold, the clock moved backwards, or a new session was requested; the identifier on disk is always the one last returned; after a restart the session continues if it was active within the threshold of the recorded activity.", "quantifier": "all sequences of calls with arbitrary clock readings and restarts at any point", "why_tests_cant": "depends on complete clock histories and crash points", "anchors": ["bd-session/src/activity_based.rs: Strategy::session_id, start_new_session, flush"]}
{"id": "C20", "title": "Fixed sessions are stable within a process", "statement": "With the fixed strategy the session identifier does not change within a process except when a new session is requested; the previous-process identifier reported is always the last identifier of the previous run and does not change within a process.", "quantifier": "all sequences of calls and restarts", "why_tests_cant": "histories over several processes are unbounded", "anchors": ["bd-session/src/fixed.rs: Strategy::session_id, start_new_session, previous_process_session_id"]}
{"id": "C21", "title": "A bad cached runtime configuration cannot crash-loop the app for ever", "statement": "Whatever happens, at most six consecutive process starts apply the same cached runtime configuration without a successful handshake or new configuration in between; after that the cache is wiped and the process starts with defaults; a process that reaches a handshake resets the count.", "quantifier": "all sequences of process starts, crashes at any point, handshakes, updates and unreadable files", "why_tests_cant": "crash points and multi-process histories", "anchors": ["bd-runtime/src/runtime.rs: ConfigLoader::try_load_persisted_config, handle_cached_config, mark_safe, update_snapshot"]}
{"id": "C22", "title": "A persisted logger configuration that kills the process is tried at most once", "statement": "A cached logger configuration is removed from disk before it is applied and written back only after it was applied successfully, so a configuration that crashes the process while being applied is never applied from disk again; the version reported in the handshake is always that of the last configuration applied successfully in this process.", "quantifier": "all sequences of updates (applied or rejected), crashes at any point, restarts", "why_tests_cant": "crash points between file operations", "anchors": ["bd-logger/src/client_config.rs: process_configuration_update, try_load_persisted_config_helper, partial_handshake"]}
{"id": "C23", "title": "A killed client stays silent", "statement": "Once the server rejects the API key, or a process starts with the kill switch set in its runtime configuration, no connection attempt is made by that process, and none by later processes as long as they all use the same key and start before the kill period has passed; a process with a different key, or one started after the period, connects again.", "quantifier": "all sequences of process starts, clocks, API keys, kill responses and unreadable kill files", "why_tests_cant": "multi-process histories with clocks", "anchors": ["bd-api/src/api.rs: maybe_kill_client, write_kill_file, read_kill_file, maintain_active_stream"]}
{"id": "C24", "title": "Runtime flags: readers see the latest value or the default, and only real changes wake them", "statement": "Reading a runtime value returns the value in the last applied configuration, or the declared default if the key is missing; a watcher is notified by an update exactly when the value it reads changed.", "quantifier": "all sequences of configuration updates and watch registrations, all values", "why_tests_cant": "sequences of updates are unbounded", "anchors": ["bd-runtime/src/runtime.rs: ConfigLoader::register_watch, update_snapshot_inner, send_if_modified, Snapshot"]}
{"id": "C25", "title": "Metrics are conserved from increment to upload", "statement": "Every counter increment is, at any time, in exactly one place: still in memory, in exactly one aggregation file on disk, in an uploaded and acknowledged snapshot, or in a snapshot that was explicitly discarded because of the file limit or because a file was unreadable; nothing is counted twice.", "quantifier": "all sequences of increments, flushes, uploads, upload results and clock readings", "why_tests_cant": "conservation must hold along every history", "anchors": ["bd-client-stats/src/stats.rs: Flusher::flush_to_disk, merge_delta_snapshot_to_disk, upload_from_disk, process_pending_upload_completion", "bd-client-stats/src/file_manager.rs: FileManager"]}
{"id": "C26", "title": "All uploads of a metrics snapshot with one identifier carry the same content", "statement": "If the same metrics snapshot identifier is uploaded several times, also across crashes, the uploaded content is the same every time, so the server may discard duplicates by identifier.", "quantifier": "all histories of flushes, uploads, failures and crashes", "why_tests_cant": "crash points and retries", "anchors": ["bd-client-stats/src/file_manager.rs: get_or_create_snapshot, get_or_create_pending_upload"]}
{"id": "C27", "title": "The metrics collectors are bounded and type stable", "statement": "A bounded collector never holds more metrics than its limit, however metrics are created; an existing metric is always returned again, a name is never both a counter and a histogram, and what does not fit is counted as overflow.", "quantifier": "all sequences of metric requests", "why_tests_cant": "sequences are unbounded", "anchors": ["bd-client-stats-store/src/lib.rs: Collector::get_common, counter, histogram; bd-client-stats/src/lib.rs: DynamicStats"]}
{"id": "C28", "title": "Histogram merging loses no observation", "statement": "However observations are split between inline storage and sketch storage, recorded, snapshotted and merged, the merged histogram contains every observation exactly once.", "quantifier": "all sequences of observe, snapshot and merge operations", "why_tests_cant": "the switch from inline to sketch can fall anywhere", "anchors": ["bd-client-stats-store/src/lib.rs: HistogramInner::accept, merge_from, snap"]}
{"id": "C29", "title": "Matcher trees mean what they say", "statement": "A matcher tree accepts a log exactly when its boolean structure of leaves does, where leaves follow the documented operator on the first field value found (level, type, message, captured field, then matching field); a leaf whose input is missing never matches; a configuration is rejected exactly when some node is incomplete or has an invalid operator or value.", "quantifier": "all matcher configurations and all logs", "why_tests_cant": "configurations are trees of unbounded depth", "anchors": ["bd-log-matcher/src/matcher.rs: Tree::new, Tree::do_match, Leaf", "bd-matcher/src/matcher.rs"]}
{"id": "C30", "title": "Version comparison is a sensible order", "statement": "Version comparison ignores trailing zero segments and everything after - or +, is antisymmetric and transitive, so exactly one of less, equal, greater holds and the six operators agree with each other.", "quantifier": "all pairs and triples of version strings", "why_tests_cant": "transitivity quantifies over all triples", "anchors": ["bd-log-matcher/src/version.rs: Version::new, Ord for Version, VersionMatch"]}
{"id": "C31", "title": "Buffer selection is the union of the matching buffers", "statement": "A log is sent to exactly the configured buffers that have at least one filter whose matcher accepts it; order and duplicates of filters do not matter.", "quantifier": "all buffer configurations and logs", "why_tests_cant": "configurations are unbounded", "anchors": ["bd-matcher/src/buffer_selector.rs: BufferSelector::new, buffers"]}
{"id": "C32", "title": "Filters transform only what they match, in order, and only as told", "statement": "Each filter is applied in configuration order, exactly to logs its matcher accepts after the earlier filters; a filter only changes the field it names; setting a field leaves exactly one field of that name among those it writes; removing a field leaves none; capturing moves a field without changing its value; a broken filter is skipped and counted without affecting the others.", "quantifier": "all filter chains and all logs", "why_tests_cant": "chains are unbounded and fields may repeat", "anchors": ["bd-log-filter/src/lib.rs: FilterChain::new, process, Filter, CaptureField, SetField, RemoveField"]}
{"id": "C33", "title": "Workflow memory is bounded by the configured traversal limit", "statement": "The number of live traversals over all workflows never exceeds the configured maximum (or the number that the initial states alone need), and the engine's own counter always equals the actual number.", "quantifier": "all workflow configurations, all sequences of logs and configuration updates, all limits", "why_tests_cant": "forks and completions accumulate along unbounded histories", "anchors": ["bd-workflows/src/engine.rs: WorkflowsEngine::process_log, add_workflow, remove_workflow", "bd-workflows/src/workflow.rs: Workflow::process_log, Run::process_log"]}
{"id": "C34", "title": "An exclusive workflow has at most one run in progress", "statement": "A workflow with exclusive execution never has more than one run past its initial state, and at most one more waiting in the initial state; the run in progress is shown a log first and, if it accepts it and goes on, the waiting run is not; if it does not accept it and the waiting run does and goes on, the waiting run takes its place; a log neither accepts changes neither.", "quantifier": "all exclusive workflows and all sequences of logs, configuration updates and restarts in which no update turns a parallel workflow into an exclusive one of the same identifier", "why_tests_cant": "histories are unbounded", "anchors": ["bd-workflows/src/workflow.rs: Workflow::process_log, maybe_add_run, needs_new_run"]}
{"id": "C35", "title": "A transition fires exactly at its configured match count", "statement": "A traversal leaves a state through a transition exactly when that transition's matcher has accepted the configured number of logs since the state was entered, all transitions whose count is reached on the same log are followed, and the actions of exactly those transitions are triggered.", "quantifier": "all workflow configurations and log sequences", "why_tests_cant": "counts build up over unbounded log sequences", "anchors": ["bd-workflows/src/workflow.rs: Traversal::process_log, Run::process_log"]}
{"id": "C36", "title": "Workflow state does not leak between sessions", "statement": "When a log with a new session identifier arrives, all workflow progress and all streaming whose flush is complete are gone before the log is processed: the runs, the triggered actions and the metrics equal those of a freshly started engine with the same configuration. If moreover no upload is being negotiated and no flush is running, the engine agrees with the freshly started one in everything it does from then on.", "quantifier": "all histories before the change and all logs after it", "why_tests_cant": "leftover state may come from any history", "anchors": ["bd-workflows/src/engine.rs: WorkflowsEngine::process_log, clean_state"]}
{"id": "C37", "title": "Persisting and restoring workflow state changes nothing observable", "statement": "Saving the workflow state and loading it in a new process with the same configuration gives an engine that reacts to every later log sequence as the old one would have.", "quantifier": "all states, all continuations", "why_tests_cant": "equivalence over all continuations", "anchors": ["bd-workflows/src/engine.rs: WorkflowsEngine::start, StateStore, WorkflowsState::optimized"]}
{"id": "C38", "title": "Streaming after a flush sends each log where it was told and stops at the limit", "statement": "While a streaming action is active, a log that would go to one of its source buffers goes to its destination buffer instead, other destinations are unaffected, no log is lost by the rerouting, and streaming of an action whose flush is complete ends once the configured number of logs was streamed.", "quantifier": "all sets of streaming actions, all logs", "why_tests_cant": "several actions overlap in arbitrary ways", "anchors": ["bd-workflows/src/actions_flush_buffers.rs: Resolver::process_streaming_actions, make_streaming_action, meets_termination_criteria"]}
{"id": "C39", "title": "A flush action is pending at most once", "statement": "However often a flush action triggers while it is pending negotiation or streaming, it is sent for negotiation at most once at a time.", "quantifier": "all sequences of triggered actions", "why_tests_cant": "histories are unbounded", "anchors": ["bd-workflows/src/actions_flush_buffers.rs: Resolver::process_flush_buffer_actions"]}
{"id": "C40", "title": "Sankey paths are bounded and identified by what they contain", "statement": "A sankey path keeps at most its configured number of countable nodes, dropping the oldest first and marking itself trimmed, and two paths have the same identifier only if they contain the same nodes; a path already reported is not uploaded again while remembered.", "quantifier": "all sequences of extracted values and limits", "why_tests_cant": "unbounded sequences", "anchors": ["bd-workflows/src/workflow.rs: SankeyState::push, SankeyPath::calculate_path_id", "bd-workflows/src/sankey_diagram.rs: ProcessedIntents, Processor::process_sankey"]}
{"id": "C41", "title": "Log fields are unique and protected", "statement": "The fields attached to a log have no duplicate keys; platform fields win over fields passed with the log, which win over global fields, which win over fields from the provider; a custom field can never set a reserved name or a name starting with an underscore.", "quantifier": "all combinations of provided fields and histories of adding and removing global fields", "why_tests_cant": "unbounded field lists", "anchors": ["bd-logger/src/metadata.rs: MetadataCollector::normalized_metadata_with_extra_fields, add_field, remove_field"]}
{"id": "C42", "title": "A log is written to every buffer selected for it", "statement": "A processed log is written to every buffer in its destination set that accepts it, a buffer that is locked or full does not prevent the others from receiving it, and a log that triggers a flush is in one of the flushed buffers (itself or as a synthetic copy) or in a continuous buffer when the flush is requested.", "quantifier": "all destination sets and buffer outcomes", "why_tests_cant": "every subset of failing buffers matters", "anchors": ["bd-logger/src/log_replay.rs: ProcessingPipeline::process_log, write_to_buffers, process_flush_buffers_actions"]}
{"id": "C43", "title": "Blocking logs are durable when the call returns", "statement": "When a log was written with the blocking flag after configuration, the buffers it was written to have been flushed before the caller is released.", "quantifier": "all configurations and buffer routings", "why_tests_cant": "routing may differ from selection through streaming", "anchors": ["bd-logger/src/log_replay.rs: finish_blocking_log_processing"]}
{"id": "C44", "title": "App update events are reported exactly once per version change", "statement": "Over any sequence of app starts an update is reported exactly when the version differs from the one recorded at the previous start that checked, with the previous version attached, and reporting it again in the same version yields nothing.", "quantifier": "all sequences of app versions and calls", "why_tests_cant": "multi-process histories", "anchors": ["bd-logger/src/app_version.rs: Repository::has_changed, set"]}
{"id": "C45", "title": "Screenshots are requested one at a time", "statement": "A screenshot is requested from the platform only if no earlier requested screenshot is still outstanding and screenshots are enabled; requests arriving meanwhile are dropped and counted, never queued beyond one.", "quantifier": "all interleavings of requests, captures and flag changes", "why_tests_cant": "event interleavings are unbounded", "anchors": ["bd-session-replay/src/lib.rs: Recorder::run_with_shutdown, CaptureScreenshotHandler, ScreenshotLogInterceptor"]}
{"id": "C46", "title": "Network usage per minute counts each byte once", "statement": "The per-minute traffic attached to a resource log equals the traffic of all responses recorded since the earliest report within the last minute, each response counted once.", "quantifier": "all sequences of responses and reports at arbitrary times", "why_tests_cant": "sliding window over unbounded histories", "anchors": ["bd-logger/src/network.rs: MetricsContainer::get_summary_sample, HTTPTrafficDataUsageTracker"]}
{"id": "C47", "title": "Time rounding brackets the time", "statement": "Rounding a time down to an interval gives the latest multiple of the interval not after it, rounding up gives the earliest multiple not before it, and converting times and durations to protobuf and back changes nothing.", "quantifier": "all times and intervals", "why_tests_cant": "arithmetic over all values including negative times", "anchors": ["bd-time/src/lib.rs: OffsetDateTimeExt::floor, ceil, into_proto; TimestampExt"]}
{"id": "C48", "title": "Feature flags enable the configured fraction", "statement": "A feature flag with integer value n enables exactly n out of every 10000 equally likely random outcomes (none for 0, all for 10000 or more), and anything but an integer gives the default.", "quantifier": "all flag tables and all random values", "why_tests_cant": "probability claim over the whole random domain", "anchors": ["bd-runtime-config/src/feature_flags.rs: MemoryFeatureFlags::feature_enabled"]}
{"id": "C49", "title": "Message validation accepts exactly the valid messages", "statement": "Validation of a message succeeds exactly when every required oneof is set and every field at every depth satisfies its supported rules; a message with an unsupported rule on a validated field is never accepted silently.", "quantifier": "all message trees and rule sets", "why_tests_cant": "messages are trees of unbounded depth", "anchors": ["bd-pgv/src/proto_validate.rs: validate, validate_field"]}
{"id": "C50", "title": "Buffer set follows configuration", "statement": "After a configuration update the set of log buffers is exactly the set named in the configuration; buffers present before and after keep their contents, removed buffers are announced as removed exactly once and their files deleted, new ones announced as created exactly once.", "quantifier": "all sequences of configuration updates", "why_tests_cant": "histories of updates are unbounded", "anchors": ["bd-buffer/src/ring_buffer.rs: Manager::update_from_config"]}
{"id": "C51", "title": "A set-field filter without override never changes an existing field", "statement": "A set-field transform that is not allowed to override leaves the log unchanged whenever a captured or matching field of that name exists.", "quantifier": "all logs, fields and transforms", "why_tests_cant": "logs and field lists are unbounded", "anchors": ["bd-log-filter/src/lib.rs: SetField::apply, FieldProvider for Log"]}
{"id": "C52", "title": "A stream starts with its handshake and a killed client stays silent", "statement": "On every API stream the handshake is the first message sent, is sent once, and nothing else is sent before the server has answered it; requests are taken from the queue only after that; there is never more than one unanswered ping; any protocol error ends the task; after an authentication failure the client opens no stream again.", "quantifier": "all interleavings of responses, requests, timers, stream failures and shutdown", "why_tests_cant": "the events arrive in any order and any number", "anchors": ["bd-api/src/api.rs: Api::maintain_active_stream, wait_for_handshake, handle_responses, StreamState"]}
{"id": "C53", "title": "A previous-session override applies only to the previous session", "statement": "A log with attribute overrides is written with the session and time of the override, and the time of logging attached, exactly when the override names the session of the previous process; otherwise the log is dropped and only an internal log of the current session is written; logs without overrides carry the current session and the provider's time.", "quantifier": "all overrides, sessions and metadata", "why_tests_cant": "depends on persisted session state of another process", "anchors": ["bd-logger/src/async_log_buffer.rs: AsyncLogBuffer::process_log"]}
{"id": "C54", "title": "A flush request is acknowledged only after its buffers were flushed", "statement": "A flush request is acknowledged only after every buffer it names (every buffer and the stream buffer, if it names none) was flushed, and every request is acknowledged; the flush task serves requests until shutdown.", "quantifier": "all requests and buffer sets", "why_tests_cant": "any subset of buffers may be named", "anchors": ["bd-buffer/src/ring_buffer.rs: Manager::process_flushes"]}
{"id": "C55", "title": "A log is streamed to exactly the matching tail streams", "statement": "With tail streams configured a log is written to the stream buffer, once, with the ids of exactly the streams whose matcher is absent or compiles and matches; a stream whose matcher does not compile is ignored; if no stream matches it is not written.", "quantifier": "all stream configurations and logs", "why_tests_cant": "any number of streams and matchers", "anchors": ["bd-logger/src/client_config.rs: TailConfigurations::new, maybe_stream_log"]}
{"id": "C56", "title": "The aggregate buffer keeps draining until it is shut down", "statement": "The background thread that drains the memory ring into the disk ring does not leave its loop before shutdown sets its flag, whatever the producers and the readers do, as long as the file is not altered from outside.", "quantifier": "all histories of calls on the aggregate buffer, all ring sizes accepted by its constructor", "why_tests_cant": "depends on the relation of record sizes to both ring sizes", "anchors": ["bd-buffer/src/buffer/aggregate_ring_buffer.rs: flush_thread_func, RingBufferImpl::new"]}
{"id": "C57", "title": "The session of the previous process is reported faithfully (activity-based)", "statement": "With the activity-based strategy the identifier reported for the previous process is the last identifier handed out before the restart, and does not change within a process even when the session expires or a new one is requested.", "quantifier": "all sequences of calls, clock readings and restarts", "why_tests_cant": "histories over several processes are unbounded", "anchors": ["bd-session/src/activity_based.rs: Strategy::previous_process_session_id, session_id, start_new_session"]}
{"id": "C58", "title": "The list of metrics files is bounded", "statement": "The index of aggregation files never has more entries than the file limit, in memory or on disk; at the limit, also a lowered one, a new file replaces an old one.", "quantifier": "all histories of flushes, uploads, failures, crashes and limit changes", "why_tests_cant": "lengths along unbounded histories", "anchors": ["bd-client-stats/src/file_manager.rs: get_or_create_snapshot, remove_empty_snapshot"]}
{"id": "C59", "title": "The metrics flusher does not panic", "statement": "No sequence of flushes, uploads, responses, file system failures and restarts makes the flusher task panic.", "quantifier": "all histories, all values of the file limit", "why_tests_cant": "needs particular interleavings of flush, upload and response", "anchors": ["bd-client-stats/src/file_manager.rs: get_initialized, get_or_create_snapshot, complete_pending_upload", "bd-client-stats/src/stats.rs: Flusher::periodic_flush"]}
{"id": "C60", "title": "A flush writes what was recorded, an upload sends it, an acknowledgement removes it", "statement": "A flush in which nothing fails ends and leaves nothing in any metric of either collector; an upload sends the oldest file complete and with its period; an acknowledgement removes exactly that file, a refusal leaves it to be sent again.", "quantifier": "all reachable states of the flusher", "why_tests_cant": "all reachable states", "anchors": ["bd-client-stats/src/stats.rs: Flusher::flush_to_disk, create_delta_snapshot, upload_from_disk, process_pending_upload_completion", "bd-client-stats/src/file_manager.rs: FileManager"]}
{"id": "C61", "title": "Workflow runs stop at their limits and stay silent afterwards", "statement": "A run is stopped exactly by the log with which it exceeds its configured number of matched logs, or by a log that comes later than its configured duration after the first progress; the log that stops it triggers none of its actions, and no run ever counts more matched logs than its limit allows.", "quantifier": "all runs, all logs, all histories of the engine in which an update keeps the limit of a workflow identifier", "why_tests_cant": "histories are unbounded and several traversals count into the same run", "anchors": ["bd-workflows/src/workflow.rs: Run::process_log, RunResult"]}
{"id": "C62", "title": "A workflow never looks up a state or transition that does not exist", "statement": "A configuration accepted by the parser has at least one state and every transition of it names an existing state; while the engine runs, every traversal of every run points at an existing state and has one counter per transition of that state.", "quantifier": "all accepted configurations and all histories of the engine in which an update keeps the states of a workflow identifier", "why_tests_cant": "an index out of bounds needs a particular combination of update, restored state and log", "anchors": ["bd-workflows/src/config.rs: Config::new", "bd-workflows/src/workflow.rs: Traversal::new, Run::process_log"]}
{"id": "C63", "title": "An answered upload is no longer pending", "statement": "When the negotiation of a flush action is answered, with approval or rejection, the action is no longer pending, and the workflow can trigger it again.", "quantifier": "all histories of triggers, answers and configuration updates", "why_tests_cant": "answers arrive asynchronously, after any number of updates", "anchors": ["bd-workflows/src/engine.rs: WorkflowsEngine::run_once, on_log_upload_approved", "bd-workflows/src/actions_flush_buffers.rs: Resolver::standardize_pending_actions"]}
{"id": "C64", "title": "Buffers are flushed only with the server's consent", "statement": "Every buffer flush that the engine requests on behalf of a workflow belongs to an action whose negotiation the server answered with consent; an action identifier the server refused is never negotiated again by the same process; every action given to the negotiator is answered at most once.", "quantifier": "all histories of triggers, negotiations, answers, connection failures and configuration updates", "why_tests_cant": "the negotiator and the engine are separate tasks whose steps interleave without bound", "anchors": ["bd-workflows/src/actions_flush_buffers.rs: Negotiator::process_pending_action, perform_intent_negotiation", "bd-workflows/src/engine.rs: WorkflowsEngine::run_once, on_log_upload_approved"]}
{"id": "C65", "title": "Every pending flush action is being negotiated", "statement": "At any time every pending action is in the hands of the negotiator, so that it will be answered.", "quantifier": "all histories of triggers, answers and configuration updates, including restarts", "why_tests_cant": "an action can only get stuck through a particular interleaving of a full channel, an update and an answer", "anchors": ["bd-workflows/src/engine.rs: WorkflowsEngine::process_log, start", "bd-workflows/src/actions_flush_buffers.rs: Negotiator"]}
{"id": "C66", "title": "Progress that is considered stored is stored", "statement": "While the engine does not consider its state as changed, the file on disk holds what the engine would write: stopping the process then loses nothing.", "quantifier": "all histories of one process after its first write", "why_tests_cant": "every kind of change must set the flag, for every combination of workflows and actions, and a failed write must not clear it", "anchors": ["bd-workflows/src/engine.rs: WorkflowsEngine::maybe_persist, StateStore::maybe_store, WorkflowsState::optimized"]}
{"id": "C67", "title": "Every triggered metric is recorded exactly once per log", "statement": "For every log, each distinct metric action triggered by any run of any workflow is recorded once if its value can be read from the log and not at all otherwise, each triggered diagram with its path once, and nothing else is recorded; each record carries the identifier of its action as its only identifier tag (a diagram also the identifier of its path), and every other configured tag with the value of the configuration or of the field of the log, absent fields leaving the tag out.", "quantifier": "all engines, configurations and logs", "why_tests_cant": "duplicates arise from any number of workflows and runs sharing an action, and tags may collide with the reserved ones", "anchors": ["bd-workflows/src/metrics.rs: MetricsCollector::emit_metrics, emit_sankeys, extract_tags", "bd-workflows/src/engine.rs: WorkflowsEngine::process_log, prepare_actions"]}
{"id": "C68", "title": "A unary call returns what the handler returned", "statement": "A unary call ends, within its timeout, with the message the handler returned, or with the status code and message the handler returned, or with a transport error; never with a message when the handler failed and never with another message.", "quantifier": "all requests, handler results, header sets and transport failures", "why_tests_cant": "the space of messages, status texts and partial responses is unbounded", "anchors": ["bd-grpc/src/lib.rs: Client::unary, Client::common_request, unary_handler, Status::to_response"]}
{"id": "C69", "title": "A handler is called only with the one valid message of its request", "statement": "The handler of a unary or server-streaming call is called only if the body of the request is exactly one message that decodes and passes validation, and then with this message; every other request is answered with an error status.", "quantifier": "all request bodies, headers and divisions into chunks", "why_tests_cant": "bodies can be cut or extended anywhere", "anchors": ["bd-grpc/src/lib.rs: decode_request, unary_handler, server_streaming_handler, new_grpc_response"]}
{"id": "C70", "title": "A stream delivers what was sent, in order, and its real end", "statement": "The reader of a stream gets the messages that were sent, in order and without gaps, and it sees the stream end successfully only if the handler ended it successfully; an invalid message ends the stream with an error after the messages before it.", "quantifier": "all message sequences, divisions into chunks, ends and cuts of the connection", "why_tests_cant": "chunk boundaries and cuts are arbitrary", "anchors": ["bd-grpc/src/lib.rs: StreamingApiReceiver::next, StreamingApiSender::send, server_streaming_handler"]}
{"id": "C71", "title": "The tasks of the logger do not wait for each other for ever", "statement": "From every state the logger can reach, if the network is there, the server answers and no more input arrives, all of its tasks get back to waiting for input: every configuration update ends up applied or refused, every upload is answered or given up, every blocking call returns. No circular wait between the API task, the upload manager, an upload, the log buffer and the stats flusher is ever reached.", "quantifier": "All sequences of server messages (configurations adding and removing buffers, flush requests, answers), logs, blocking calls, timers, connection losses and task interleavings, of any length", "why_tests_cant": "A circular wait needs a particular interleaving of five tasks over channels of capacity one; tests run one scenario at a time and most of them replace all but one of the tasks.", "anchors": ["bd-logger/src/builder.rs: LoggerBuilder::build", "bd-logger/src/consumer.rs: BufferUploadManager::run, handle_buffer_event, CompleteBufferUpload, ContinuousBufferUploader", "bd-logger/src/service.rs: Uploader::call", "bd-api/src/api.rs: maintain_active_stream, handle_responses", "bd-buffer/src/ring_buffer.rs: Manager::update_from_config", "bd-logger/src/log_replay.rs: finish_blocking_log_processing", "bd-client-stats/src/stats.rs: Flusher::periodic_flush"]}
{"id": "C72", "title": "A configuration is applied as a whole or not at all", "statement": "A configuration that is answered without a nack is in force as a whole: the version reported at the next handshake is its nonce, the buffers that exist are the ones it names, the log buffer, once it has taken the updates handed to it, uses its selector, filters, workflows and streams with producers of these buffers, every buffer the selector can choose has a producer, and it is the one cached for the next start. A configuration that is refused changes nothing, the answer says so and names the version that is in force, and the flushing of buffers for blocking logs goes on working.", "quantifier": "All histories of process starts, configurations (valid, with matchers that do not compile, with buffers that cannot be created), logs processed at any moment in between, failing and torn writes", "why_tests_cant": "The parts of a configuration take effect in four places at different times; the error paths between them and the moments in which a log is processed in between multiply.", "anchors": ["bd-logger/src/client_config.rs: Config::process_configuration_update, try_apply_config, LoggerUpdate::apply_configuration", "bd-logger/src/logging_state.rs: BufferProducers::new", "bd-matcher/src/buffer_selector.rs: BufferSelector::new", "bd-buffer/src/ring_buffer.rs: Manager::update_from_config, process_flushes", "bd-logger/src/async_log_buffer.rs: AsyncLogBuffer::update"]}
{"id": "C73", "title": "Reconnecting is paced", "statement": "Between the starts of two streams to the server there is at least a minute, or half of the configured back-off interval; streams that live less than a minute make the interval grow by half up to the configured maximum; no delay exceeds the configured maximum.", "quantifier": "All histories of refused handshakes and streams of any lifetimes, all draws of the randomised delay, all changes of the two flags in between", "why_tests_cant": "The delay is random and the histories are unbounded; tests use a paused clock and few attempts.", "anchors": ["bd-api/src/api.rs: do_reconnect_backoff, maintain_active_stream, backoff_policy", "bd-runtime/src/runtime.rs: InitialBackoffInterval, MaxBackoffInterval"]}
{"id": "C74", "title": "The reported network quality follows the connection", "statement": "Offline is reported only after more than 15 seconds without a stream; online is reported exactly when a stream is established, and withdrawn within the grace period after it was closed.", "quantifier": "All histories of connection attempts with any durations", "why_tests_cant": "The states between two attempts depend on the drawn delays.", "anchors": ["bd-api/src/api.rs: maintain_active_stream, set_network_quality, DISCONNECTED_OFFLINE_GRACE_PERIOD"]}
{"id": "C75", "title": "Calls into the logger return, also from platform callbacks", "statement": "Whatever calls into the logger are made by any number of threads, and by platform code that the logger calls back (field providers, session callbacks, storage, error reporter) to any depth, every call returns, no thread panics, and in the end all locks are free and the queue is processed; a log made within a field provider is refused.", "quantifier": "All finite trees of calls and callbacks on any number of threads, all schedules, queue full or not at each call", "why_tests_cant": "Deadlocks and re-entrancy depend on the schedule and on code the embedder writes; tests use callbacks that do nothing.", "anchors": ["bd-logger/src/logger.rs: LOGGER_GUARD, with_thread_local_logger_guard, LoggerHandle", "bd-logger/src/async_log_buffer.rs: process_log, enqueue_log, flush_state", "bd-session/src/activity_based.rs: Strategy", "bd-session/src/fixed.rs: Strategy", "bd-device/src/lib.rs: Device::id", "bd-client-common/src/error.rs: handle_unexpected_error_with_details, SessionProvider"]}
{"id": "C76", "title": "The network task carries each stream in order and stays alive", "statement": "What the server gets of a stream is a prefix of what the api task sent on that stream, all of it while the stream is served; what the api task gets is a prefix of the response followed by one report of the end; neither task panics, and neither waits for the other for good.", "quantifier": "All interleavings of api task, network task and server over any number of streams, all answers of the server, all sizes", "why_tests_cant": "Which of the ready branches of select! runs is random, and the channels must be filled at the right moment.", "anchors": ["bd-hyper-network/src/lib.rs: start, process_stream, handle_outbound_data, handle_inbound_data, start_stream, send_data", "bd-api/src/api.rs: maintain_active_stream, wait_for_handshake"]}
{"id": "C77", "title": "Shutdown completes and is final", "statement": "After shutdown is called every task of the logger ends within a bounded number of steps once no more input arrives, whatever they were waiting for; a blocking call returns only when all have ended; afterwards nothing is uploaded or accepted; and without a call no task ends.", "quantifier": "All runs of the logger up to the call, all moments of the call, all interleavings afterwards, any number of calls and uploads", "why_tests_cant": "A shutdown can meet the tasks in any combination of waits; tests shut down an idle logger.", "anchors": ["bd-logger/src/logger.rs: shutdown", "bd-shutdown/src/lib.rs: ComponentShutdownTrigger, ComponentShutdown::cancelled", "bd-logger/src/builder.rs: build", "bd-logger/src/consumer.rs: BufferUploadManager::run, shutdown", "bd-logger/src/service.rs: Uploader::call", "bd-logger/src/async_log_buffer.rs: run_with_shutdown", "bd-client-stats/src/stats.rs: periodic_flush"]}
{"id": "C78", "title": "A stored value is read back", "statement": "A value written to the key-value store is returned by later reads of its key with its type, until it is overwritten; writing it as text loses nothing and every accepted text is the only text of its bytes; operations on other keys do not disturb it; a read that the platform refuses, or a damaged text, costs at most that read.", "quantifier": "All values of the stored shapes (strings of any length, integers, structures and enums of them), all keys, all sequences of operations, all refusals of the platform", "why_tests_cant": "Tests store one value in a map that never fails; the values of the two text formats are unbounded.", "anchors": ["bd-key-value/src/lib.rs: Store::set, Store::get, set_internal, get_internal, Storage", "bd-logger/src/app_version.rs: AppVersion", "bd-session/src/activity_based.rs: State", "bd-session/src/fixed.rs: State"]}
{"id": "C79", "title": "The device identifier is stable", "statement": "All calls for the device identifier, in all threads and in all processes on the device, return the same value.", "quantifier": "All sequences of calls, process ends and other uses of the store, all interleavings of several Device objects, all refusals of the platform", "why_tests_cant": "Tests ask twice in one process; failures of the platform between two processes are not tried.", "anchors": ["bd-device/src/lib.rs: Device::id, DEVICE_ID_KEY", "bd-key-value/src/lib.rs: Store::get, Store::set"]}
{"id": "C80", "title": "Unexpected errors are reported boundedly and accounted for", "statement": "In a process at most five unexpected errors reach a reporter, the first five unless reporting was disabled, each with its own text, details and session; every other one is dropped and counted; an error goes to the reporter in scope on its thread, otherwise to the one set last.", "quantifier": "All sequences of reports, changes of the reporter, scoped overrides, registrations and disabling, on any threads", "why_tests_cant": "The handler is one per process and tests share it; long histories and nested scopes are not tried.", "anchors": ["bd-client-common/src/error.rs: UnexpectedErrorHandler, with_reporter, report, MetadataErrorReporter, handle_unexpected_error_with_details"]}
{"id": "C81", "title": "Repeated warnings are spaced", "statement": "Two warnings of one place in the code are more than the given duration apart, and a call is silent only if a warning of the same place is at most that old.", "quantifier": "All sequences of calls with any times, durations and interleavings of threads", "why_tests_cant": "The number of warnings over an unbounded history is not observable in a test.", "anchors": ["bd-log/src/rate_limit_log.rs: WarnTracker::should_warn, log_every"]}
{"id": "C82", "title": "Equal messages have equal hashes and different ones different hashes", "statement": "Two messages that are equal, whatever the order in which their maps are iterated, feed the same bytes into the hasher; two messages of a type that are different feed different bytes.", "quantifier": "All messages of all types: any nesting, repeated fields, maps and scalars", "why_tests_cant": "Map iteration is random and collisions are rare; the test hashes one map.", "anchors": ["bd-proto-util/src/proto.rs: hash_message, hash_value, ProtoHashWrapper"]}
{"id": "C83", "title": "From the call to the upload", "statement": "A log accepted by the logger and meant for a continuous buffer is uploaded once, unaltered and in the order of acceptance; until then it is in exactly one place, and if it is not uploaded it is lost for one of the known reasons; it is removed from the file only after it was uploaded; from every state the program can go on to a state where nothing accepted is left behind.", "quantifier": "All numbers of senders, all interleavings of senders, log task, buffer thread and uploader, all configurations, filters and buffer selections, all deaths of the process and shutdowns", "why_tests_cant": "Needs the whole program, unbounded histories and a death of the process at every point; the integration tests upload a few logs.", "anchors": ["bd-logger/src/memory_bound.rs: Sender::try_send", "bd-logger/src/async_log_buffer.rs: run_with_shutdown, write_log, maybe_replay_pre_config_buffer_logs", "bd-logger/src/log_replay.rs: process_log, write_to_buffers", "bd-buffer/src/buffer/aggregate_ring_buffer.rs: flush thread", "bd-logger/src/consumer.rs: ContinuousBufferUploader"]}
{"id": "C84", "title": "A trigger buffer is uploaded completely, in order and once", "statement": "A triggered upload that runs to its end gives to the service exactly what the buffer held when it was requested, without the logs that are too old, in order; no log is uploaded twice, even by different processes; a log leaves the buffer only by being overwritten, being too old or being uploaded with success. Streamed logs are uploaded one by one in order and leave their buffer when their upload has returned.", "quantifier": "All histories of writes, moves to the file, requests, reads, upload results, errors and deaths of the process; all windows and batch limits", "why_tests_cant": "A death of the process at each point of an upload, and a shutdown during one, are not tested.", "anchors": ["bd-logger/src/consumer.rs: handle_trigger_uploads, CompleteBufferUpload, StreamedBufferUpload", "bd-buffer/src/ring_buffer.rs: Consumer::try_read, RingBuffer::new_consumer"]}
{"id": "C85", "title": "The platform event listener follows its flag", "statement": "After the listener has taken its turn, the last thing the platform was told is start if the flag is on, and stop or nothing if it is off; the calls alternate, beginning with start; after shutdown the platform is not called.", "quantifier": "All sequences of flag changes, turns of the loop and shutdown; any number of changes between two turns", "why_tests_cant": "Tests let the listener see every single change; coalesced changes depend on scheduling.", "anchors": ["bd-events/src/lib.rs: Listener::run_with_shutdown", "bd-runtime/src/runtime.rs: send_if_modified, Watch::changed"]}
{"id": "C86", "title": "Periodic reporters keep their interval", "statement": "The platform is called only while the reporter is enabled, never more often than the shortest configured interval allows, and, while enabled, within the longest; no value of the flags makes the task panic.", "quantifier": "All sequences of flag updates, passing of time and choices of the loop; all intervals", "why_tests_cant": "Tests use one interval and a paused clock; the number of calls over an unbounded history, and all flag values, are out of reach.", "anchors": ["bd-resource-utilization/src/lib.rs: Reporter::run_with_shutdown, create_interval", "bd-session-replay/src/lib.rs: Recorder::run_with_shutdown, create_interval", "bd-runtime/src/runtime.rs: Snapshot::get_duration"]}
{"id": "C87", "title": "The internal report counts every log once", "statement": "The log that carries a report says exactly how many logs of each type there were since the previous report and in total; all other logs are left alone; the reported counts of successive reports add up.", "quantifier": "All sequences of logs of all types and messages, all changes of the flag", "why_tests_cant": "Counts over an unbounded history with sixteen counters.", "anchors": ["bd-logger/src/internal_report.rs: Reporter::process, State::clear"]}
{"id": "C88", "title": "The configuration in use is that of the watched file", "statement": "Once the pending events are handled, the users of a watched file see the conversion of its present content, whenever it was changed; they never see anything that is not the conversion of a content the file has had.", "quantifier": "All sequences of changes of the file, watcher events, errors and turns of the task, all parsers and conversions", "why_tests_cant": "Races between the set-up of the watch, the first load and a rename; errors of the watcher cannot be provoked.", "anchors": ["bd-runtime-config/src/loader.rs: WatchedFileLoader::new_loader, load_config, shutdown"]}
{"id": "C89", "title": "Pointers to reservations are never dangling", "statement": "A producer's raw pointer is null or leads to its own uncommitted reservation on the queue; no cell that was popped is dereferenced; cells are on one list at a time; the queue of cells behaves like a list of reservations, so C01 to C04 hold for it.", "quantifier": "All sequences of calls by any number of producers and a consumer, all allocators", "why_tests_cant": "Undefined behaviour of reused cells shows up only in particular interleavings; the tests of the queue push and pop a few entries.", "anchors": ["bd-buffer/src/buffer/intrusive_queue_with_free_list.rs: map_mut, pop_front, emplace_back", "bd-buffer/src/buffer/volatile_ring_buffer.rs: ProducerImpl::reserve, ProducerImpl::commit"]}
{"id": "C90", "title": "The label limit of server metrics holds", "statement": "A tracker with limit max and n threads inside never stores more than max+n-1 labels; a metric with k label names gets at most (max+n-1)^k+1 series; a call gets its own labels or the fallback for all, the fallback only when the limit was reached; labels once accepted stay accepted; the labels in use over all names are within the limit.", "quantifier": "All limits, any number of threads interleaved at the atomic steps of the map, all sequences of calls with any names and values", "why_tests_cant": "The bound is met only under particular interleavings of many threads; tests call from one thread.", "anchors": ["bd-server-stats/src/stats.rs: LabelTracker::track_labels, LabeledMetricBuilder, LateInitializedMetric::get"]}
{"id": "C91", "title": "A server metric is identified by kind, name and labels", "statement": "The full name is the names of the scopes and its own joined by colons; an inner label wins; two uses work on the same metric exactly if kind, full name and labels coincide; what is gathered is the sum of all that was added; no request for a metric panics.", "quantifier": "All nestings of scopes, all sequences of uses with any names and labels", "why_tests_cant": "Tests use a handful of names; the claim is about all pairs of uses at any distance.", "anchors": ["bd-server-stats/src/stats.rs: Scope::final_labels, Scope::scope_with_labels, Scope::metric_name, Collector::gather_all"]}
{"id": "C92", "title": "Gauges held by guards count the guards", "statement": "The gauge is its value before plus the number of guards alive, at any time, whoever creates and drops them, and never negative.", "quantifier": "All interleavings of creation and destruction of guards of both kinds by any threads", "why_tests_cant": "Interleavings are not enumerated by tests.", "anchors": ["bd-server-stats/src/stats.rs: AutoGauge, StackAutoGauge"]}
{"id": "C93", "title": "The worker pool has the configured size", "statement": "The number of workers is that of the variable NUM_CPUS if numeric, else the number of processors of the host, and at least one.", "quantifier": "All values of the variable, all hosts", "why_tests_cant": "No test sets the variable.", "anchors": ["bd-rt/src/lib.rs: num_cpus, new_runtime"]}
{"id": "C94", "title": "What a message counts for covers its memory", "statement": "The size a message or a log counts for in the bounded queues is at least the memory it takes, and within a constant factor of it, so the memory of a queue stays within a constant factor of its capacity.", "quantifier": "All messages with any number of fields and any lengths and capacities; all platforms whose type sizes satisfy the stated inequalities; all runs of the channel", "why_tests_cant": "Tests compare a few sizes with literals.", "anchors": ["bd-logger/src/size.rs: MemorySized", "bd-logger/src/async_log_buffer.rs: MemorySized for AsyncLogBufferMessage, LogLine, Log", "bd-logger/src/memory_bound.rs: Sender::try_send, Receiver::recv"]}
{"id": "C95", "title": "A log is read back from a buffer as it was written", "statement": "The buffer made from a log reads as exactly this log: level, type, message and fields with their kinds and order, session, time to the nanosecond, ids; the shared builder is as new after every log, whatever the output does; different logs have different buffers; a triggered upload drops a log exactly if it is older than the window; no content of a ring buffer makes the upload panic.", "quantifier": "All logs with any number of fields and ids and any contents and times; all sequences of logs through one builder with any failures of the outputs; all windows", "why_tests_cant": "Tests encode a few logs with one or two fields; times before the epoch, default values left out, and failing outputs in between are not covered.", "anchors": ["bd-client-common/src/fb.rs: make_log, root_as_log, string_or_bytes_union, create_string_vector", "bd-proto/src/flatbuffers/buffer_log_generated.rs: Log, Field, StringData, BinaryData, Timestamp", "bd-logger/src/consumer.rs: CompleteBufferUpload::run"]}
{"id": "C96", "title": "The server counts its connections and waits for them", "statement": "The counter is the number of connections accepted and the gauge the number of those still served; a shutdown stops accepting, tells every connection once, cuts none, and returns when all have finished; the server does not return while connections are served.", "quantifier": "All sequences of accepted sockets, accept errors, shutdown, finishing connections and scheduling of their tasks; any number of connections", "why_tests_cant": "Tests have one connection and one order of events.", "anchors": ["bd-grpc/src/axum_helper.rs: serve_with_connect_info_ex", "bd-shutdown/src/lib.rs: ComponentShutdown, ComponentShutdownTrigger"]}
{"id": "C97", "title": "Pings follow the interval the server asks for", "statement": "On a stream, a ping is sent only after a handshake that asks for an interval, never while the one before is unanswered, and the interval after the handshake or pong before it: not earlier, and not later if the task is polled in time. A stream that asks for none has no pings. No interval the server sends makes the task fail, and a peer that does not answer is noticed.", "quantifier": "All sequences of streams, handshakes with any settings, pongs (also unsolicited), other traffic, timer firings and passing time", "why_tests_cant": "Tests have one ping with one interval; they neither let pings compete with other traffic nor send odd intervals.", "anchors": ["bd-api/src/api.rs: StreamState::initialize_stream_settings, StreamState::maybe_schedule_ping, Api::maintain_active_stream, Api::handle_responses"]}
{"id": "C98", "title": "From the ring in memory through the file to the upload nothing is lost, byte for byte", "statement": "In a continuous buffer every record a producer committed is overwritten in memory, still in memory, in the file, or was given to an upload that returned a result; records reach the file and the uploads in order and with the bytes stored; what is not acknowledged is still in the file, also after the process ends, and the next uploader starts with the oldest such record; reading and acknowledging never fail.", "quantifier": "All interleavings of any number of producers, flushers, the flush thread and the uploader, all limits and results of uploads, shutdowns at any await, any number of processes one after the other on the same file; all ring sizes and contents", "why_tests_cant": "Tests use lists of a few logs, one process and one order of events, and never look at the file below the uploader.", "anchors": ["bd-logger/src/consumer.rs: ContinuousBufferUploader", "bd-buffer/src/buffer/aggregate_ring_buffer.rs: SharedData, RingBufferImpl", "bd-buffer/src/buffer/non_volatile_ring_buffer.rs: CursorConsumerImpl", "bd-buffer/src/ring_buffer.rs: Manager, RingBuffer::create_continous_consumer"]}
{"id": "C99", "title": "The engine's own counters add up", "statement": "In every process: workflows, runs and traversals started are those there are, completed and stopped (for runs and traversals also discarded with a session, where the code counts nothing); advanced, completed and matched mean what they say for every log; every log observes the number of active traversals, never above the limit; every refused intent or flush request is counted once.", "quantifier": "All histories of starts, configuration updates, logs of any sessions, negotiations and saves, any number of workflows, runs and traversals; all limits; which sends are refused", "why_tests_cant": "Tests compare a handful of counters after hand-written logs and never sum them up; the leaks need a session change, a smaller limit at start or a run stopped while it forks.", "anchors": ["bd-workflows/src/engine.rs: WorkflowsEngineStats, WorkflowsEngine::process_log, WorkflowsEngine::add_workflow, WorkflowsEngine::remove_workflow, WorkflowsEngine::clean_state", "bd-workflows/src/workflow.rs: WorkflowResultStats, Workflow::process_log, WorkflowResult::incorporate_run_result"]}
{"id": "C100", "title": "The server is told which configurations are in use", "statement": "What a server reads from the bytes every stream starts with is the platform's metadata, the versions of the logger configuration and of the runtime in use in this process, and why the stream before ended, once; every configuration update is answered exactly once and in order, the answer names the version in use, and refuses the update if it was not applied; after a restart that loads a stored configuration the first stream names its version; a version in use stands for what the server sent under it.", "quantifier": "All histories of process starts and deaths, streams, data with any responses in any order, disconnects, failing applications, writes, reads and sends; all metadata, version nonces (any bytes) and reasons", "why_tests_cant": "Tests look at one handshake with one nonce and never at the merged bytes; refusals followed by a reconnect, or a restart between update and handshake, are not covered.", "anchors": ["bd-api/src/api.rs: Api::handshake_request, Api::handle_responses, Api::wait_for_handshake, Api::maintain_active_stream, impl ConfigurationUpdate for RuntimeManager", "bd-api/src/payload_conversion.rs: impl MuxResponse for ApiResponse, unwrap_response", "bd-logger/src/client_config.rs: Config::try_apply_config, Config::partial_handshake", "bd-metadata/src/lib.rs: Metadata::collect", "bd-proto/src/protos/client/api.rs: HandshakeRequest"]}
{"id": "C101", "title": "The checksums of the ring file detect short errors and interrupted calls", "statement": "The file's CRC-32 tells apart any two contents that differ within 32 consecutive bits, so a record with up to four consecutive bytes changed, or a changed stored checksum, costs exactly that record, and a header with one index or its checksum changed is refused at opening; a process that dies inside a call leaves a file that is refused or holds what was readable before or after the call.", "quantifier": "All byte strings and bit strings of any length, all histories of the buffer and sizes of the file, all places and values of the change, all calls and all numbers of stores performed before the process dies; both widths of the discriminant", "why_tests_cant": "Tests flip one byte of one header and one record; a collision needs specific sizes of records and a crash between two stores.", "anchors": ["bd-buffer/src/buffer/non_volatile_ring_buffer.rs: do_crc32, compute_header_crc_32, write_header_crc32, per_record_crc32, RingBufferImpl::new"]}
{"id": "C102", "title": "A stored workflow state is read back exactly or not at all", "statement": "The file that a start of the workflow engine reads yields exactly the state of the last write that reached the disk whole, or no state: never a mixture, a truncated or an altered state, and the process never ends because of the file. A save that is counted as a success leaves a readable file and starts the interval; one counted as a failure does not. A write or a start that fails does not lose what was stored before.", "quantifier": "all states (any number of workflows, runs, traversals, flushes and streams, all strings and numbers in range); all sequences of saves, loads and process starts; every byte at which a write stops or a process dies; all memory sizes; for foreign files, all byte sequences", "why_tests_cant": "A test writes a state or two and reads them back; truncation at each byte, the order of sets, times before 1970 and lengths beyond memory over all states are beyond a list of cases.", "anchors": ["bd-workflows/src/engine.rs: StateStore, WorkflowsState", "bd-workflows/src/workflow.rs: Workflow, Run, Traversal, SankeyState", "bd-workflows/src/actions_flush_buffers.rs: PendingFlushBuffersAction, StreamingBuffersAction"]}
{"id": "C103", "title": "Generated messages survive the wire", "statement": "For every message type of the protocol, the code that reads, writes and measures it agrees with the embedded descriptor: what is written is an encoding under the descriptor of exactly the computed length, every encoding of a message (fields in any order, unknown fields between them, packed fields in pieces, numbers not in the shortest form) is read as that message, unknown fields included, and no bytes are the encoding of two messages. Of a field that occurs more than once the last one counts, of a oneof the last of all its fields, of a map the last for each key. A reader of a version in which fields were added or are missing reads the common fields with their values on all levels and keeps the others as unknown fields. So what a client frames, compressed or not and cut anywhere, is read by the server as the same messages; uploads reach it with their identifiers and exactly their logs.", "quantifier": "all 190 message types of bd-proto; all messages of any size, with any unknown fields, nested as deep as the recursion limit; all encodings of them; all pairs of versions of the protocol of which one adds fields to the other; all sequences of messages on a stream and all ways to cut it", "why_tests_cant": "Each of the about thousand arms of generated code is written three times with literal tags and sizes; a test round-trips a few messages through one implementation and never meets another order, an unknown field or a long form.", "anchors": ["bd-proto/src/protos/client/api.rs: merge_from, compute_size, write_to_with_cached_sizes, file_descriptor_proto_data", "bd-proto/src/protos/workflow/workflow.rs: the same", "bd-logger/src/service.rs: LogUploadRequest", "bd-api/src/payload_conversion.rs: into_api_request", "bd-grpc-codec/src/lib.rs: Encoder, Decoder"]}
{"id": "C104", "title": "A file that was not written to the end is not used", "statement": "For every message the client stores (logger configuration, runtime configuration, kill file, statistics): what was written to the end is read back as it was; of a file whose writing ended after any number of bytes nothing is used, or what it holds is, as far as it is used, what was written. In particular a logger configuration that is tried from its file, with its version, was applied with success before.", "quantifier": "all messages of the protocol, all numbers of bytes that reached the disk, all histories of starts, updates and failing or cut writes, all outcomes of applying", "why_tests_cant": "tests write whole files or a fixed piece of garbage; the cut that matters depends on the contents, and for an uncompressed message some cuts are valid messages", "anchors": ["bd-logger/src/client_config.rs: process_configuration_update, try_load_persisted_config_helper", "bd-client-common/src/file.rs: write_compressed_protobuf, read_compressed_protobuf", "bd-runtime/src/runtime.rs: try_load_cached_config, cache_update", "bd-proto/src/protos/client/api.rs: ConfigurationUpdate, RuntimeUpdate"]}
{"id": "C105", "title": "Metrics are the same in memory, in their file and at the server", "statement": "For every set of metrics (names and labels any strings, counters of 64 bits, histograms of any values or sketches): the file written for it and read back gives the identifier of the upload and exactly these metrics, for every order in which the hash maps of metrics and of labels are passed through; the index gives the names of the files and their periods; of a file or index that was cut anywhere nothing is read; and the uploads that are sent reach the server with their identifiers, exactly their metrics, their periods and the times they were sent, compressed or not and however the stream is cut. A counter that an older version wrote in the deprecated field is added.", "quantifier": "all sets of metrics, all identifiers, all orders of the hash maps, all numbers of bytes that reached the disk, all sequences of uploads, all ways to cut the stream", "why_tests_cant": "tests compare a few counters; an empty name, a negative number of seconds, a value of all 64 bits, a counter of zero or labels in another order are special cases of the encoding", "anchors": ["bd-client-stats/src/stats.rs: SnapshotHelper, into_proto, metrics_from_snapshot", "bd-client-stats-store/src/lib.rs: MetricData::to_proto, MetricData::from_proto", "bd-client-stats/src/file_manager.rs: write_index, write_snapshot, get_or_create_pending_upload", "bd-api/src/api.rs: handle_data_upload"]}
{"id": "C106", "title": "The counters of a ring buffer agree with what its callers saw", "statement": "For every history of calls on a volatile or persistent ring buffer, with any number of producers, waits, alterations of the file and restarts: the counters of records and bytes written are those of the committed records, those of records and bytes read are those of the records handed out and finished (a corrupt record that was passed is counted as corrupt and as read), the totals exceed them by the fixed overhead of each record, and every record that was refused for lack of space without the ability to overwrite is counted as refused, once, with its bytes.", "quantifier": "all sizes of the buffer, all configurations (checksums, overwriting, blocking on a concurrent read), all sequences of calls by any number of producers and a consumer or cursor consumer, all alterations of the memory and all restarts", "why_tests_cant": "tests check the counters after a handful of calls; which branch counts depends on the combination of modes, waits, corruption and interleaving", "anchors": ["bd-buffer/src/buffer/mod.rs: RingBufferStats", "bd-buffer/src/buffer/common_ring_buffer.rs: start_reserve_common, advance_next_read_due_to_write, advance_next_commited_write_start, finish_read_common, on_total_data_loss", "bd-buffer/src/buffer/volatile_ring_buffer.rs: reserve, commit", "bd-buffer/src/buffer/non_volatile_ring_buffer.rs: reserve, commit, common_consumer_start_read, finish_read, advance_read_pointer"]}
{"id": "C107", "title": "gRPC streams on one thread do not disturb each other", "statement": "Every stream of a thread gives the results (frames sent, messages received, errors) that it would give if it were the only one, also if the streams share the zlib objects of the thread.", "quantifier": "all zlib libraries, all numbers of stateless and stateful streams and all interleavings of opening, sending and receiving arbitrary bytes", "why_tests_cant": "the sharing shows only for interleavings of several streams, and only after particular failures of the library", "anchors": ["bd-grpc-codec/src/lib.rs: Encoder::encode_compressed, Decoder::decompress, COMPRESSOR, DECOMPRESSOR", "bd-grpc-codec/src/lib.rs: Encoder::encode, Decoder::decode_data"]}
{"id": "C108", "title": "Byte counters of gRPC streams are exact on both ends", "statement": "The counters of a stream are the bytes handed to the network, their size without compression, the messages sent, the bytes received and the payloads handed to the parser; a registered counter is the sum over the registered streams of all they counted, before and after they were registered; the receiver has received as many bytes as the sender sent, and its decompressed bytes are the uncompressed bytes of the sender less five for each message.", "quantifier": "all zlib libraries, all histories of any number of streams, all messages and all ways to cut the bytes into chunks", "why_tests_cant": "counts are kept back until registration and come from several places; errors depend on the interleaving with decoding errors and chunk boundaries", "anchors": ["bd-grpc-codec/src/stats.rs: DeferredCounter", "bd-grpc-codec/src/lib.rs: Encoder::encode, Decoder::decode_data, initialize_stats", "bd-grpc/src/lib.rs: StreamingApiSender::send, send_raw, initialize_stats", "bd-api/src/api.rs: StreamState::new"]}
{"id": "C109", "title": "Nobody sleeps on a ring buffer for something that has happened", "statement": "A thread asleep in a blocking read has nothing to read and there is no shutdown; a producer asleep in a reservation could not go on if it were woken; who sleeps until the reservations are drained sleeps only while there is one.", "quantifier": "all sizes and configurations of both ring buffers, all interleavings of producers, consumer, waiters, locks, shutdown, drops, alterations of the file and restarts", "why_tests_cant": "a lost wake-up shows only for the one interleaving in which the condition changes on a path that does not notify", "anchors": ["bd-buffer/src/buffer/common_ring_buffer.rs: Conditions, advance_next_read_due_to_write, start_read, finish_read_common, shutdown_common", "bd-buffer/src/buffer/volatile_ring_buffer.rs: commit, await_reservations_drained", "bd-buffer/src/buffer/non_volatile_ring_buffer.rs: reserve, commit, finish_read, advance_read_pointer, await_reservations_drained, shutdown, Drop for ProducerImpl, ConsumerImpl and CursorConsumerImpl"]}
{"id": "C110", "title": "An asynchronous read ends or waits, and waits only without data", "statement": "The loop of the asynchronous read of a cursor consumer reaches, within a bounded number of rounds, a result or its wait; while it waits there is no record for it, and the next committed record wakes it.", "quantifier": "all states of the persistent ring buffer, all histories before it and all calls by others in between", "why_tests_cant": "an endless loop needs a particular corruption of the file while records are read and not acknowledged", "anchors": ["bd-buffer/src/buffer/non_volatile_ring_buffer.rs: CursorConsumerImpl::read, inner_start_read, common_consumer_start_read", "bd-buffer/src/buffer/common_ring_buffer.rs: start_read, on_total_data_loss, maybe_do_total_data_loss_reset", "bd-logger/src/consumer.rs: CompleteBufferUpload, ContinuousBufferUploader"]}
{"id": "C111", "title": "A locked buffer is complete and does not change", "statement": "While a ring buffer is locked no reservation is granted; after the wait for open reservations nothing is added to it or changed in it until the lock is released. After lock, wait and flush of an aggregate buffer every record is in the file, overwritten or dropped, the file gets no further record, and its readers get exactly those records; in a file that overwrites such a flush returns as soon as the flush thread has run.", "quantifier": "all sizes and configurations, all interleavings of producers, flush thread, readers, flushers and lock holders before and during the lock", "why_tests_cant": "a record that slips in under the lock needs a producer at exactly the wrong place, and its only effect is an upload that contains something it should not", "anchors": ["bd-buffer/src/buffer/mod.rs: LockHandle, RingBuffer::lock", "bd-buffer/src/buffer/common_ring_buffer.rs: lock_common, LockHandleImpl, start_reserve_common, advance_next_read_due_to_write", "bd-buffer/src/buffer/volatile_ring_buffer.rs: await_reservations_drained", "bd-buffer/src/buffer/non_volatile_ring_buffer.rs: reserve, await_reservations_drained", "bd-buffer/src/buffer/aggregate_ring_buffer.rs: lock, flush, shutdown", "bd-buffer/src/ring_buffer.rs: new_consumer"]}
{"id": "C112", "title": "Switching workflows or filters off and on takes effect", "statement": "When the workflows flag is off and the log task has slept since, or a configuration came, no log is processed by workflows and no flush is requested until the flag is on again. When the filters flag has a value and the log task has slept since, every log is processed with the filters of the last configuration, or without filters. When the workflows flag is on and the log task has slept since, every log is processed with the workflows of the last configuration. Logs from before the first configuration are processed with that configuration and the flags of the moment. No log is ever processed with an older configuration.", "quantifier": "all histories of runtime updates, configurations, logs, approvals and polls of the log task", "why_tests_cant": "the flags change while the task is busy with something else; which of several ready branches is taken is random", "anchors": ["bd-logger/src/log_replay.rs: ProcessingPipeline::new, update, run", "bd-logger/src/async_log_buffer.rs: update, maybe_replay_pre_config_buffer_logs", "bd-runtime/src/runtime.rs: Watch"]}
{"id": "C113", "title": "A flush the engine asks for reaches the uploader once, or is counted", "statement": "Every flush request of the workflows engine is given to the uploader at most once, in order and with its buffers, or counted as refused; none disappears. The engine sends a new request for an action only when the last one is over. No step takes a request backwards, and every request is over after at most twelve steps of the pipeline and the uploader and the end of its uploads.", "quantifier": "all histories of approvals, polls of the log task, requests of the server, uploads, failures and the end of the uploader", "why_tests_cant": "two channels of different capacity lie between the engine and the uploader, filled by several tasks", "anchors": ["bd-workflows/src/engine.rs: on_log_upload_approved", "bd-logger/src/log_replay.rs: ProcessingPipeline::run, update", "bd-logger/src/consumer.rs: BufferUploadManager::run, handle_trigger_uploads", "bd-logger/src/logging_state.rs: TriggerUploadStats"]}
{"id": "C114", "title": "The engine runs the workflows it was told to run", "statement": "At every moment the workflows the engine runs are those of the configuration given last, each once and no others. An update keeps the state of the workflows that did not change and begins anew with those that are new or changed. A new process runs the workflows of its configuration, each from what was stored for it.", "quantifier": "all histories of starts, updates, logs, negotiations and saves; all lists of workflows", "why_tests_cant": "an update combines two lists by identifiers in hash maps while removing from one of them; the cases are combinations of lists and states", "anchors": ["bd-workflows/src/engine.rs: WorkflowsEngine::update, add_workflows, add_workflow, remove_workflow, start"]}
{"id": "C115", "title": "Workflows do not influence each other", "statement": "As long as the limit on traversals is not hit, which the engine counts, every workflow is in the state it would be in if it was the only one, and what is emitted is what the workflows would emit each by itself.", "quantifier": "all histories of one process, from any stored state, with updates; all workflows; all limits", "why_tests_cant": "non-interference compares a process with others that get different configurations, over all histories", "anchors": ["bd-workflows/src/engine.rs: WorkflowsEngine::process_log, update", "bd-workflows/src/workflow.rs: Workflow::process_log, maybe_add_run"]}
{"id": "C116", "title": "A workflow is run as its message says, or left out", "statement": "A workflow message that is complete is run exactly as written: its states and their names, where each transition leads, which logs it waits for and how many, its actions with their tags, buffers and limits, what it extracts and up to which limit; in a running workflow a transition is followed with the log that completes its number, or after its time. A message that is not complete is left out as a whole, and the others of the same configuration are not affected.", "quantifier": "all workflow messages, with all matchers, tags, actions and limits; all logs", "why_tests_cant": "the conversion drops, reorders and replaces (maps, sets, the least limit, names by indices, diagrams by limits found elsewhere); tests compare a few messages", "anchors": ["bd-workflows/src/config.rs: WorkflowsConfiguration::new, Config::new, State::try_from_proto, Transition::new, SankeyExtraction::new, Action::try_from_proto, Streaming::new, ActionEmitMetric::new, ActionEmitSankey::try_from_proto", "bd-log-matcher/src/matcher.rs: Tree::new", "bd-workflows/src/workflow.rs: Traversal::process_log"]}
{"id": "C117", "title": "Every buffer is uploaded by one task, its own", "statement": "No buffer is read by two uploads. Once the events of a configuration were taken, every continuous buffer and the stream buffer has exactly one running upload task reading the very buffer in use, a request finds the trigger buffer in use under its name and starts one upload of it if none is running, and no upload reads a buffer that was removed. Starting an upload never fails and the upload manager ends only with the shutdown, which ends all uploads.", "quantifier": "all histories of configurations with distinct buffer ids, successful or not, interleaved in any way with the upload manager taking events, requests and completions, uploads ending or failing, and the shutdown", "why_tests_cant": "needs all interleavings of two components that exchange events; which buffers exist, which tasks run and which consumers are registered are kept in different places", "anchors": ["bd-logger/src/consumer.rs: BufferUploadManager::run, handle_trigger_uploads, handle_buffer_event, shutdown, new_continous_consumer, new_trigger_consumer", "bd-buffer/src/ring_buffer.rs: Manager::update_from_config, resolve_buffer_updates, resolve_stream_buffer_update", "bd-buffer/src/buffer/non_volatile_ring_buffer.rs: register_consumer, register_cursor_consumer"]}
{"id": "C118", "title": "Opening a buffer file gives its records or an empty buffer", "statement": "With valid sizes, and a system that does not fail, a buffer can be opened whatever is on the disk. A file left by a buffer of the same size is kept as it is, with the records that were not read; any other file gives a buffer that behaves as a new one in every history of calls. A file of the right length with a damaged header, and no other, is reported as deleted. A file in order is never changed by an opening that fails, in whatever way; invalid sizes are refused before the disk is touched. Processes that die at any point of an opening change none of this.", "quantifier": "all contents of the disk, all parameters, all failures of the system calls, all histories of calls before and after, any number of processes dying at any point of the opening", "why_tests_cant": "needs files in every state, including those of processes that died between two stores, and all later histories on memory with old bytes", "anchors": ["bd-buffer/src/ring_buffer.rs: RingBuffer::new, make_buffer", "bd-buffer/src/buffer/aggregate_ring_buffer.rs: RingBufferImpl::new", "bd-buffer/src/buffer/non_volatile_ring_buffer.rs: RingBufferImpl::new"]}
{"id": "C119", "title": "Writes of the workflow state do not overlap", "statement": "At any time at most one write of the workflow state file is in progress. When the engine considers its state stored, the file holds exactly that state and goes on doing so until the engine writes again. Whenever the process ends, the next one finds the file as it was at the start of this one, no state, or exactly one state that the engine had, and never a mixture of two.", "quantifier": "All histories of state changes, calls of maybe_persist (periodic or forced), drops of the future of run at any point, and interleavings of the calls of create and write of all writes handed to the blocking pool; all states and all capacities of the buffered writer.", "why_tests_cant": "The race needs a log to arrive between the start and the end of a write on another thread; the tests wait for every write, and their states are small.", "anchors": ["bd-workflows/src/engine.rs: WorkflowsEngine::maybe_persist, run_once, StateStore::maybe_store, store", "bd-logger/src/async_log_buffer.rs: AsyncLogBuffer::run_with_shutdown"]}
{"id": "C120", "title": "A change of the workflow state is stored within bounded time", "statement": "After a change of its state the engine stores it at the latest after the periodic interval plus the smallest interval between writes (plus what the task is late), or with the next blocking log or flush of the state, whatever else the log task does meanwhile.", "quantifier": "All histories of logs (blocking or not, changing the state or not, with failing writes to the buffers), flushes, field and configuration messages, answers of the server and ends of the sleep, at any times; all intervals, the one between writes changing at any time.", "why_tests_cant": "The delay depends on when every message arrives relative to a sleep that is restarted by each of them; tests advance a paused clock with nothing else going on.", "anchors": ["bd-workflows/src/engine.rs: WorkflowsEngine::maybe_persist, run, run_once, StateStore::maybe_store", "bd-logger/src/log_replay.rs: ProcessingPipeline::process_log, run", "bd-logger/src/async_log_buffer.rs: AsyncLogBuffer::run_with_shutdown"]}
{"id": "C121", "title": "A trigger buffer leaves the device only with the server's consent, and then completely", "statement": "Whatever is uploaded from a trigger buffer was asked for by the server in a flush request naming the buffer, or belongs to an action that names the buffer, comes from a workflow the server has configured, and to which the server has said yes; and an upload that the manager takes up gives the service exactly what the buffer held then.", "quantifier": "All histories of any number of processes: configurations, logs, negotiations with any answers, stored and restored actions, engines replaced, requests from the server, lost requests (full channels), uploads of any buffers side by side, failing uploads, restarts at any point.", "why_tests_cant": "The consent passes through six tasks and four channels, and through the file the pending actions are stored in; each part is tested alone with the next one mocked.", "anchors": ["bd-workflows/src/engine.rs: WorkflowsEngine::on_log_upload_approved, run_once", "bd-workflows/src/actions_flush_buffers.rs: Negotiator, Resolver::process_flush_buffer_actions", "bd-logger/src/log_replay.rs: ProcessingPipeline::run", "bd-api/src/api.rs: FlushBuffers", "bd-logger/src/consumer.rs: BufferUploadManager, CompleteBufferUpload"]}
{"id": "C122", "title": "A log is marked offline only when there is no network", "statement": "A log is marked offline exactly if it is of a type that is marked and the last word about the network is that the API task has been without a stream for more than 15 seconds; no log is marked while a stream is up, and none, that of the response included, right after an HTTP response with a status code was logged.", "quantifier": "All histories of connection attempts with any delays, interleaved with any logs of any types and fields, the API task writing between any two interceptors of a log.", "why_tests_cant": "Two tasks write the same cell and a third step reads it; tests set the cell by hand.", "anchors": ["bd-logger/src/network.rs: NetworkQualityInterceptor::process, HTTPTrafficDataUsageTracker::process_http_response_log", "bd-api/src/api.rs: SimpleNetworkQualityProvider, maintain_active_stream", "bd-logger/src/async_log_buffer.rs: interceptors"]}
{"id": "C123", "title": "Every server stream is counted once when it begins and once when it ends", "statement": "At any time the streams counted as begun are those counted as successes, those counted as failures and those in progress; a success is a handler that returned Ok, a failure a request that is not valid or a handler that returned an error; every message given to a stream is counted; the client is told success only if a success is counted, and is told at most once; the error handler is called for the failed handlers only.", "quantifier": "All histories of any number of streams side by side: requests read or not, messages, clients that go away at any point, handlers that return, fail or panic, the end of the runtime.", "why_tests_cant": "The counters are incremented in the request future and in a task of its own, each of which can vanish at any wait; tests follow one stream to its end.", "anchors": ["bd-grpc/src/lib.rs: server_streaming_handler, StreamingApiSender::send_raw_inner, send_error, send_ok_trailers, decode_request"]}
{"id": "C124", "title": "The upload service stays within its rate and goes on", "statement": "In any stretch of time the bytes sent to the server, repeated attempts included, are at most the quota and one upload for each period begun, and one period more; an upload that is held back is sent when the period is over, in the order in which the uploads came.", "quantifier": "All histories of any number of uploads side by side, of any sizes, with any results, delays and drops, any order in which the runtime polls them, and any (also changing) quotas, periods and retry limits.", "why_tests_cant": "The permit, the sleeps and the retries are in different layers shared by all buffers; tests have one upload at a time on a paused clock.", "anchors": ["bd-logger/src/service.rs: new, Uploader::call, RetryPolicy::retry", "bd-logger/src/ratelimit.rs: RateLimit::call, try_acquire_ratelimit_permit, RateLimitLayer::new"]}
{"id": "C125", "title": "A log belongs to the session it was logged in, and the logs of a session are one block", "statement": "With the activity-based strategy, a log carries the session that was current when it was logged; between two uses of a session, by logs or callers, there is no use of another one, also across restarts, so that the workflows, which forget everything when the session of a log differs from that of the log before, keep the progress of a session until it ends.", "quantifier": "All histories of logs waiting in the queue for any time, sessions ended by time, by the clock going back or by the application, restarts, lost state, overrides of the previous session.", "why_tests_cant": "The session is decided in another task than the call, any time later; tests wait for the queue to be empty before they start a session.", "anchors": ["bd-logger/src/async_log_buffer.rs: AsyncLogBuffer::process_log", "bd-logger/src/logger.rs: LoggerHandle::start_new_session, session_id", "bd-session/src/activity_based.rs: Strategy", "bd-workflows/src/engine.rs: WorkflowsEngine::process_log"]}
{"id": "C126", "title": "The decoder of gRPC frames can go on after an error", "statement": "When a frame cannot be used (its payload cannot be decompressed, comes compressed without a decompressor, or is no message), the decoder reports the error, has delivered the messages in front of it, and goes on with the frame after it. A payload is decompressed exactly if its flag is 1.", "quantifier": "All inputs cut into chunks in any way, all decompressors and parsers, all states of the decoder between frames.", "why_tests_cant": "The state kept between calls matters only for a second call after an error; tests stop at the first error.", "anchors": ["bd-grpc-codec/src/lib.rs: Decoder::decode_data, Decompressor::decompress"]}
{"id": "C127", "title": "With the fixed strategy a process has one session, and the logs of a session are one block", "statement": "With the fixed strategy, a process in which the application does not start a session has one; a log carries the session that was current when it was logged; between two uses of a session, by logs or callers, there is no use of another one, also across restarts and when sessions cannot be stored, as long as the callback does not return an identifier twice; a log about the previous process carries the session that process handed out last.", "quantifier": "All histories of logs waiting in the queue for any time, sessions started by the application, calls from inside the callback, restarts, failed writes, overrides of the previous session; all identifiers of the callback.", "why_tests_cant": "The session is decided in another task than the call, any time later, with identifiers made by foreign code; tests call the strategy directly.", "anchors": ["bd-session/src/fixed.rs: Strategy::session_id, start_new_session, previous_process_session_id, generate_session_id", "bd-logger/src/async_log_buffer.rs: AsyncLogBuffer::process_log", "bd-logger/src/logger.rs: LoggerHandle::start_new_session, session_id"]}
