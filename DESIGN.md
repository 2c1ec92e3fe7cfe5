# Design: a Lean 4 model of bitdriftlabs/shared-core

`/repo` is read as text; nothing of it is built or run.  This file says what is modelled and what is
not, what is trusted, how each property is stated and proved, and where the code does not have the
property.  The two tables at the end (violations, axioms per theorem) are produced from the Lean
sources and from `#print axioms`.

## 1. Layout

* `lean/Verif/<Area>/` – one directory per part of the code.  Files without the suffix `Props`,
  `Lemmas`, `Inv`, `Sim`, `Step` are models: total Lean functions, definition by definition, each
  citing the file and lines in `/repo` it models and the simplifications made.
* `…Props.lean` – the property theorems (`Cxx_…`).  Beside each there is an `example` showing a
  concrete non-trivial case that meets the hypotheses.
* `…_violated` – a theorem exhibiting an execution in which the code does not have the property as
  stated in `properties.jsonl`; the part that does hold then carries the suffix `_partial`.
* `properties.jsonl` – the claims.  `MANIFEST.json` – claim → status and theorems.
  `seeded/LOG.jsonl` – wrong programs the theorems were tested against.

  How to read `seeded/LOG.jsonl`.  `killed` means that the build failed with the edit, not by itself that a property
  statement is false for the edited model: a proof that follows the text of a definition can break by any edit of it.
  The field `failed_directly` tells them apart: `property theorem` or `example` (of about 1360 entries, some 540 and 230),
  or `helper lemma only` (some 530).  A sample of 30 of the last kind was checked by hand and all of them were screened by
  their descriptions.  13 were found that no property statement excluded; they are now marked `survived`, with the theorem
  added for each under `tightened`, and the edit was run again.  14 contradict no listed property and are marked
  `equivalent`.  Two could not be decided (field `audit`).  For the rest of the last kind, `killed` is a weaker evidence
  than for the first two.

## 2. Conventions

* `&mut self` becomes a function returning the new state; `Result` and `Option` stay data; a panic is
  an explicit value of the result; loops become folds, structural or well-founded recursion.
* Unsigned integers are `Nat`.  Where a wrap or a checked addition matters for a property (reserve
  sizes, the memory-bound queue, the rate limiter) the check is modelled.
* What runs under one lock, or between two `await`s of one task, is one step.  Concurrency is a list of
  steps in any order; theorems quantify over all such lists.  Where the order of single loads and
  stores matters (memory-bound queue, crash of the mapped file) each of them is a step.
* The environment is an input: clocks, server answers, write failures, torn writes, process deaths,
  random identifiers, task scheduling, verdicts of matchers where only their value matters.
* External functions (CRC-32, SHA-256, zlib, snappy, regex) are parameters, protobuf coding too outside area Wire; what is
  assumed of them is a hypothesis of the theorem that needs it, never an axiom.
* Specifications are written without the helpers of the model, so that an error in a helper cannot
  weaken the property along with the code.

## 3. What is modelled

| Area | Code | Modelled | Not modelled |
|---|---|---|---|
| Buffer (volatile) | bd-buffer `common_ring_buffer.rs`, `volatile_ring_buffer.rs`, `intrusive_queue_with_free_list.rs` | memory as bytes, all indices, the reservation queue, reserve / write / commit / start_read / finish_read, discarding, locking, who sleeps on which condition variable and who is woken (C109) | spurious wake-ups, the order in which woken threads get the lock is any |
| Buffer (mapped file) | `non_volatile_ring_buffer.rs` | file layout, header and record checksums, opening and validating, cursor and plain consumers, corruption of the file, crash between any two stores | mmap, power loss (only process death), page order |
| Buffer (aggregate) | `aggregate_ring_buffer.rs` | both rings together with the flush thread, flush, shutdown | thread start and join |
| Mgr | bd-buffer `ring_buffer.rs` | update from configuration, events, flush requests, files on disk | file names and directory creation details |
| Queue | bd-logger `memory_bound.rs`, `pre_config_buffer.rs`, `async_log_buffer.rs` (replay) | every atomic operation of senders and receiver; buffering and replay | – (`size.rs`: area Size) |
| Log | bd-logger `metadata.rs`, `async_log_buffer.rs`, `log_replay.rs`, `client_config.rs` (tail) | normalised metadata, overrides, routing of a log to buffers and streams, blocking logs | – (flatbuffer coding: area Fb) |
| Match | bd-log-matcher, bd-matcher, bd-log-filter | matcher trees, version order, buffer selector, filters | regex engine (a verdict), `f64` parsing (partial: order of numbers as given) |
| Upload | bd-logger `consumer.rs`, `service.rs`, `ratelimit.rs` | batches, continuous and triggered uploads, retry, rate limit | back-off times (only their number) |
| Api | bd-api `api.rs`, `upload.rs` | handshake, mux of the stream, tracked acknowledgements, kill, reconnect back-off, network quality, ping timers | headers (handshake: area Sync), conversion of protobuf durations |
| Grpc | bd-grpc-codec, bd-grpc | frame coder and decoder, the zlib objects shared by the streams of a thread, byte counters, unary calls, streams, status trailers | hyper, axum, TLS, HTTP/2; a header map is a list |
| Pgv | bd-pgv `proto_validate.rs` | all supported rules on message trees | reflection (a message is a tree), `build.rs` |
| Session | bd-session, bd-key-value | both strategies with their stored state | base64 and protobuf of stored values |
| Startup | bd-runtime `runtime.rs`, bd-logger `client_config.rs`, bd-api `api.rs` (kill) | cached configurations and retry counts with crashes; runtime values and watches; the files byte by byte, cut anywhere (`Files`) | zlib is a pair of functions with its laws as hypotheses |
| Stats | bd-client-stats, bd-client-stats-store, bd-stats-common | collectors, handles, snapshots, file manager, flusher task, uploads, crash of the process; metrics as bytes in the files, the index and the upload (Bytes) | sketches (a list of observations), timer drift |
| Workflow | bd-workflows | config, traversals, runs, workflows, engine, limits, flush actions, negotiation, streaming, sankey, persistence | log sampling of diagnostics (counters: Meter; bytes of the file: Snapshot) |
| Tasks | `api.rs`, `consumer.rs`, `async_log_buffer.rs`, `stats.rs`, `actions_flush_buffers.rs` | which task waits for which on bounded channels | contents of messages, shutdown of the whole logger |
| Net, App, Time, Flags | bd-logger `network.rs`, `app_version.rs`, bd-session-replay, bd-time, bd-runtime-config `feature_flags.rs` | complete for the property | – |
| Stamp (in Session) | bd-logger `async_log_buffer.rs` (`process_log`), `logger.rs` (sessions), bd-session `activity_based.rs` | the strategy with its callers, the queue and the log task, restarts | the content of logs (Log) |
| StampFixed (in Session) | the same with bd-session `fixed.rs` | the strategy with its callback, its callers, the queue and the log task, restarts | how the application makes identifiers (inputs); the content of logs |
| Service (in Upload) | bd-logger `service.rs` (`new`, `Uploader`, `RetryPolicy`), `ratelimit.rs` (`RateLimit::call`) | any number of uploads, the shared limiter, sleeps, retries, drops, with times | the way of an attempt to the server (Api); the length of backoffs |
| Streams (in Grpc) | bd-grpc `lib.rs` (`server_streaming_handler`, `StreamingApiSender`) | any number of streams, their counters, clients and handlers that vanish | what is sent (Call, Ends) |
| Offline (in Net) | bd-logger `network.rs` (both interceptors), bd-api `api.rs` (network quality) | the cell with its two writers and its reader, the API task of Reconnect | other interceptors |
| Consent (in Flow) | the tasks and channels between bd-workflows `engine.rs`, `actions_flush_buffers.rs`, bd-logger `log_replay.rs`, `consumer.rs`, and bd-api `api.rs` | Negotiate, Trigger (Upload) and Trigger (Flow) composed, any number of processes | the content of a buffer removed and created again |
| Staleness (in Workflow) | bd-workflows `engine.rs` (`run_once`, `maybe_persist`, `maybe_store`), bd-logger `log_replay.rs`, `async_log_buffer.rs` | the restarted sleep, both intervals, every kind of turn of the log task, with times | writes take no time and succeed |
| Writers (in Workflow) | bd-workflows `engine.rs` (`maybe_persist`, `maybe_store`, `store`), the select of bd-logger `async_log_buffer.rs` | writes in the blocking pool interleaved call by call, waits that are dropped | failing writes (Snapshot); one process |
| Open (in Buffer) | bd-buffer `RingBuffer::new`, `AggregateRingBuffer::new`, `RingBufferImpl::new` of the persistent buffer | the file as length, header and memory; every system call may fail; death at any store | lock outside of `new`; invalid option tags in the header |
| Uploader (in Mgr) | bd-logger `consumer.rs` (`BufferUploadManager`), with bd-buffer `ring_buffer.rs` `Manager` | events, requests, completions, tasks and their triggers, registered consumers, in any interleaving | what the tasks read and send (Upload, Flow); waiting for a task to end (Tasks) |
| Message (in Workflow) | bd-workflows `config.rs` | the conversion of workflow messages with actions, tags, streaming limits, matchers, extractions and diagrams | parsing of the message itself (Wire); error texts |
| Fb (in Log) | bd-client-common `fb.rs`, the generated `buffer_log_generated.rs`, bd-logger `consumer.rs` (age of a log) | objects, tables and slots, defaults left out, required slots, the open table and finished buffer rules of the builder, the verifier with its table limit | the byte layout of crate flatbuffers |
| Server | bd-server-stats `stats.rs`, bd-rt `lib.rs`, bd-grpc `axum_helper.rs` | the label tracker with threads at its atomic steps, scopes and the registry, guards of gauges, the size of the worker pool, the accept loop | the registry of crate prometheus is its documented rule; hyper connections finish when an input says so |
| Size (in Queue) | bd-logger `size.rs`, `async_log_buffer.rs` (`MemorySized`) | what every message counts for, with the sizes of the types as parameters | what channel ends share with the other end |
| Report | bd-events, bd-resource-utilization, bd-session-replay (screens), bd-logger `internal_report.rs`, bd-runtime-config `loader.rs` | the loops with every choice of ready branch, tokio intervals, watch channels with coalescing, the file watcher | what the platform does when called; parsing of YAML is a parameter |
| Intrusive (in Buffer) | bd-buffer `intrusive_queue_with_free_list.rs` | cells, addresses, free list, allocator as an input | the linked lists of the crate are lists |
| Flow | the way of a log: bd-logger `memory_bound.rs`, `async_log_buffer.rs`, `log_replay.rs`, `consumer.rs` | composed from Queue, Log, Upload: any interleaving of all parts and any deaths of the process | the rings are two lists (C98 has the byte level rings under the uploader); one buffer; encoding is a parameter |
| Flow (rings) | bd-buffer `aggregate_ring_buffer.rs` and both rings, bd-logger `consumer.rs` (continuous uploader) | the byte level rings, the flush thread and the uploader in one transition system, over any number of processes | a second consumer of the file, changes of the file by others |
| Meter (in Workflow) | bd-workflows `engine.rs` (`WorkflowsEngineStats`), `workflow.rs` (`WorkflowResultStats`) | all counters of the engine beside the engine model, the histogram as its observations | timers, overflow of counters |
| Sync (in Api) and Handshake (in Proto) | bd-api `api.rs` (pipelines, handshake, metadata), `payload_conversion.rs`, bd-metadata, bd-logger `client_config.rs` | the bytes of the handshake with merging, demultiplexing, both configuration pipelines with their stored files, answers, reasons of disconnects, counters, composed from Api, Startup and Handshake | text of errors; other fields of the handshake are never set |
| Checksums (in Buffer) | `non_volatile_ring_buffer.rs` `do_crc32`, `compute_header_crc_32`, crate crc32fast | CRC-32 bit by bit, what the header hashes | tables and special instructions of the crate |
| Snapshot (in Workflow) | bd-workflows `engine.rs` `StateStore`, the serialised types | bincode byte for byte for every stored type, interrupted and failing writes, foreign files, counters, interval | a length beyond memory is an abort (`mem` is a parameter); bincode of a `Vec` reserves at most 1 MiB at once (serde), so only strings abort |
| Wire (in Proto) | bd-proto `protos/*` (generated) | `merge_from`, `compute_size`, `write_to_with_cached_sizes` of all 190 messages as one function of a table; tables from the code, schema from the embedded descriptors, both by `tools/protos.py` (trusted as an extraction, like any transcription) | groups, recursion into groups, cached size cells, reflection, JSON |
| Store | bd-key-value `lib.rs`, bd-device `lib.rs` | base64 and bincode byte for byte, all operations with all refusals of the platform, several Device objects interleaved | UTF-8 validity is a parameter; rfc3339 text of the session state |
| Errors | bd-client-common `error.rs`, bd-log `rate_limit_log.rs` | the global handler, scopes per thread, the counter, the metadata reporter; the tracker of warnings | what reporters do; panics inside reporters |
| Proto | bd-proto-util `proto.rs` | the bytes fed into the hasher for any message | protobuf reflection itself, SHA-256 |
| Shutdown (in Tasks) | `Logger::shutdown`, bd-shutdown, `BufferUploadManager::shutdown`, `Uploader::call`, the end of each task of `builder.rs` | what each task still does after the signal, refused sends, dropped triggers, failure of one task | intents and Sankey senders (hold no handle); the network stream |
| Hyper (in Api) | bd-hyper-network `lib.rs`, with the loop of bd-api `api.rs` | every wait of the network task and the api task, the three channels, many streams | HTTP/2, TLS; what the api task makes of data is an input |
| Reentry (in Tasks) | bd-logger `logger.rs`, bd-session, bd-device, bd-client-common `error.rs` | locks, the guard and flag against re-entrancy, blocking calls, platform code as arbitrary call trees | values, work after the log is processed |
| Conf | bd-logger `client_config.rs`, `logging_state.rs`, bd-matcher `buffer_selector.rs` | the way of a configuration from the server or the file through the manager to the log buffer, composed from Mgr, Log, Startup | workflows and filters are opaque, waiting on the channel |
| Switch (in Tasks) | bd-logger `log_replay.rs` (`new`, `update`, `run`), `async_log_buffer.rs`, `consumer.rs` (trigger channel), bd-workflows `engine.rs` `on_log_upload_approved` | the runtime flags with their watch channels, replacement of the pipeline by configurations, filters, the engine with its channel of flush requests, the uploader's answers | the content of configurations and of workflows; what a flush uploads |

Not modelled at all: bd-noop-network, bd-internal-logging, bd-panic, bd-profile, the `profiling`
program, the reflection part of generated protobuf code, test helpers, and tokio, parking_lot and the standard library
themselves.

## 4. Assumptions made explicit

* *Mapped file after a crash (C05–C08).*  Stores of an index field are atomic, stores reach the file in
  program order, and a crash ends the process, not the machine.  The header checksum separates the
  different index fields seen during one call (`NoCollide`, a hypothesis).
* *Sankey identifiers (C40).*  SHA-256 is treated as injective: an identifier is the hashed text.
* *gRPC (C18, C68–C70, C107, C108).*  The codec's parser undoes its serialiser and the decompressor undoes its
  compressor (hypotheses).  `HeaderValue` accepts visible ASCII; percent-coding as in `urlencoding`.
* *Validation (C49).*  The default of an enum is a defined value; durations are seconds and nanos.
* *Tasks (C71).*  One step per completed wait; fairness is not assumed – the theorems say what the
  states without further steps look like and bound the number of steps.
* *Stored values (C19, C57, …).*  A value that was written and not lost is read back equal.

## 5. Trusted base

* Lean's kernel (4.33.0) and the elaborator only as far as it hands terms to the kernel.
* Axioms: at most `propext`, `Classical.choice`, `Quot.sound`; table in section 8.  No axiom is added,
  no `sorry`, `admit`, `native_decide` or `bv_decide` is used.  Witnesses use `decide +kernel`, which
  is kernel reduction.
* The tie between model and code is by reading only; section 3 says what was left out.

To check: `cd lean && lake build`, then `vcheck`.

## 6. How each property is proved

| Id | Title | Status | Method and remarks |
|---|---|---|---|
| C01 | Volatile ring buffer is a FIFO of committed records | proved | Ghost queue of records in ring order; invariant tying indices to the layout; refinement to an abstract queue by induction over the op list. All interleavings of API calls, any number of producers; bytes agree with what the producer stored. A record whose reader is dropped without finishing is read again by the next consumer (not counted as delivered twice: delivery = finish_read). |
| C02 | Memory handed out is exclusively owned | proved | Corollary of the layout invariant. |
| C03 | Reserve accepts exactly the requests that fit | proved | Decision table by case analysis under the invariant. Exact decision table including the condition for ResourceExhausted. |
| C04 | Overwriting discards only the oldest records and only when needed | proved | Refinement. Volatile ring buffer (always overwriting). |
| C05 | A non-overwriting persistent ring buffer never loses committed records | proved | The same core in blocking mode with cursor reads; refinement. For calm histories (no consumer going away in the middle of a read, no alteration of the file, abandoned reservations only with record checksums). C05_refines_spec covers every history, up to an altered size field or a confused cursor, against a queue specification. C05_midread_violated and C05_uncommitted_violated show what the code does outside. |
| C06 | Cursor reading does not consume until acknowledged | partial | Refinement. Missing, because false: a reservation abandoned by a crash in front of a cursor consumer, a second registration in one process with unacknowledged records (witnesses). |
| C07 | A crash loses nothing that was committed or the whole file, never a mixture | proved | Sequence of single stores, crash after any of them, reopening; simulation by case split on the crash point. All histories of calls and earlier crashes with plain consumers; with cursor consumers for calm histories. Assumes that index fields are stored atomically and in program order and that the header checksum separates the index fields seen during one call (with CRC-32 that can fail, see C101_crash_violated; C101_crash_partial needs no such assumption). The two violated theorems show the exceptions named in the statement: an interrupted overwrite and, without record checksums, a reservation in flight. |
| C08 | Corrupt records are never delivered | partial | Checksum as a parameter, corruption as an input of the refinement. The check is proved for both reader kinds after any history. That every other record is still delivered is proved for plain consumers; it is false for cursor consumers (witness). |
| C09 | The aggregate buffer moves records to disk in order | proved | Both byte-level rings composed with the flush thread; invariant over the op list. All interleavings of producers, flush thread, readers, flush and shutdown calls over the byte-level models of both rings. C09_flush_hangs shows that a flush need not return (the statement only speaks about flushes that return). |
| C10 | The queue into the logger respects its byte and count budget under every interleaving | proved | Every atomic operation is a step; invariant over all interleavings. Any number of senders, interleaved at every atomic operation. |
| C100 | The server is told which configurations are in use | partial | Invariant relating the state to folds over what an observer sees; bytes of the handshake parsed back; refinement of the stream model. Handshakes, answers, restarts and content of versions are proved over any number of processes and streams, down to the bytes of the handshake. Missing, because false: the answer to a refused logger configuration names the refused version as the one applied last (`C100_nack_violated`). |
| C101 | The checksums of the ring file detect short errors and interrupted calls | partial | The remainder as an injective linear map: a window of 32 bits is a bijection on the state; lifted to histories by C08 and C07; collision found by search, checked by the kernel. CRC-32 is modelled bit by bit; short errors in records and headers are proved for all histories and sizes. Crashes are proved without assumptions on the checksum for calls that change at most one index (`C101_single` says which). Missing, because false: a call that changes two indexes can leave a header whose checksum matches by accident (`C101_crash_violated`: two committed records are lost without an error); for the other calls C07 holds as long as no such accident happens. |
| C102 | A stored workflow state is read back exactly or not at all | partial | Laws of codecs (reads back with any rest, refuses each proper prefix) closed under pairs, options, sequences, ordered sets and maps; a simulation between the file and the state an observer expects. The bytes of bincode for all types of the state, and the store over any number of processes: what is read is exact, the counters are right, and the engine's model (C66) is refined. Missing, because false: a length beyond memory in the file ends every start; a run that began before 1970 makes all saves fail; a save that fails or is interrupted destroys the state before it; a start that cannot open the file deletes it. |
| C103 | Generated messages survive the wire | proved | Invariant of the reading loop: the sorted list of what was read so far, equal field by field to what the items say; a table agrees with a schema by evaluation in the kernel (a finite check of all tables, not of messages). The tables of all 190 messages are extracted from the three generated functions and from the embedded descriptors by tools/protos.py, two independent sources that C103_tables compares; the general theorems hold for every table that agrees with a schema. Compression is a parameter assumed to invert; UTF-8 validity is a parameter. |
| C104 | A file that was not written to the end is not used | partial | More input does not change what was read, so a cut within a field is refused; induction over the fields; invariant of the history: the file is a beginning of what was written after a success. Proved for the logger configuration (uncompressed: every cut is refused or leaves the whole configuration with its version, since the version is written first; over all histories) and for every compressed file (for the kill file down to the decision at the next start), given that zlib refuses a non-empty part of a stream. Violated for the runtime configuration: the fallback to the uncompressed format undoes the check for an empty file (and takes the two bytes of the zlib header for an unknown field), so an empty configuration is loaded as if it had been stored and written back (C104_runtime_violated); what a longer part says as an uncompressed message is not excluded (C104_runtime_partial). |
| C105 | Metrics are the same in memory, in their file and at the server | proved | The messages fit their types, field by field, so the round trip of C103 and the cut of C104 apply; reading a built message gives back each part, sorting undoes the order of a hash map. Given that zlib refuses a non-empty part of a stream, that the encoding of a sketch can be undone and that the compression of the stream can be undone. |
| C106 | The counters of a ring buffer agree with what its callers saw | partial | An observer that sees only calls and results keeps its own account; an invariant relates each counter to it over every step, for the volatile buffer on top of the refinement to the queue. Proved for the volatile buffer without exception, and for all counters of the persistent one except the refusals with Unavailable. Violated there: a request that does not wait and finds no space in a buffer that may not overwrite is refused with Unavailable and not counted (C106_refused_violated); refusals because all data was lost are counted, their bytes with up to the overhead of the record in addition (C106_persistent_partial). Overwritten records are counted in C02 and C03. |
| C107 | gRPC streams on one thread do not disturb each other | partial | Two runs, of all streams and of one alone, kept alike by induction as long as the shared objects are fresh; the violation by an invariant that the object stays bad. Proved for every history in which no call of the zlib library failed. Violated otherwise: the objects of the thread are given a new state only after a success, so one compressed message that cannot be decompressed makes every later compressed message of all stateless streams of the thread an error. |
| C108 | Byte counters of gRPC streams are exact on both ends | proved | Counters against an observer of calls and results, by induction over the history; the two ends through the round trip of C18, with the object of the thread in the state of the codec. For every library of serialisation and compression; the statement about both ends assumes that decompression undoes compression. No stream is registered twice (debug_assert in the code). |
| C109 | Nobody sleeps on a ring buffer for something that has happened | partial | Invariant over all histories of calls and wake-ups: what a sleeper waits for is still missing; what reading leaves alone is shown step by step. The violations are states that every further history keeps. Proved in full for the volatile buffer and for readers of the persistent one; for producers and waiters of the persistent buffer when none of these happens while they sleep. Missing, because false: a reader that finds all data lost empties the buffer without waking the producer, and both sleep until a shutdown (loss); the drop of a consumer does not wake the producer that waits for its read (consumer_drop); the drop of a producer with its reservation does not wake who waits for the reservations to end (producer_drop). Flushes that hang are in C09. |
| C11 | Logs before configuration are replayed once, in order, within limits | proved | Induction over events. |
| C110 | An asynchronous read ends or waits, and waits only without data | partial | A round without a result ends with the buffer marked as not readable, unless a reset is pending; the mark implies that there is nothing to read, by induction over the history. The endless loop is an invariant under the calls of all others. Two rounds suffice unless the reset after a total data loss is pending. Missing, because false: if the size of the next record is destroyed while earlier records are read and not acknowledged, the loop goes round for good without waiting (spin), since only the same consumer could acknowledge them. |
| C111 | A locked buffer is complete and does not change | partial | While locked the list of granted reservations keeps its length, and without open ones no call changes it; the ledger of C09 then leaves no room for another record in the file. The flush: a measure that every step of the flush thread lowers and no other step raises. Proved in full for the volatile and the aggregate buffer, which are the ones locked by the logger. For the persistent buffer by itself when no producer is inside `reserve`. Missing, because false: a producer that sleeps in `reserve` when the lock is taken gets its reservation under the lock, after `await_reservations_drained` returned. |
| C112 | Switching workflows or filters off and on takes effect | partial | Invariant: if the pipeline disagrees with a flag, the version it has seen is not the current one, so it does not sleep; the states off, on and knowing are kept by all other steps. Switching off, the filters, the first configuration and the absence of old configurations are proved. Missing, because false: workflows that were switched off stay off after being switched on, until the next configuration comes (C112_on_violated); C112_on_partial is the statement from a configuration that comes while the flag is on. |
| C113 | A flush the engine asks for reaches the uploader once, or is counted | partial | Each step is one of eight moves of requests; the list of what was handed over is a sublist of what was asked for, and a rank of each request never rises. At most once, in order, and progress are proved for all histories. That no request disappears and that there is one request per action at a time is proved for histories in which workflows are not switched off. Missing, because false: when workflows are switched off and on, the requests in the old channel are lost without being counted (C113_kept_violated), and the new engine asks for a flush although the old one's is going on (C113_one_violated). |
| C114 | The engine runs the workflows it was told to run | partial | Invariant: the configurations are a permutation of those given last, identifiers agree with the states beside them; permutations of lists without repetitions are equality of sets. Proved for lists in which each identifier occurs once, for all histories. Missing, because false: with an identifier twice, the same configuration given again stops a workflow, and a workflow can go on being run twice (C114_twice_violated); and a workflow that was changed between two processes goes on from the state of the old one (C114_restart_violated), which the check in `update` is there to prevent. |
| C115 | Workflows do not influence each other | proved | Two passes over the runs of a workflow agree in all but the count when neither hits the limit; a relation between the process with all workflows and each process with one is kept by every step. C115_each_log: the same for what a single log adds to the emissions. C115_alone: processes that start without stored state. C115_restored: one process that starts from any stored state, which the processes with one workflow also find; runs of the stored state that are dropped because of the limit are hits of it. The limits of the processes with one workflow are arbitrary. |
| C116 | A workflow is run as its message says, or left out | partial | Structural comparison of message and configuration, list by list; sorted lists are determined by their elements; the meaning of matchers from C29, what a traversal does from C35. The conversion is proved in full, down to the meaning of each matcher (C29), and that running it follows the message. Missing, because false: a transition that waits for a time is accepted and never followed (C116_timeout_violated; the code has a TODO there). |
| C117 | Every buffer is uploaded by one task, its own | partial | Two invariants: what a listener believes from the events is what the buffer manager has; tasks, triggers and maps of the upload manager agree with what was announced in the events taken so far. Induction over the interleaving. Everything is proved for all interleavings except one point that is false: an upload task that returned an error is never replaced (C117_failed_violated), so C117_follow_partial is for histories without such an error. |
| C118 | Opening a buffer file gives its records or an empty buffer | partial | Case analysis on the file; an empty header over any memory is related to the empty queue, so all theorems about histories apply; invariant over interrupted openings. Proved for every disk and every failure. Interrupted openings are proved for parameters that stay the same. Missing, because false: when the size changes, two interrupted openings can leave a file that looks in order and has lost a record (C118_resized_violated). |
| C119 | Writes of the workflow state do not overlap | partial | Invariant over all interleavings of writers (every file content is a state followed by a rest, which the decoder ignores); for histories without drops an invariant with at most one job; two violations proved for all pairs of states. Violated by the code: maybe_store hands the write to the blocking pool, and the future that waits for it in WorkflowsEngine::run is a branch of the select! of the log buffer, so it is dropped when a log arrives while the write goes on. For all states a, b: the file can end with a although b was stored and reported as stored (C119_stale_violated), also after a blocking log; and for states larger than the capacity of the BufWriter with a mixture that is read without an error (C119_mixed_violated). Proved: for states that fit into one write, under all overlaps, the file is as at the start, unreadable, or exactly one state of the engine (C119_state_partial); for histories in which no wait is dropped, one write at a time and the file holds the stored state (C119_stored_partial). All writes succeed in this model (failures: C66, C102). |
| C12 | Upload batches partition the logs | proved | Induction over the logs and over arbitrary runs. Triggered uploads with limits that may change at every log; the continuous uploader for arbitrary runs. |
| C120 | A change of the workflow state is stored within bounded time | partial | Timed histories; while a change is missing in the file no write happened since, so every call of maybe_persist was too early; induction over the rest of the history. Missing, because false: messages that do not reach maybe_persist (fields, configurations, answers) start the periodic sleep anew, so a steady stream of them keeps a change in memory for any length of time (C120_steady_violated, for all intervals). Proved: the bound counted from the later of the change and the last such message (C120_bounded_partial), that blocking logs and flushes store everything (C120_forced), and that nothing is written needlessly or too soon (C120_sparing). Writes take no time and succeed here (C119, C66). |
| C121 | A trigger buffer leaves the device only with the server's consent, and then completely | proved | Invariant of the composed system: every request in a channel, every job and every running task goes back to a request of the server or a consent, every consent to a configured action (Origin); completeness by projecting the run on one buffer and C84. The models of C39/C64 (engine and negotiator), C16 (manager) and C84 (buffer and task) composed with the channels between them. The intent sent to the server names the action and only the first of its buffers; the consent is for the action. C121_complete: for a known buffer that is not being uploaded already; requests lost in a full channel are in C113. |
| C122 | A log is marked offline only when there is no network | partial | The cell holds offline iff the last event that writes it is the declaration of the API task (induction over the history); C74_offline for the projection on the API task. Missing, because false: an attempt of the API task that begins right after a response takes the word of the response back, and says offline (the comment in network.rs expects unknown), so the next log is marked (C122_answered_violated); begun between the two interceptors, it marks the log of the response itself (C122_own_violated). Proved: the exact condition of the mark, what it says about streams, and no mark after a response until the next attempt. |
| C123 | Every server stream is counted once when it begins and once when it ends | partial | Counters equal the numbers of calls in each phase (induction over the history, one call changed per event); per-event theorems. Missing, because false: a stream whose handler panics and a stream whose request is dropped while it is being read are never counted as ended (C123_panic_violated, C123_dropped_violated); the same holds for tasks stopped with the runtime. Messages are counted when they are given to the stream, not when they leave it. |
| C124 | The upload service stays within its rate and goes on | partial | Bytes begun since a moment are bounded by refills since then times quota and one upload, plus what the current period used; refills are more than a period apart (invariants over the history, relative to any earlier state). Missing, because false: the rate limiter is the outer layer, so repeated attempts need no permit and are sent on top of the quota (C124_retries_violated); an upload can be overtaken by later ones period after period (C124_order_violated, for any number of periods). Proved for first attempts in any stretch of time; for all attempts with the factor of the retry limit. C124_spin: at the very end of a period the loop goes round without waiting. |
| C125 | A log belongs to the session it was logged in, and the logs of a session are one block | partial | The identifiers handed out never decrease (invariant: the current one, live or stored, is the largest); a log is processed after it was logged. Missing, because false: a log that waits in the queue while the application starts a new session is given the new one (C125_called_violated); a log with the override of the previous session is processed between the logs of the current one (C125_override_violated) and makes the workflows forget their progress (C125_progress_violated); a session that could not be stored is followed by the one before it in the next process (C125_unstored_violated). Proved otherwise: blocks, and never a session that had ended before the log was logged. |
| C126 | The decoder of gRPC frames can go on after an error | partial | Induction on the rounds of the decoder; frame boundaries as an inductive relation on the input. Missing, because false: after a frame whose payload could not be decompressed (or came compressed without a decompressor) the decoder still holds the size of that frame, so it takes the next frame for a payload (C126_lost_sync_violated); and the messages in front of a bad frame, in the same chunk, are dropped with the error (C126_lost_message_violated). Proved: what is left always begins with a frame, and after a message that could not be parsed the decoder expects one. Of the users of decode_data only StreamingApi::next of bd-grpc can be called again after an error; the API task of the client ends with it (C52). |
| C127 | With the fixed strategy a process has one session, and the logs of a session are one block | partial | Every step hands out nothing or the identifier of the session afterwards; the current session is a suffix of what was handed out, new identifiers are fresh. Missing, because false: a log that waits in the queue while the application starts a new session is given the new one (C127_called_violated). Nothing prevents a callback from returning an identifier again (C127_repeat_violated), and who asks from inside the callback is told an identifier no log will have (C127_callback_violated). All else is proved, the blocks also when nothing can be stored. |
| C13 | Continuous uploads acknowledge exactly what was uploaded | partial | Invariant relating cursor, batch and outcome. The code violates the statement at shutdown: an upload cancelled by the shutdown is acknowledged (C13_canceled_violated), and an uploader that goes on after abandoning an upload acknowledges the abandoned logs (C13_abort_violated). Proved without these two races. |
| C14 | Upload attempts are bounded and identical | partial | Induction over attempt outcomes. A success on the last allowed attempt is counted as dropped by the code (witness C14_dropped_violated); the rest is proved in full. |
| C15 | Upload rate limit bounds bytes per period | proved | Window ghost over timed requests. |
| C16 | At most one triggered upload per buffer at a time | proved | Invariant on the set of uploads. C16_window shows the interval in which a finished upload still blocks a new request. |
| C17 | Every acknowledgement goes to the request it answers | proved | Map from identifiers to requests; invariant. An unknown identifier ends not only the stream but the whole API task (the error is propagated out of maintain_active_stream). |
| C18 | gRPC framing is independent of how bytes are chunked | proved | Confluence of the incremental decoder. Relative to a codec whose parser undoes its serialiser and whose decompressor undoes its compressor. C18_split and C18_chunks hold for arbitrary bytes. |
| C19 | Activity-based sessions change exactly when they should | proved | Induction over call histories with restarts. Any history of calls, restarts, failing writes and lost storage; the disk and restart parts assume storage works. The recorded activity lags the true one by at most 15 s, which the restart theorem states. |
| C20 | Fixed sessions are stable within a process | proved | Induction. Calls made from inside the application's own id callback are modelled too. |
| C21 | A bad cached runtime configuration cannot crash-loop the app for ever | proved | Crash-aware state machine with a disk. With arbitrary write failures, torn writes and process deaths. |
| C22 | A persisted logger configuration that kills the process is tried at most once | proved | Crash-aware state machine with a disk. |
| C23 | A killed client stays silent | proved | Induction over restarts. C23_other_key_lifts_kill is a witness that the same-key condition is needed. |
| C24 | Runtime flags: readers see the latest value or the default, and only real changes wake them | proved | Induction over updates and reads. |
| C25 | Metrics are conserved from increment to upload | partial | Conservation: sum over all places. Conservation is proved for all histories with a list of losses. That the losses are only those the statement allows is proved under the conditions of `orderly`; outside it is false (witnesses). |
| C26 | All uploads of a metrics snapshot with one identifier carry the same content | partial | Ghost record of what was sent per identifier. Missing, because false: an index write that fails without effect while a file is closed (witness). Crashes, torn writes, damage and all other failures are covered. |
| C27 | The metrics collectors are bounded and type stable | proved | Invariant. For all histories, with flushes and other threads in between. |
| C28 | Histogram merging loses no observation | proved | Multiset of observations. A sketch is represented by the observations given to it. |
| C29 | Matcher trees mean what they say | partial | Structural induction. Both matchers. Deviations of the code (witness C29_operator_violated): log type leaves ignore the operator, integer leaves accept the unspecified operator. |
| C30 | Version comparison is a sensible order | partial | Order laws by case analysis of segments. Transitivity fails for segments mixing numbers and strings (witness). |
| C31 | Buffer selection is the union of the matching buffers | proved | List reasoning. |
| C32 | Filters transform only what they match, in order, and only as told | proved | Induction over filters. |
| C33 | Workflow memory is bounded by the configured traversal limit | partial | Counter equals live traversals, invariant. Proved for histories in which no run is stopped by its own limits in the middle of a log (hypothesis Calm). Missing, because false: when a run is stopped by its matched-logs limit after another traversal of it already forked or completed on the same log, the engine's counter goes wrong and the limit is exceeded later (two witnesses). |
| C34 | An exclusive workflow has at most one run in progress | proved | Invariant. C34_kind_violated shows why the quantifier excludes an update that turns a parallel workflow into an exclusive one under the same identifier; C34_done_at_once shows a waiting run that completes at once leaving the progress alone. |
| C35 | A transition fires exactly at its configured match count | proved | Induction over logs with counts. |
| C36 | Workflow state does not leak between sessions | proved | Two histories with the same current session agree. |
| C37 | Persisting and restoring workflow state changes nothing observable | partial | Bisimulation between the old and the restored engine. Proved for every history with workflows in which no transition leads back to the first state, everything that may follow, and both engines never hitting the traversal limit. Missing, because false: engines hitting the limit, which counts waiting runs that the restarted engine does not have yet (witness), a run that came back to its first state is not stored although it has counts and sankey values (witness), and a buffer flush in progress is not stored, which ends streaming early (witness). |
| C38 | Streaming after a flush sends each log where it was told and stops at the limit | proved | Induction over logs. C38_flushing is a witness that an action whose flush is not complete streams beyond its limit, as the statement allows. |
| C39 | A flush action is pending at most once | partial | Invariant. Proved per history in which an identifier names one action and no update removes buffers of a pending action. Missing, because false: after an update that drops and re-adds the buffers the action is sent again while the first negotiation is open (witness); two different actions under one identifier are negotiated separately (witness). |
| C40 | Sankey paths are bounded and identified by what they contain | partial | Invariant; injectivity of concatenation for equal lengths. Missing, because false: the identifier hashes the concatenated node values without separators, so different paths with the same characters share an identifier and the second is not uploaded while the first is remembered (witnesses). C40_identifier_partial covers paths whose nodes have the same lengths. Nodes that do not count are not bounded (C40_uncounted). |
| C41 | Log fields are unique and protected | partial | Uniqueness of keys through each merge. Proved for the normalised metadata. Missing: uniqueness for a log with a previous-session override whose platform fields include _logged_at; C41_logged_at_violated shows the code then writes the key twice. |
| C42 | A log is written to every buffer selected for it | partial | Fold over buffers. Missing, because false: an error other than locked/full stops the remaining writes; a log in a trigger buffer that is not flushed gets no synthetic copy. |
| C43 | Blocking logs are durable when the call returns | partial | Event order. Missing, because false: the buffers flushed are those of the selector, not those the engine redirected the log to; a buffer that no longer exists ends the flush task. |
| C44 | App update events are reported exactly once per version change | proved | Induction over starts. |
| C45 | Screenshots are requested one at a time | partial | Invariant. The code trusts that every screenshot log answers a request; an unsolicited one breaks the claim (witness). |
| C46 | Network usage per minute counts each byte once | proved | Sums over windows. C46_gap: traffic recorded while reports are more than a minute apart appears in no summary (it is older than the last minute's earliest report, so the property does not ask for it). |
| C47 | Time rounding brackets the time | partial | Integer arithmetic. Rounding up fails for a time less than a second after a multiple (witness C47_ceil_violated). |
| C48 | Feature flags enable the configured fraction | proved | Counting. |
| C49 | Message validation accepts exactly the valid messages | partial | Structural induction over messages; exact equivalence with a separate validity predicate. Exact for the supported rules on the supported field types, over all messages and rule sets. Missing, because false, with a witness each: rules on sint/fixed kinds, durations out of range, length rules that are silently ignored, ignore_empty and wrapper types. |
| C50 | Buffer set follows configuration | partial | Set equality and induction. Proved for configurations with distinct buffer ids. Missing, because false: duplicate ids (C50_duplicate_violated), a buffer configured again before the last reference to the removed one is dropped loses its file (C50_readd_violated). |
| C51 | A set-field filter without override never changes an existing field | partial | A binary field is overwritten (witness). |
| C52 | A stream starts with its handshake and a killed client stays silent | proved |  |
| C53 | A previous-session override applies only to the previous session | proved |  |
| C54 | A flush request is acknowledged only after its buffers were flushed | partial | Missing, because false: a request naming an unknown buffer is not acknowledged and ends the flush task. |
| C55 | A log is streamed to exactly the matching tail streams | proved | Relative to the matcher verdicts of C29. |
| C56 | The aggregate buffer keeps draining until it is shut down | partial | Missing, because false: with record checksums and a memory part as large as the disk part (witness). Proved without record checksums, and with them if the memory part is four bytes smaller. |
| C57 | The session of the previous process is reported faithfully (activity-based) | proved | C57_previous_handed_out: whatever fails. The others: for histories in which the stored value is written and not lost. |
| C58 | The list of metrics files is bounded | proved |  |
| C59 | The metrics flusher does not panic | partial | Missing, because false: file limits of zero and one, and a directory that cannot be created (witnesses). |
| C60 | A flush writes what was recorded, an upload sends it, an acknowledgement removes it | proved |  |
| C61 | Workflow runs stop at their limits and stay silent afterwards | proved |  |
| C62 | A workflow never looks up a state or transition that does not exist | partial | Proved for histories in which the states belonging to an identifier do not change. Missing, because false: persisted progress restored under a changed configuration of the same identifier is out of bounds (witness). |
| C63 | An answered upload is no longer pending | partial | Missing, because false: an update that narrows the buffers of a pending action makes the answer miss it, so it stays pending for ever (witness). |
| C64 | Buffers are flushed only with the server's consent | proved | Over the engine composed with the negotiator. |
| C65 | Every pending flush action is being negotiated | partial | Missing, because false: an action that does not fit into the channel stays pending without negotiation (witness), and an update that narrows its buffers (witness). Proved for histories without either. |
| C66 | Progress that is considered stored is stored | partial | Missing, because false: a write that fails clears the flag (witness). That a write is complete when the engine goes on is assumed; writes that overlap: C119. |
| C67 | Every triggered metric is recorded exactly once per log | proved |  |
| C68 | A unary call returns what the handler returned | partial | Composition of client and server functions. Missing, because false: the percent-encoded text of a status is never decoded by the client, error trailers after a message are ignored by the unary client, and the timeout covers only the time until the response headers (witnesses). |
| C69 | A handler is called only with the one valid message of its request | partial | Missing, because false: a body that is cut within a second message is accepted (witness). |
| C70 | A stream delivers what was sent, in order, and its real end | partial | Missing, because false: messages before an invalid one in the same chunk are lost, an error text that is no header value ends the stream without trailers, which the client takes for a clean end, an error with code OK looks complete, and so does a stream cut within a message (witnesses). |
| C71 | The tasks of the logger do not wait for each other for ever | partial | Wait-for graph: every state without steps is classified; measure for the number of steps. Proved: without input the tasks make boundedly many steps and then all wait for input, or the client was killed, or one of two circular waits was reached. Missing, because false: both circular waits are reached and permanent (a configuration removing a buffer whose triggered upload is under way; a blocking call meeting a waiting stats upload and a second configuration), and after a kill a blocking call may never return (witnesses, for every later run). |
| C72 | A configuration is applied as a whole or not at all | partial | Composition of the models of manager, pipeline and cache; invariant over all histories. Proved for histories in which a configuration is refused, if at all, by the buffer manager. Missing, because false: a matcher that does not compile is found only after the buffers were replaced; the nack names the refused version as last applied; a blocking log processed between the update of the manager and that of the log buffer ends the flush task for good (witnesses). |
| C73 | Reconnecting is paced | partial | Induction over turns of the reconnect loop. Missing, because false: the randomised delay can exceed the configured maximum by half (witness); the bound of one and a half times the maximum is proved. The backoff crate is modelled from its documentation. |
| C74 | The reported network quality follows the connection | partial | Induction over turns, invariant on `disconnected_at`. Missing, because false: after a stream was closed, online stays reported during the whole back-off (witness). |
| C75 | Calls into the logger return, also from platform callbacks | partial | Lock order: what each thread has still to do fits to what it holds; weight that falls with each step; progress. Proved for platform code that keeps to a lock order and does not wait with a lock held or on the log thread. Missing, because false: the rules are not enforced by the code; each breach blocks for good or panics (six witnesses). |
| C76 | The network task carries each stream in order and stays alive | partial | Interleaving of three parties; invariant relating what was sent, taken and is on the way per stream; absorbing set for the deadlock. Order and completeness are proved in full. Missing, because false: with sixteen unread events both tasks wait for each other for good; an error message instead of the handshake makes the network task panic, or end and the api task panic; shutdown of the network task makes a sending api task panic (witnesses). |
| C77 | Shutdown completes and is final | partial | Model of C71 extended with trigger, handles, ends and refusals; invariant that every running upload can be told to stop; classification of states without steps; explicit measure; absorbing sets for the witnesses. Proved: with no more input every run after the signal ends within an explicit number of steps with all tasks ended and all calls returned, unless the circular wait of C71 over a blocking call was met; what has ended stays so. Missing, because false: that circular wait is not ended by a shutdown; a non-blocking call only drops the trigger while the log buffer holds a handle, so nothing ends at all; a second blocking call returns at once. |
| C78 | A stored value is read back | partial | Arithmetic round trips by induction on byte lists and shapes; frame argument over the op list. Proved in full: both text formats round-trip, base64 is canonical, keys do not interfere, a read returns only what is stored. Missing, because false: a refused read deletes the value for good; a damaged text that announces a huge string ends the process, in every later process again (this rests on the documented allocation of bincode 1.3, which is not part of /repo). |
| C79 | The device identifier is stable | partial | Invariants over runs (cached and told identifiers; storage and cache agree). Within a process and an object: proved without conditions. Across processes: proved when the platform serves the reads and writes of this key and a process has one Device; missing, because false, otherwise (three witnesses). |
| C80 | Unexpected errors are reported boundedly and accounted for | partial | Induction over the call list; independent reading of scopes from the call history. Bound, order and accounting are proved in full. Missing, because false: the end of an inner scope removes the outer scope too; a metadata value named session_id replaces the session identifier. |
| C81 | Repeated warnings are spaced | proved | Induction over the calls. |
| C82 | Equal messages have equal hashes and different ones different hashes | partial | Mutual induction over messages; uniqueness of sorted lists with different keys; unique decodability for flat types. Equal messages (bit for bit, maps as sets) have equal hashes: proved for all messages. Different messages: proved for types whose fields are all optional and of fixed width. Missing, because false: strings, repeated fields and nested messages collide; plus and minus zero are equal but hash differently. |
| C83 | From the call to the upload | partial | Composition of the models of the parts; one invariant over all steps; the uploads as a list compared with the file; progress by constructing the continuation. The models of channel, log task, pipeline and uploader put together. Proved for all runs: accounting, order, unaltered content, progress. Once: for runs without a death of the process between the end of an upload and the removal of its logs, and without the race of C13; missing, because false, otherwise. Removed only after upload: missing, because false, for uploads cancelled by a shutdown (C13). |
| C84 | A trigger buffer is uploaded completely, in order and once | partial | One invariant (sublist and permutation) over all steps; refinement of the step by step upload to the function of C12. Order, at most once, and completeness of an undisturbed upload are proved in full. Missing, because false: logs are removed when they are read, so a death or an error during an upload loses those held, and a shutdown drains the buffer into cancelled uploads. |
| C85 | The platform event listener follows its flag | partial | Invariant over events; the calls as a list. Following the flag and finality are proved for all runs of a listener created with the flag off. Alternation is proved when every change is seen before the next; missing, because false, otherwise: start twice in a row, stop without start. A listener created with the flag on never starts (the logger creates it with the default, off). |
| C86 | Periodic reporters keep their interval | partial | Invariant tying the last call to the deadline; induction over events. Spacing, count, gating and progress are proved for all runs. Missing, because false: an interval flag of zero (or of another type, which reads as zero) panics the log task. |
| C87 | The internal report counts every log once | proved | Counters equal counts of the suffix since the last report; induction over logs. Counters are u32 and wrap; the counts are exact modulo 2^32, the sum as long as fewer than 2^32 logs were seen. |
| C88 | The configuration in use is that of the watched file | partial | Invariant: without a pending rename event the snapshot is fresh. Never an invented configuration: proved for all runs. Freshness: proved for renames within the directory with a working watcher; missing, because false, otherwise: one watcher error ends reloading for good, other ways to change the file are not noticed (the latter is documented). |
| C89 | Pointers to reservations are never dangling | proved | Forward simulation of the pointer structure by the list model. The links of the intrusive lists (crate intrusive_collections) are the order of two lists of addresses. |
| C90 | The label limit of server metrics holds | partial | Invariant over interleaved threads: stored labels plus threads past the check; pigeonhole for series. All parts per label name are proved for any number of threads; the bound max+n-1 is met. Missing, because false: the limit over all names, since the keys name_value of different labels can coincide; proved for names without underscore. |
| C91 | A server metric is identified by kind, name and labels | partial | Induction over scopes and uses; the registry as a list keyed by kind, name and labels. Naming, labels, identity and sums are proved. Missing, because false: a request with the name of another metric but other label names or kind panics. The rule of the registry is that documented by crate prometheus. |
| C92 | Gauges held by guards count the guards | proved | Invariant: gauge minus guards alive is constant. |
| C93 | The worker pool has the configured size | partial | Case analysis. Missing, because false: a numeric NUM_CPUS is ignored, `num_cpus as usize` is the address of the function. |
| C94 | What a message counts for covers its memory | partial | Inequalities summed over fields; composed with the budget of C10. Within factor two for capacities left by doubling, exact cover without spare capacity. Missing, because false: spare capacity of strings, long session ids of overrides and reserved slots are not or not fully counted. |
| C95 | A log is read back from a buffer as it was written | partial | Composition of writer and reader object by object; objects stay where they are when more are appended. Writing and reading logs is proved in full, at the level of the objects of the format (the bytes are made by crate flatbuffers). Missing, because false: a buffer entry that passes the verifier but carries seconds out of range makes the upload task panic. |
| C96 | The server counts its connections and waits for them | partial | Invariant over all runs; explicit schedule for the return. Proved for all runs ended by a shutdown. Missing, because false: one accept error makes the server return at once while connections are served. |
| C97 | Pings follow the interval the server asks for | partial | Invariant relating the deadline to the trace; simulation by the untimed stream model. Sending of pings is proved in full, and refines the stream model (Verif.Api.Stream). Missing, because false: an interval beyond the largest Instant panics, and an unanswered ping never closes the stream. |
| C98 | From the ring in memory through the file to the upload nothing is lost, byte for byte | partial | Refinement of the list model of the uploader by the byte level rings, over C05, C06 and C09; then C12 and C13 carry over. Both byte level rings, the flush thread, the uploader and any number of processes in one transition system. All parts are proved for runs in which no process ends between `reserve` and `commit` of the flush thread and no uploader is started in a process in which one went away with records read and not acknowledged; `uploaded` also needs that the uploader does not go on after abandoning an upload. Missing, because false otherwise: `C98_hole_violated`, `C98_reregister_violated`, `C98_abort_violated`. |
| C99 | The engine's own counters add up | partial | Conservation law for each step, summed over the history; ghost for what a session change discards; refinement of the engine without counters. Workflows, meaning, order and failures are proved for all histories. The balance of runs is exact with the runs a session change discards; the balance of traversals also needs the configurations of C33 and that what is stored fits at a start. Missing, because false: discarded runs are not counted (`session`), traversals that were not restored count as started (`restore`), a run stopped while it forks loses completions (`fork`), and a workflow without a way out of its first state advances with every log (`advance`). |

## 7. Violations found

Each is a theorem about the model with a concrete execution.  For a claim with status "proved" the
witness shows an exception that the statement itself names.

* `C05_midread_violated` – With record checksums, a plain consumer that goes away between `start_read` and `finish_read` takes the record with it: `start_read` already zeroed its checksum.
* `C05_uncommitted_violated` – Without record checksums, an abandoned reservation is delivered as soon as a later record is committed.
* `C06_hole_violated` – The process ended while a reservation was in flight. The cursor consumer skips it without acknowledging it, so that the acknowledgement of the record after it removes the wrong number of bytes and an unacknowledged record ([5, 6, 7]) is lost.
* `C06_reregister_violated` – A cursor consumer registered for the second time in one process does not start at the oldest unacknowledged record (the TODO at non_volatile_ring_buffer.rs:944-947).
* `C07_exact_violated` – The exception of `C07_crash` happens: the overwriting reservation died after it zeroed the checksum of the oldest record. What is read afterwards is neither what was there before the call nor what would have been there after it (the call would have dropped two records).
* `C07_in_flight_violated` – Without record checksums, the reservation that was in flight at the crash is delivered once a later record is committed.
* `C08_cursor_violated` – A cursor consumer that meets a corrupt record passes it without acknowledging it: the next acknowledgement then removes the wrong number of bytes and an unread record ([5, 6, 7]) is lost.
* `C100_nack_violated` – C100 fails for refusals: the nack for "b" says that "b" is the version applied last, while "a" is in use, which the next handshake says.
* `C101_collision_violated` – C101, the headers of the next theorem.
* `C101_crash_violated` – C101, a crash that goes unnoticed: in a file of 3400 bytes three records are unread. The process dies inside the call that finishes reading the oldest, after the first of its stores. The checksum of the header matches although the header has changed; the next process opens the file without an error, reads the oldest record again, and never finds the other two.
* `C102_abort_violated` – The full statement fails: a file that begins with a great length ends the process at every start, and is still there at the next one.
* `C102_clock_violated` – The full statement fails: one run whose first step was made before 1970 (the clock, or a time given with the log) makes every save fail, and the first attempt destroys what was stored before.
* `C102_torn_violated` – The full statement fails: a write that is cut short, or a process that dies in it, leaves nothing: neither the new state nor the old one.
* `C102_transient_violated` – The full statement fails: a start that cannot open the file removes it, and the next start, that could, finds nothing.
* `C104_runtime_violated` – Whatever runtime configuration was stored and whatever zlib does: if nothing of it reached the disk, or only the two bytes of the header, an empty configuration is loaded from the file as if it had been stored.
* `C106_refused_violated` – **C106 violated.** `records_refused` is documented as the records refused for lack of space without the ability to overwrite (bd-buffer/src/buffer/mod.rs:44-45, 58-59). The request of a caller that does not wait is refused for exactly that reason (`AllowOverwrite::Block`, common_ring_buffer.rs), and not counted.
* `C107_poisoned_violated` – **C107 violated.** One compressed message that cannot be decompressed, on any stateless stream, and the first compressed message of every stream opened after it on the same thread is an error, whatever it holds and however many calls later: the object of the thread is given a new state only after a success (lib.rs:395-398), and the library refuses everything after an error.
* `C109_consumer_drop_violated` – C109 fails for the producer: the drop of the consumer does not wake it (non_volatile_ring_buffer.rs:426-438, 595-606), though the read it waited for is gone, and while no other consumer comes it sleeps on until a shutdown or a restart.
* `C109_loss_violated` – C109 fails for the producer: it and the reader both sleep over an empty buffer, which the producer could write to (it would be let in if it were woken), and they do so for good: until a shutdown or a restart.
* `C109_producer_drop_violated` – C109 fails for those who wait for the reservations to end: a producer that is dropped with its reservation does not wake them (non_volatile_ring_buffer.rs:264-274).
* `C110_spin_violated` – C110 fails: the asynchronous read finds the loss, cannot reset the buffer because of the read it did not acknowledge, and goes round without ever waiting or returning, whatever the others do meanwhile, a shutdown included.
* `C111_persistent_violated` – C111 fails for the persistent buffer when a producer is inside `reserve`, asleep until there is room: `lock` and `await_reservations_drained` return, and then the producer gets its reservation (non_volatile_ring_buffer.rs:149-196 does not look at the lock again) and commits under the lock.
* `C112_on_violated` – C112, switching on is not noticed: the flag is on, the log task slept with it being on, but logs are processed without workflows.
* `C113_kept_violated` – C113, a request is lost: the engine asked for a flush, workflows were switched off and on, a configuration came: the request was neither given to the uploader nor counted nor is it in the channel.
* `C113_one_violated` – C113, two requests for one action at the same time, of two engines.
* `C114_restart_violated` – C114 fails for a workflow that was changed between two processes: it goes on from the state of the old one, while an update of a running process would have begun anew.
* `C114_twice_violated` – C114 fails with an identifier used twice. Given the same configuration again the engine drops the first workflow and does not start it again. And a workflow that is in the list twice goes on being run twice when it is in the list once.
* `C116_timeout_violated` – C116: a workflow that waits for a time is accepted, and waits for ever: no log, however late, takes it out of its first state (`Predicate::TimeoutMatch`, "TODO: implement timeout", bd-workflows/src/workflow.rs:876-879).
* `C117_failed_violated` – The property fails here: an upload task that returned an error is not replaced, however often the configuration with its buffer is applied again; the buffer exists, is written to and never uploaded.
* `C118_resized_violated` – When the size changes, two processes that die in the middle can make an altered file look in order: the first cuts the file to the new size, the second, started with the old size again, extends it, and neither gets to the header. The next opening keeps the file, and the record whose bytes were cut off is lost.
* `C119_mixed_violated` – For all states `a`, `b` whose sessions have the same number of bytes, so many that the `BufWriter` writes them by a call of their own (a session or, as well, any other part that comes to lie across its capacity): the writes of `a` and `b` can leave a file with the session of `b` and the workflows of `a`, which the engine never had. It is read without an error.
* `C119_stale_violated` – For all states `a`, `b` of the engine: the periodic write of `a` is left alone because a log arrives, which changes the state to `b`. The log is blocking, so the state is written and the caller is told that this was done; the engine considers `b` as stored. Then the first write comes to its end, and the next process goes on from `a`.
* `C120_steady_violated` – As long as fields are set at least once per period, a change of the state stays in memory only: for every `n` there is a history after which the change is `n` milliseconds old and not in the file.
* `C122_answered_violated` – A millisecond after a response with status 200 was logged the API task begins an attempt, and the next log is marked offline.
* `C122_own_violated` – The log of a response with status 200 is itself marked offline.
* `C123_dropped_violated` – A client that goes away while its request is being read.
* `C123_panic_violated` – A handler that panics.
* `C124_order_violated` – The permits are not given in order: an upload is held back while later ones are sent, period after period.
* `C124_retries_violated` – Repeated attempts are not counted: with a quota of 10 bytes in 100 a failing upload of 10 bytes is sent four times, 40 bytes.
* `C125_called_violated` – The application logs in session 0 and then starts session 1; the log is processed afterwards and belongs to session 1.
* `C125_override_violated` – A log about the previous process in the middle of a session.
* `C125_progress_violated` – What this does to the workflows (C36): the second step of a workflow is not found any more after a log of another session in between.
* `C125_unstored_violated` – If the new session cannot be stored, the old one comes back with the next process.
* `C126_lost_message_violated` – A message that is followed by a bad frame in the same chunk is lost, although it would have been delivered in a chunk of its own.
* `C126_lost_sync_violated` – After a compressed frame on a stream without compression the decoder still expects its payload: the frame that follows, a good one, is taken apart as the payload of the bad one, and another error is returned.
* `C127_callback_violated` – Whoever asks for the session from inside the callback is told one that no log will ever have.
* `C127_called_violated` – A log that waits while the application starts a new session is given the new one.
* `C127_repeat_violated` – A callback that returns an identifier again, here in the third process, resumes a session that had ended; nothing prevents it.
* `C13_abort_violated` – C13 fails also when no upload is cancelled: after abandoning an upload because of a shutdown the uploader may go on reading, finish another upload and acknowledge the logs of the abandoned one instead.
* `C13_canceled_violated` – C13 fails: a shutdown cancels the upload in progress (service.rs:166-183); the uploader does not look at the result and acknowledges logs that were never uploaded (consumer.rs:535-539).
* `C14_dropped_violated` – C14, violation: an upload that succeeds on its last allowed attempt is counted as dropped.
* `C25_race_violated` – C25 does not hold without the condition on handles: an increment between `snap`, which finds nothing, and the test for other references is lost if the handle is dropped in between (bd-client-stats/src/stats.rs:272-277).
* `C25_shared_name_violated` – C25 does not hold for a name used in both collectors: one of the two values overwrites the other (a debug build stops at the assertion, stats.rs:405-408).
* `C25_type_violated` – C25 does not hold for a name whose type changes after its metric was removed from the collector: what is recorded next is dropped when it is merged with the file (stats.rs:187-207).
* `C26_violated` – C26 does not hold in general: writing the index fails when a file is closed for its upload. The next upload finds the file closed in memory and sends it; after a crash the file is open again, more is added to it, and it is sent again under the same identifier (file_manager.rs:360-371).
* `C29_operator_violated` – C29, two deviations from what an operator says: a log type leaf compares for equality whatever its operator (here "not equals", and an unknown one), and an integer leaf with the unspecified operator is accepted as a configuration although it can never match.
* `C30_trans_violated` – C30, violation: 9 < 10, 10 < 1a and 1a < 9.
* `C33_counter_violated` – The counter is too high for good: one traversal completed in the run that was then stopped.
* `C33_limit_violated` – The counter is too low, and more traversals live than the limit allows.
* `C34_kind_violated` – Without `Kinds`: three runs of a parallel workflow, stored, and loaded under an exclusive configuration with the same identifier.
* `C37_flushing_violated` – A flush that was going on is forgotten: the action that was to stream until it is over is gone at the next log.
* `C37_limit_violated` – The limit for traversals is hit at other times: the waiting run of the second workflow is counted by the old engine, where the first workflow cannot fork any more; the restarted one counts it only after the fork.
* `C37_return_violated` – A run that has come back to its first state is not stored: the old engine stops it after three matched logs, the restarted one starts to count again.
* `C39_readded_violated` – An update takes all buffers of a pending action away, another one brings them back: the action is sent again while the first negotiation is still going on.
* `C40_collision_violated` – Because identifiers do not tell them apart (`C40_identifier_violated`), a path is never uploaded when a different one with the same characters was.
* `C40_identifier_violated` – Different paths with the same identifier: "a" then "bc", and "ab" then "c".
* `C41_logged_at_violated` – A log with an override whose platform fields include `_logged_at` is written with that key twice.
* `C42_error_violated` – A buffer that fails in another way, for instance because the log is too large for it, prevents the later ones from receiving the log.
* `C42_flush_violated` – A log that goes to a trigger buffer other than the flushed one is in no flushed buffer and no copy is made.
* `C43_redirect_violated` – The workflow engine redirects the log to buffer 2 (streaming after a flush): buffer 2 receives it and is not flushed when the caller is released.
* `C43_unknown_violated` – A selected buffer that no longer exists ends the flush task; the caller is released without a flush, now and for every later blocking log.
* `C45_unsolicited_violated` – C45, violation without that hypothesis: a screenshot log that answers nothing makes the recorder request a second screenshot while the first is outstanding.
* `C47_ceil_violated` – C47, violation: half a second after a multiple, rounding up returns the time itself, which is not a multiple (interval 5 minutes).
* `C49_duration_violated` – `duration.required` and the other rules for durations that are not supported are reported only for a duration that is there: a missing one is accepted.
* `C49_ignore_empty_violated` – `string.ignore_empty` is passed over: an empty string with `min_len` is rejected all the same. For integers and repeated fields the rule is reported.
* `C49_length_violated` – `string.min_len` and `max_len` count characters; the code counts bytes, so one character passes for two, and two characters are too many for a limit of two.
* `C49_sint_violated` – A rule for a field of type `sint32` is neither checked nor reported: here `sint32.gt = 5` and the value 0, although the same as `int32.gt` is rejected.
* `C49_wrapper_violated` – Scalar rules on a wrapper message such as `google.protobuf.StringValue` and `message.skip` are passed over.
* `C50_duplicate_violated` – With a duplicate id in the configuration the existing buffer is replaced by a second one on the same file, which is announced, while the first is neither announced as removed nor kept.
* `C50_readd_violated` – A buffer removed and configured again before the last reference to the old one is gone loses its file.
* `C50_type_violated` – The type of an existing buffer does not follow the configuration.
* `C51_no_override_violated` – C51, violation: an existing binary field is overwritten by a set that may not override.
* `C54_unknown_violated` – A flush request that names a buffer that does not exist ends the flush task: no later request is served.
* `C56_alive_violated` – With record checksums a record of 20 bytes is accepted into a memory part of 24 bytes, over a disk part of 24 bytes, and does not fit there: the flush thread leaves its loop although nobody asked for a shutdown (in a debug build it fails the assertion at aggregate_ring_buffer.rs:95), and nothing reaches the disk from then on. The size check at aggregate_ring_buffer.rs:141-158 is meant to exclude this.
* `C59_init_violated` – C59 does not hold if the directory cannot be created: the first flush fails, the second one panics because the file system was taken out for good (file_manager.rs:186-192).
* `C59_one_file_violated` – C59 does not hold if one file is allowed: it is under way to the server when an empty flush removes its entry, and the acknowledgement finds no entry (file_manager.rs:413-417).
* `C59_zero_files_violated` – C59 does not hold if no file is allowed: the very first flush panics (file_manager.rs:258-260).
* `C62_changed_violated` – Without the hypothesis: a stored run is taken up under a configuration with the same identifier and fewer states, and its traversal points beyond them (the code would panic at workflow.rs:829).
* `C63_narrowed_violated` – An update takes one of two buffers away from an action in negotiation. The answer carries the action as it was sent; no pending action equals it, so the action stays pending, and logs that trigger it have no effect.
* `C65_full_violated` – The channel is full when an action is triggered: the action is pending, nobody negotiates it, and no later trigger of it does anything.
* `C65_narrowed_violated` – An update takes a buffer away while the action is in negotiation: the answer no longer fits.
* `C66_failed_violated` – A write that fails clears the flag, so that no later write follows: the progress is lost with the process.
* `C68_message_violated` – C68 is violated for the text of a status: it is coded for the header and never decoded.
* `C68_timeout_violated` – The timeout of a unary call ends with the headers of the response.
* `C68_trailers_violated` – A response with an error in its trailers is taken for a success by a unary call if there is a message in it (this server sends no such response).
* `C69_rest_violated` – C69 is violated for what follows: a body that is cut in a second message is taken for the first.
* `C70_before_violated` – C70 is violated for what comes before a message that is not valid: whether it is delivered depends on the chunks.
* `C70_code_violated` – C70 is violated for a handler that fails with the code OK.
* `C70_cut_violated` – A stream that ends in the middle of a message, without trailers, is taken to be complete.
* `C70_text_violated` – C70 is violated for errors with a text that is not plain: the task that ends the stream panics, no trailers are sent, and the reader takes the stream to be complete.
* `C71_blocking_call_violated` – A blocking call that meets a stats upload waiting to be sent and a second configuration update leaves the API task, the log buffer and the stats flusher waiting for each other for ever: the call never returns.
* `C71_killed_violated` – After the client was killed a blocking call may never return.
* `C71_trigger_upload_violated` – A configuration that removes a buffer while a triggered upload of it is under way leaves the API task, the upload manager and the upload waiting for each other: whatever happens afterwards, the API task never sends or receives anything again.
* `C72_nack_violated` – The answer to a refused configuration names the refused one as the last applied.
* `C72_race_violated` – Also without a refusal: a blocking log that is processed after the manager was updated and before the log buffer takes the update asks for a buffer that no longer exists to be flushed; this ends the flush task for good.
* `C72_refused_flush_violated` – The blocking log that follows ends the flush task for good.
* `C72_refused_violated` – A configuration that is refused because a matcher does not compile has already replaced the buffers: the log buffer still writes to buffer 1, which is no longer known to the manager, was announced as removed and will be deleted, while the client reports the first configuration as applied.
* `C73_max_violated` – With an interval of five minutes, the maximum, seven and a half minutes may be waited.
* `C74_online_violated` – A stream closed after a second is followed by five minutes in which the quality is still "online", although the grace period is 15 seconds.
* `C75_blocking_callback_violated` – The callback of the fixed strategy makes a blocking call: the log thread waits for the lock of the caller, the caller for the log thread.
* `C75_previous_callback_violated` – The callback of the fixed strategy asks the strategy (it is the embedder's object; the logger does not expose this call) for the session of the previous process, which does not look at the flag.
* `C75_provider_flush_violated` – A field provider flushes and waits: `flush_state` does not ask the guard, and the log thread panics.
* `C75_reporter_violated` – An error occurs within the error reporter.
* `C75_session_callback_violated` – The callback of the activity-based strategy asks for the session: it waits for its own lock.
* `C75_storage_error_violated` – An error is reported by the storage while the session is read: the reporter asks for the session.
* `C76_deadlock_violated` – The api task waits to send its second message while sixteen events wait to be read by it; the network task waits to hand over the next event and takes no message. Whatever happens after that, shutdown included, neither task goes on.
* `C76_refused_close_violated` – If the server closes the stream just before, the network task takes the missing receiver for a shutdown and ends; the api task panics.
* `C76_refused_violated` – The server answers the handshake with an error message and leaves the stream open; the api task starts the next stream, and the network task panics.
* `C76_shutdown_violated` – Shutdown reaches the network task while the api task sends: the api task panics.
* `C77_flush_violated` – A blocking call that meets a stats upload waiting to be sent and a second configuration update leaves three tasks waiting for each other where none of them looks at the shutdown: a shutdown called then never returns, whatever happens.
* `C77_nonblocking_violated` – A call of `shutdown` which is not to block drops the trigger without a signal; the log buffer holds a handle, so nobody notices: whatever happens afterwards, also further calls that are to block, every task goes on.
* `C77_second_call_violated` – While one thread waits in a blocking shutdown, a second one that calls it returns at once, with every task still running.
* `C78_damaged_text_violated` – **C78 violated**: a damaged text that announces a long string ends the process, and it stays in the storage, so the next process ends in the same way.
* `C78_transient_read_violated` – **C78 violated**: one refused read deletes the stored value for ever, although the platform still has it.
* `C79_lost_write_violated` – **C79 violated**: a write that is lost gives the next process another identifier.
* `C79_refused_read_violated` – **C79 violated**: one refused read replaces the stored identifier.
* `C79_two_objects_violated` – **C79 violated**: two `Device` objects of one process that start together have different identifiers.
* `C80_nested_violated` – **C80 violated**: the end of an inner `with_reporter` removes the outer one too: the second report goes to the global reporter 1 instead of the outer reporter 2.
* `C80_session_violated` – **C80 violated**: a metadata value named `session_id` replaces the session identifier.
* `C82_nested_violated` – **C82 violated**: the end of a nested message is not marked: field 5 of the inner message and field 5 of the outer message have the same hash.
* `C82_repeated_violated` – **C82 violated**: repeated fields are hashed without their number: the value 7 in field 1 and the value 7 in field 2 have the same hash.
* `C82_strings_violated` – **C82 violated**: strings are hashed without their length: `["ab", "c"]` and `["a", "bc"]` have the same hash.
* `C82_zero_violated` – **C82 violated**: plus zero and minus zero are equal as values (so the messages are equal for `PartialEq`), but their hashes differ.
* `C83_twice_violated` – A process that dies between the end of an upload and the removal of its logs from the file: the next process uploads them again (consumer.rs:528-539 and the start of the uploader, 441-465).
* `C84_canceled_violated` – The result of an upload is ignored (consumer.rs:706-724): when a shutdown cancels the uploads, the rest of the buffer is read, removed and given to an upload service that cancels everything.
* `C84_died_violated` – A log is removed from the file when it is read, not when it was uploaded (ring_buffer.rs:527-532): a process that dies during the upload loses it.
* `C85_initially_on_violated` – C85 violated: a listener created when the flag is already on does not start the platform: only changes are looked at. (The logger creates it before any configuration is read, when the flag has its default, off.)
* `C85_started_twice_violated` – C85 violated: the flag goes off and on again between two turns of the loop (two runtime updates in a row); the platform is told to start although it was started and never stopped.
* `C85_stop_first_violated` – C85 violated: the flag goes on and off between two turns, twice. The comment in the code says "Stop only if event listener was previously started", but what is checked is that some change was seen: the platform is told to stop without having been started.
* `C86_zero_violated` – C86 violated: a runtime update that sets the interval to zero panics the task of the reporter. Nothing between the server and `tokio::time::interval_at` checks the value; a value of another type (a string, say) for the flag also reads as zero (bd-runtime/src/runtime.rs:96-103).
* `C88_error_violated` – C88 violated: one error of the watcher (`while let Some(Ok(event))`) ends the task; the file is renamed afterwards, and the old configuration stays in use however long one waits.
* `C88_moved_in_violated` – C88 violated: a new file moved in from another directory (or written in place, or renamed while the kernel's event queue was full) is not loaded until the next rename within the directory.
* `C90_collision_violated` – **C90 violated.** One thread, a limit of one label: the labels `a = b_c` and `a_b = c` are both handed out, because the keys of both are the text `a_b_c`.
* `C91_kind_violated` – **C91 violated.** A gauge with the name of a counter: the request panics.
* `C91_label_names_violated` – **C91 violated.** The same counter with another label name: the request panics.
* `C93_hint_violated` – **C93 violated.** With a numeric `NUM_CPUS` the number of workers is the address of a function: it does not depend on the variable, and it is above every reasonable bound as soon as the code is loaded there.
* `C94_capacity_violated` – **C94 violated (spare capacity).** The capacity of a string is not counted: a message with an empty string that has any capacity `c` counts for a constant.
* `C94_session_violated` – **C94 violated (session id).** The session id given with an override is not counted: a log with any long id counts as without.
* `C94_slots_violated` – **C94 violated (reserved slots).** The reserved slots of the annotated fields are counted with too small a size: with many of them a log of the queue takes more memory than it counts for.
* `C95_foreign_time_violated` – **C95 violated.** A buffer that passes the verifier but whose seconds are out of range makes the upload task panic (consumer.rs:665), for all bounds of the time type.
* `C96_accept_error_violated` – **C96 violated.** One error of the listener ends the server while connections are still served: it returns at once, without waiting.
* `C97_dead_violated` – C97, against the full statement: no time after which an unanswered ping closes the stream. A peer that is gone is not noticed by the pings.
* `C97_overflow_violated` – C97, against the full statement: an interval that the server may send makes the task panic.
* `C98_abort_violated` – The uploader goes on after abandoning an upload because of a shutdown (see `C13_abort_violated`): the first record is removed without having been part of a finished upload.
* `C98_hole_violated` – The process ends between `reserve` and `commit` of the flush thread. The next process uploads two records, and the third one, not uploaded, is gone.
* `C98_reregister_violated` – An uploader is stopped with a record read and not uploaded, and another one is started in the same process: it starts with the record after it, its acknowledgement removes the wrong number of bytes, and the file is reset. Of three records one was uploaded, and none is left.
* `C99_advance_violated` – A run counts as advanced although no traversal moved and no log matched.
* `C99_fork_violated` – A run stopped after one of its traversals was completed: the completion is not counted.
* `C99_restore_violated` – A smaller limit at a start: traversals that were never brought back count as started.
* `C99_session_violated` – A new session: two runs started in vain, none of them completed or stopped.

## 8. Axioms per theorem

**no axioms** (15): `Startup.C23_other_key_lifts_kill`, `Upload.C14_dropped_violated`, `App.C45_unsolicited_violated`, `Net.C46_attached`, `Pipe.C42_flush_violated`, `Grpc.C68_headers_in_time`, `Report.C85_stop_first_violated`, `Report.C85_initially_on_violated`, `Report.C86_zero_violated`, `Server.C90_late`, `Size.C94_capacity_violated`, `Size.C94_slots_violated`, `Session.Stamp.C125_called_violated`, `Session.Stamp.C125_override_violated`, `Session.Stamp.C125_unstored_violated`

**propext** (94): `Session.C20_previous_constant`, `Session.C20_previous_stored`, `Startup.C21_unwritten`, `Startup.C21_torn`, `Startup.C21_dies`, `Startup.C21_uncounted`, `Startup.C21_reset`, `Startup.C22_not_removed`, `Startup.C22_unwritten`, `Startup.C22_torn`, `Startup.C22_dies`, `Startup.C23_rejected_process_silent`, `Startup.C23_unwritten`, `Startup.C23_unread`, `Startup.C24_read_value`, `Flags.C48_getters`, `Upload.C13_canceled_violated`, `Api.C52_requests_after_handshake`, `Api.C52_unauthenticated`, `Api.C52_protocol_errors`, `Pipe.C42_error_violated`, `Buffer.C06_hole_violated`, `Buffer.C06_reregister_violated`, `Buffer.C08_cursor_violated`, `Buffer.C07_exact_violated`, `Buffer.C07_in_flight_violated`, `Buffer.C09_flush_hangs`, `Buffer.C56_alive_violated`, `Session.C57_previous_constant`, `Session.C57_previous_is_last`, `Session.C57_previous_handed_out`, `Stats.C27_overflow`, `Stats.C28_split`, `Stats.C28_snapshot`, `Wf.C35_actions`, `Wf.C40_extract`, `Wf.C40_identifier_violated`, `Wf.C40_collision_violated`, `Pgv.C49_sint_violated`, `Pgv.C49_duration_violated`, `Pgv.C49_ignore_empty_violated`, `Pgv.C49_wrapper_violated`, `Reconn.C74_online_violated`, `Hyper.C76_refused_violated`, `Hyper.C76_refused_close_violated`, `Hyper.C76_shutdown_violated`, `Tasks.C77_no_more`, `Tasks.C77_second_call_violated`, `Store.C78_frame`, `Store.C78_absent`, `Store.C78_only_stored`, `Store.C78_transient_read_violated`, `Store.C79_lost_write_violated`, `Store.C79_refused_read_violated`, `Store.C79_two_objects_violated`, `Errors.C80_nested_violated`, `Errors.C81_flags`, `Flow.C83_twice_violated`, `Flow.C84_stream`, `Flow.C84_died_violated`, `Flow.C84_canceled_violated`, `Report.C85_alternates_partial`, `Report.C85_started_twice_violated`, `Report.C87_all`, `Report.C88_final`, `Server.C96_tells`, `Server.C96_no_accept`, `Server.C96_accept_error_violated`, `Ping.C97_settings`, `Ring.C98_error`, `Ring.C98_hole_violated`, `Ring.C98_reregister_violated`, `Ring.C98_abort_violated`, `Sync.C100_others`, `Wire.C103_tables`, `Buffer.C106_refused_violated`, `Buffer.C109_producer_drop_violated`, `Buffer.C111_drained`, `Buffer.C111_drained_persistent`, `Buffer.C111_persistent_violated`, `Buffer.C118_untouched`, `Buffer.C118_sizes`, `Buffer.C118_resized_violated`, `Grpc.Streams.C123_ends`, `Grpc.Streams.C123_panic_violated`, `Grpc.Streams.C123_dropped_violated`, `Upload.Service.C124_retries_violated`, `Session.Stamp.C125_take`, `Session.Stamp.C125_restart`, `Session.StampF.C127_take`, `Session.StampF.C127_restart`, `Session.StampF.C127_called_violated`, `Session.StampF.C127_repeat_violated`, `Session.StampF.C127_callback_violated`

**Quot.sound, propext** (311): `Session.C19_disk_is_last_returned`, `Session.C20_stable`, `Session.C20_previous_is_last`, `Startup.C21_at_most_six`, `Startup.C21_start`, `Startup.C21_not_removed`, `Startup.C21_write_back`, `Startup.C22_version`, `Startup.C23_connects_again`, `Startup.C23_torn`, `Startup.C23_not_removed`, `Upload.C14_attempts_bounded`, `Upload.C14_retry_only_after_failure`, `Upload.C15_refills_apart`, `Upload.C15_no_starvation`, `Upload.C15_refused_only_when_used`, `App.C44_report`, `App.C44_once`, `App.C45_accounting`, `Time.C47_ceil_violated`, `Time.C47_time_from`, `Time.C47_duration_roundtrip`, `Time.C47_millis`, `Flags.C48_fraction`, `Flags.C48_edges`, `Queue.C10_budget`, `Queue.C10_fifo`, `Queue.C10_accounting`, `Queue.C10_alone_exact`, `Queue.C11_kept_sublist`, `Match.C29_buffer_rejected`, `Match.C30_swap`, `Match.C30_operators`, `Match.C30_trailing_zero`, `Upload.C12_batches`, `Upload.C12_partition`, `Upload.C12_lookback`, `Upload.C12_error`, `Upload.C12_continuous`, `Upload.C12_deadline`, `Upload.C13_ack_order`, `Upload.C13_abort_violated`, `Upload.C16_only_requests`, `Upload.C16_answered`, `Upload.C16_window`, `Api.C17_unknown`, `Api.C17_fail_drops`, `Grpc.C18_compressed`, `Api.C52_handshake_first`, `Api.C52_pings`, `Api.C52_killed`, `Net.C46_summary`, `Net.C46_when`, `Net.C46_field`, `Mgr.C50_set`, `Mgr.C50_kept`, `Mgr.C50_stream`, `Mgr.C50_failed`, `Mgr.C50_succeeds`, `Mgr.C50_history`, `Mgr.C50_file_deleted`, `Mgr.C50_readd_violated`, `Mgr.C50_duplicate_violated`, `Mgr.C50_type_violated`, `Mgr.C54_flush`, `Mgr.C54_unknown_violated`, `Pipe.C42_written_partial`, `Pipe.C42_only`, `Pipe.C42_error`, `Pipe.C43_flushed_partial`, `Pipe.C43_persist`, `Pipe.C43_redirect_violated`, `Pipe.C43_unknown_violated`, `Pipe.C55_stream`, `Buffer.C08_checked_cursor`, `Stats.C25_race_violated`, `Stats.C25_shared_name_violated`, `Stats.C25_type_violated`, `Stats.C25_empty_flush_discards`, `Stats.C26_same_content_partial`, `Stats.C26_violated`, `Stats.C28_every_observation`, `Stats.C28_inline_bound`, `Stats.C58_bounded`, `Stats.C58_replaces`, `Stats.C59_no_panic_partial`, `Stats.C59_zero_files_violated`, `Stats.C59_one_file_violated`, `Stats.C59_init_violated`, `Stats.C60_upload`, `Stats.C60_response`, `Wf.C33_partial`, `Wf.C33_limit_constant`, `Wf.C33_counter_violated`, `Wf.C33_limit_violated`, `Wf.C34_one_active`, `Wf.C34_done_at_once`, `Wf.C34_kind_violated`, `Wf.C35_traversal`, `Wf.C35_zero`, `Wf.C35_next`, `Wf.C35_stopped`, `Wf.C35_parallel`, `Wf.C36_progress`, `Wf.C36_result`, `Wf.C36_streaming`, `Wf.C36_no_workflow`, `Wf.C38_destinations`, `Wf.C38_counts`, `Wf.C38_ends`, `Wf.C38_lifetime`, `Wf.C38_flushing`, `Wf.C39_partial`, `Wf.C39_system_partial`, `Wf.C39_not_again`, `Wf.C39_readded_violated`, `Wf.C39_same_identifier`, `Wf.C62_accepted`, `Wf.C62_ok`, `Wf.C62_in_bounds_partial`, `Wf.C62_changed_violated`, `Wf.C63_partial`, `Wf.C63_narrowed_violated`, `Wf.C40_emitted`, `Wf.C40_accepted`, `Wf.C40_sent`, `Wf.C64_consent`, `Wf.C64_refused`, `Wf.C65_partial`, `Wf.C65_full_violated`, `Wf.C65_narrowed_violated`, `Wf.C37_return_violated`, `Wf.C37_limit_violated`, `Wf.C37_flushing_violated`, `Wf.C66_failed_violated`, `Pgv.C49_exact_partial`, `Pgv.C49_unsupported_partial`, `Wf.C67_log`, `Wf.C67_only_logs`, `Grpc.C68_timeout_violated`, `Tasks.C71_trigger_upload_violated`, `Tasks.C71_blocking_call_violated`, `Tasks.C71_killed_violated`, `Conf.C72_selectable`, `Conf.C72_written`, `Conf.C72_version`, `Conf.C72_cached`, `Conf.C72_stored`, `Conf.C72_started`, `Conf.C72_in_force_partial`, `Conf.C72_refused_partial`, `Conf.C72_flush_partial`, `Conf.C72_refused_violated`, `Conf.C72_refused_flush_violated`, `Conf.C72_nack_violated`, `Conf.C72_race_violated`, `Reconn.C73_growth`, `Reconn.C73_delay_partial`, `Reconn.C73_max_violated`, `Reconn.C74_offline`, `Reconn.C74_unknown`, `Reconn.C74_online_partial`, `Reentry.C75_guard`, `Reentry.C75_session_callback_violated`, `Reentry.C75_previous_callback_violated`, `Reentry.C75_blocking_callback_violated`, `Reentry.C75_provider_flush_violated`, `Reentry.C75_storage_error_violated`, `Reentry.C75_reporter_violated`, `Hyper.C76_out`, `Hyper.C76_delivered`, `Hyper.C76_in`, `Hyper.C76_received`, `Hyper.C76_runs_partial`, `Hyper.C76_reported_partial`, `Hyper.C76_progress_partial`, `Hyper.C76_deadlock_violated`, `Tasks.C77_signalled`, `Tasks.C77_returned_partial`, `Tasks.C77_flush_violated`, `Store.C79_process`, `Errors.C80_limit`, `Errors.C80_first_five`, `Errors.C80_disabled`, `Errors.C80_accounted`, `Errors.C80_counted`, `Errors.C80_target_partial`, `Errors.C81_spaced`, `Errors.C81_bounded`, `Errors.C81_not_lost`, `Proto.C82_same`, `Proto.C82_injective_partial`, `Proto.C82_strings_violated`, `Proto.C82_repeated_violated`, `Proto.C82_nested_violated`, `Proto.C82_zero_violated`, `Flow.C84_complete`, `Report.C85_follows`, `Report.C85_final`, `Report.C85_first_off`, `Report.C86_spaced`, `Report.C86_count`, `Report.C86_disabled`, `Report.C86_due`, `Report.C86_final`, `Report.C86_no_panic_partial`, `Report.C88_real`, `Report.C88_fresh_partial`, `Server.C92_guards`, `Server.C93_range`, `Server.C93_pool_partial`, `Server.C93_hint_violated`, `Size.C94_covers_partial`, `Size.C94_covers_log_partial`, `Size.C94_twice`, `Size.C94_twice_log`, `Size.C94_at_most`, `Size.C94_queue`, `Size.C94_session_violated`, `Server.C96_counted`, `Server.C96_told`, `Server.C96_not_cut`, `Server.C96_returns`, `Fb.C95_kept`, `Ping.C97_why`, `Ping.C97_spacing`, `Ping.C97_rate`, `Ping.C97_none`, `Ping.C97_hello`, `Ping.C97_exact`, `Ping.C97_not_late`, `Ping.C97_sent`, `Ping.C97_refines`, `Ping.C97_no_panic_partial`, `Ping.C97_overflow_violated`, `Ping.C97_dead_violated`, `Ring.C98_released`, `Wf.C99_refines`, `Wf.C99_workflows`, `Wf.C99_runs_partial`, `Wf.C99_runs_session_partial`, `Wf.C99_traversals_partial`, `Wf.C99_meaning`, `Wf.C99_log`, `Wf.C99_active_partial`, `Wf.C99_intents`, `Wf.C99_flushes`, `Wf.C99_limit_hits`, `Wf.C99_session_violated`, `Wf.C99_restore_violated`, `Wf.C99_fork_violated`, `Wf.C99_advance_violated`, `Sync.C100_available`, `Sync.C100_stream`, `Sync.C100_nack_violated`, `Crc32.C101_collision_violated`, `Crc32.C101_crash_violated`, `Wire.C103_size`, `Wire.C103_conforming`, `Wire.C103_handshake`, `Files.C104_not_removed`, `Files.C104_unwritten`, `Files.C104_died`, `Files.C104_runtime_violated`, `StatsBytes.C105_older`, `StatsBytes.C105_empty`, `Grpc.Ends.C107_isolated_partial`, `Grpc.Ends.C107_poisoned_violated`, `Grpc.Ends.C108_stream`, `Grpc.Ends.C108_registered`, `Grpc.Ends.C108_decompressed`, `Buffer.C109_reader`, `Buffer.C109_await_partial`, `Buffer.C109_loss_violated`, `Buffer.C109_consumer_drop_violated`, `Buffer.C110_waits_partial`, `Buffer.C110_waiting`, `Buffer.C110_spin_violated`, `Buffer.C111_persistent_partial`, `Switch.C112_off`, `Switch.C112_filters`, `Switch.C112_first`, `Switch.C112_current`, `Switch.C112_on_partial`, `Switch.C112_on_violated`, `Switch.C113_kept_violated`, `Switch.C113_one_violated`, `Wf.C114_start`, `Wf.C114_resume`, `Wf.C114_twice_violated`, `Wf.C114_restart_violated`, `Mgr.C117_failed_violated`, `Buffer.C118_not_removed`, `Wf.Stale.C120_sparing`, `Wf.Stale.C120_same_rule`, `Grpc.Streams.C123_sum_partial`, `Grpc.Streams.C123_once`, `Grpc.Streams.C123_messages`, `Grpc.Streams.C123_told`, `Upload.Service.C124_dropped`, `Upload.Service.C124_period`, `Upload.Service.C124_spin`, `Upload.Service.C124_order_violated`, `Session.Stamp.C125_progress_violated`, `Grpc.Resync.C126_resync_partial`, `Grpc.Resync.C126_lost_message_violated`, `Session.StampF.C127_block`, `Session.StampF.C127_not_earlier_partial`, `Session.StampF.C127_current`, `Session.StampF.C127_process`, `Session.StampF.C127_previous`

**Classical.choice, Quot.sound, propext** (324): `Buffer.C01_fifo`, `Buffer.C01_refines_spec`, `Buffer.C01_accounting`, `Buffer.C02_exclusive`, `Buffer.C03_reserve`, `Buffer.C04_overwrite_oldest`, `Session.C19_changes_exactly`, `Session.C19_start_new_is_new`, `Session.C19_restart`, `Startup.C22_tried_once`, `Startup.C23_rejected_later_silent`, `Startup.C23_kill_switch`, `Startup.C24_read`, `Startup.C24_notify`, `Startup.C24_type`, `Upload.C14_dropped_partial`, `Upload.C15_window`, `App.C45_one_at_a_time_partial`, `App.C45_passed_on`, `Time.C47_floor`, `Time.C47_floor_total`, `Time.C47_ceil_partial`, `Time.C47_ceil_bound`, `Time.C47_time_roundtrip`, `Time.C47_duration_std`, `Queue.C11_replay`, `Queue.C11_limits`, `Match.C29_meaning`, `Match.C29_rejected`, `Match.C29_missing_input`, `Match.C29_buffer_meaning`, `Match.C29_operator_violated`, `Match.C30_equal_iff`, `Match.C30_suffix_ignored`, `Match.C30_trans_partial`, `Match.C30_numeric`, `Match.C30_trans_violated`, `Match.C31_selection`, `Match.C31_order_irrelevant`, `Match.C32_process`, `Match.C32_broken_counted`, `Match.C32_frame`, `Match.C32_set`, `Match.C32_set_noop`, `Match.C32_remove`, `Match.C32_capture`, `Match.C32_regex`, `Match.C51_no_override_partial`, `Match.C51_no_override_violated`, `Upload.C12_limits`, `Upload.C13_acknowledged_partial`, `Upload.C13_returned_partial`, `Upload.C13_restart`, `Upload.C16_exclusive`, `Upload.C16_starts`, `Upload.C16_response`, `Upload.C16_again`, `Api.C17_once`, `Api.C17_answers`, `Api.C17_upload_ack`, `Api.C17_intent_ack`, `Api.C17_stream_end`, `Grpc.C18_split`, `Grpc.C18_chunks`, `Grpc.C18_roundtrip`, `Grpc.C18_partial_message`, `Net.C46_response`, `Meta.C41_unique`, `Meta.C41_precedence`, `Meta.C41_globals`, `Meta.C41_protected`, `Meta.C41_written_partial`, `Meta.C41_logged_at_violated`, `Meta.C53_override`, `Meta.C53_plain`, `Mgr.C50_events`, `Pipe.C42_flush_partial`, `Buffer.C05_never_loses`, `Buffer.C05_refines_spec`, `Buffer.C06_cursor_partial`, `Buffer.C06_restart_partial`, `Buffer.C08_checked`, `Buffer.C08_skips_partial`, `Buffer.C08_skips_calm_partial`, `Buffer.C08_counted`, `Buffer.C08_one`, `Buffer.C07_crash`, `Buffer.C07_between_calls`, `Buffer.C07_in_flight`, `Buffer.C07_crash_cursor`, `Buffer.stores_step`, `Buffer.C09_order`, `Buffer.C09_flush`, `Buffer.C09_no_drops`, `Buffer.C09_no_drops_cursor`, `Buffer.C09_shutdown`, `Buffer.C09_end_to_end`, `Buffer.C56_alive`, `Buffer.C56_alive_partial`, `Stats.C25_conserved`, `Stats.C25_lost_partial`, `Stats.C25_server_partial`, `Stats.C27_bounded`, `Stats.C27_same_metric`, `Stats.C27_recorded`, `Stats.C60_flush`, `Wf.C34_active_first`, `Wf.C34_reset`, `Wf.C34_idle`, `Wf.C35_history`, `Wf.C36_isolated`, `Wf.C38_not_lost`, `Wf.C61_stopped`, `Wf.C61_counted`, `Wf.C61_limit`, `Wf.C40_path`, `Wf.C40_bounded`, `Wf.C40_uncounted`, `Wf.C40_memory`, `Wf.C40_same_nodes`, `Wf.C40_identifier_partial`, `Wf.C40_reported_once`, `Wf.C40_cache_bounded`, `Wf.C64_answered`, `Wf.C37_restore_partial`, `Wf.C66_partial`, `Pgv.C49_length_violated`, `Wf.C67_records`, `Grpc.C68_unary_partial`, `Grpc.C68_answer`, `Grpc.C68_message_violated`, `Grpc.C68_trailers_violated`, `Grpc.C69_handler_partial`, `Grpc.C69_rest_violated`, `Grpc.C70_stream_partial`, `Grpc.C70_valid`, `Grpc.C70_undecodable`, `Grpc.C70_failed`, `Grpc.C70_invalid_partial`, `Grpc.C70_before_violated`, `Grpc.C70_text_violated`, `Grpc.C70_code_violated`, `Grpc.C70_cut_violated`, `Tasks.C71_stuck_partial`, `Tasks.C71_steps_bounded`, `Tasks.C71_comes_to_rest_partial`, `Tasks.C71_free`, `Tasks.C71_again`, `Conf.C72_answer`, `Reconn.C73_gap`, `Reconn.C73_rate`, `Reentry.C75_returns_partial`, `Tasks.C77_stuck_partial`, `Tasks.C77_steps_bounded`, `Tasks.C77_completes_partial`, `Tasks.C77_after`, `Tasks.C77_runs`, `Tasks.C77_undisturbed`, `Tasks.C77_answered`, `Tasks.C77_nonblocking_violated`, `Store.C78_format`, `Store.C78_canonical`, `Store.C78_read_back_partial`, `Store.C78_damaged_text_violated`, `Store.C79_stable_partial`, `Store.C79_stored_partial`, `Errors.C80_session_partial`, `Errors.C80_session_violated`, `Flow.C83_accounted`, `Flow.C83_order`, `Flow.C83_batches`, `Flow.C83_uploaded_partial`, `Flow.C83_once_partial`, `Flow.C83_progress`, `Flow.C84_once`, `Flow.C84_ends`, `Flow.C84_kept_partial`, `Report.C87_counts`, `Report.C87_sum`, `Report.C88_error_violated`, `Report.C88_moved_in_violated`, `Buffer.C89_refines`, `Buffer.C89_no_dangling`, `Buffer.C89_exclusive`, `Server.C90_limit`, `Server.C90_values`, `Server.C90_series`, `Server.C90_fallback`, `Server.C90_stable`, `Server.C90_race_tight`, `Server.C90_all_partial`, `Server.C90_collision_violated`, `Server.C91_name`, `Server.C91_labels`, `Server.C91_identity`, `Server.C91_once`, `Server.C91_sum`, `Server.C91_no_panic_partial`, `Server.C91_label_names_violated`, `Server.C91_kind_violated`, `Server.C92_gauge`, `Server.C96_graceful`, `Fb.C95_roundtrip`, `Fb.C95_refused`, `Fb.C95_independent`, `Fb.C95_injective`, `Fb.C95_age`, `Fb.C95_no_panic_partial`, `Fb.C95_foreign_time_violated`, `Wire.C98_server_partial`, `Ring.C98_refines_partial`, `Ring.C98_uploaded_partial`, `Ring.C98_kept_partial`, `Ring.C98_source_partial`, `Ring.C98_batches_partial`, `Ring.C98_alive_partial`, `Ring.C98_restart_partial`, `Wf.C99_marks`, `Wf.C99_ordered`, `Sync.C100_handshake`, `Sync.C100_answers`, `Sync.C100_ack_partial`, `Sync.C100_nack`, `Sync.C100_counters`, `Sync.C100_restart`, `Sync.C100_restart_runtime`, `Sync.C100_honest`, `Crc32.C101_burst`, `Crc32.C101_bytes`, `Crc32.C101_exact`, `Crc32.C101_record`, `Crc32.C101_stored`, `Crc32.C101_header`, `Crc32.C101_open`, `Crc32.C101_crash_partial`, `Crc32.C101_single`, `Wf.Snap.C102_format`, `Wf.Snap.C102_exact`, `Wf.Snap.C102_sound`, `Wf.Snap.C102_kept`, `Wf.Snap.C102_counted`, `Wf.Snap.C102_engine`, `Wf.Snap.C102_foreign_partial`, `Wf.Snap.C102_abort_violated`, `Wf.Snap.C102_clock_violated`, `Wf.Snap.C102_torn_violated`, `Wf.Snap.C102_transient_violated`, `Wire.C103_any_encoding`, `Wire.C103_roundtrip`, `Wire.C103_unique`, `Wire.C103_last`, `Wire.C103_newer`, `Wire.C103_older`, `Wire.C103_grpc`, `Wire.C103_logs`, `Wire.C104_cut`, `Files.C104_config`, `Files.C104_config_back`, `Files.C104_compressed`, `Files.C104_kill`, `Files.C104_runtime_partial`, `StatsBytes.C105_file`, `StatsBytes.C105_index`, `StatsBytes.C105_server`, `Buffer.C106_volatile`, `Buffer.C106_persistent_partial`, `Grpc.Ends.C108_ends`, `Buffer.C109_volatile`, `Buffer.C109_producer_partial`, `Buffer.C111_volatile`, `Buffer.C111_aggregate`, `Buffer.C111_consumer`, `Buffer.C111_flush_returns`, `Switch.C113_once`, `Switch.C113_progress`, `Switch.C113_kept_partial`, `Wf.C114_set_partial`, `Wf.C114_update_partial`, `Wf.C115_alone`, `Wf.C115_restored`, `Wf.C115_each_log`, `Wf.C116_accepted`, `Wf.C116_written`, `Wf.C116_others`, `Wf.C116_order`, `Wf.C116_runs_partial`, `Wf.C116_timeout_violated`, `Mgr.C117_exclusive`, `Mgr.C117_registers`, `Mgr.C117_follow_partial`, `Mgr.C117_nothing_else`, `Mgr.C117_request`, `Mgr.C117_stopped`, `Buffer.C118_opens`, `Buffer.C118_keeps`, `Buffer.C118_interrupted_partial`, `Wf.Writers.C119_state_partial`, `Wf.Writers.C119_stored_partial`, `Wf.Writers.C119_dropped`, `Wf.Writers.C119_forced`, `Wf.Writers.C119_stale_violated`, `Wf.Writers.C119_mixed_violated`, `Wf.Stale.C120_bounded_partial`, `Wf.Stale.C120_forced`, `Wf.Stale.C120_steady_violated`, `Flow.Consent.C121_consent`, `Flow.Consent.C121_all`, `Flow.Consent.C121_complete`, `Flow.Consent.C121_tasks`, `Net.Offline.C122_marked`, `Net.Offline.C122_offline`, `Net.Offline.C122_up`, `Net.Offline.C122_answered_partial`, `Net.Offline.C122_answered_violated`, `Net.Offline.C122_own_violated`, `Upload.Service.C124_rate`, `Upload.Service.C124_total_partial`, `Upload.Service.C124_goes_on`, `Session.Stamp.C125_block_partial`, `Session.Stamp.C125_not_earlier_partial`, `Session.Stamp.C125_turn`, `Grpc.Resync.C126_flag`, `Grpc.Resync.C126_lost_sync_violated`, `Session.StampF.C127_turn`
