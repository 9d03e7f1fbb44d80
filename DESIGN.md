# Formal model of nexo: design

Target: `emanuel-epifani/nexo` at the pinned commit in `/repo` (Rust server, TypeScript client library).
Model and proofs: Lean 4.33.0 (core library only, no Mathlib import), `/verif/lean/Verif`.

## Layout

* `Verif/Base/*`   association lists, ordered indexes, list lemmas. No claims.
* `Verif/Model/*`  the model of the code, function by function, each definition citing file and lines.
* `Verif/Spec/*`   small specifications that do not look at the state of the model (histories, observers, matchers).
* `Verif/Proofs/*` helper lemmas, invariants, refinements.
* `Verif/Props/*`  the property theorems, one file per area, with `example`s that exhibit non-trivial instances of
  their hypotheses.
* `/verif/seeded/LOG.jsonl` the wrong programs that the theorems have been tested against.

## Method

Every broker is modelled as a state plus total functions mirroring the Rust methods. The critical section of every
request (what happens while the broker's mutex is held) is one atomic step, so a sequence of steps covers every
interleaving of concurrent requests on the in-memory state. What happens outside the lock (sending storage commands,
waking waiters, disk reads) is modelled by separate steps, so the races there are visible.
Clocks are inputs of the steps; random UUIDs are inputs with a freshness hypothesis; hash-map iteration order is an
input where it can be observed; checksums are arbitrary functions; panics are explicit outcomes.
Where the code does not satisfy a property, the negation is proved with a concrete witness (`…_violated…`) and a
`…_partial` theorem states what does hold.

Which file models what:

| model | code | what it is |
| --- | --- | --- |
| `Model/Wire` | `transport/tcp/protocol/codec.rs`, `frame.rs`; `sdk/ts/src/codec.ts`, `connection.ts` | frames, incremental readers of both sides |
| `Model/Command` | `protocol/cursor.rs`, `dispatcher.rs`, `brokers/*/tcp.rs`; `sdk/ts/src/brokers/*.ts` | parsers, opcode routing, answers, client encoders and decoders |
| `Model/Connection` | `transport/tcp/connection.rs` | request tasks, push bridge, socket task of one connection |
| `Model/ConnBounded` | `transport/tcp/connection.rs:27-145` | the same with bounded channels and network: who waits for whom |
| `Model/Session` | `transport/tcp/connection.rs` | life of a connection from accept to cleanup, with aborted tasks |
| `Model/Store` | `brokers/store/*` | the key-value map with expiry, scan, cleanup |
| `Model/StoreScan` | `brokers/store/manager.rs:20-51` | a scan going through the shards of the map while other requests come |
| `Model/PubSub` | `brokers/pub-sub/*` | topic tree, clients, retained values, SQLite flush and load |
| `Model/PubSubRpc` | `pub-sub/tcp.rs:62-90`, `connection.rs:36-52`, `94-102` | publish/subscribe commands, the connections' push channels, arrival of pushes at the clients |
| `Model/Engine` | `lib.rs:18-40`, `dispatcher.rs:22-43` | the four brokers in one engine behind the dispatcher, with their background tasks |
| `Model/EngineCrash` | `lib.rs:26-40` | a crash of the whole process and the next start, for all four brokers |
| `Model/PubSubRace` | `brokers/pub-sub/manager.rs` | the lock sections of overlapping requests |
| `Model/PubSubScan` | `manager.rs` scan_topics, `radix_tree.rs` collect_filtered_topics, `http.rs` | dashboard listing |
| `Model/SdkPubSub` | `sdk/ts/src/brokers/pubsub.ts` | client-side matching and dispatch |
| `Model/SdkSubs` | `sdk/ts/src/brokers/pubsub.ts`, `transport/tcp/connection.rs` | subscriptions of client and server over lost connections |
| `Model/PubSubE2E` | `sdk/ts/src/brokers/pubsub.ts`, `connection.rs`, `pub-sub/manager.rs` | one subscriber, its connections and the broker together |
| `Model/Rpc` | `sdk/ts/src/connection.ts`, `connection.rs`, `codec.rs` | all clients, the byte streams and the server's tasks over an arbitrary engine |
| `Model/SdkConnection` | `sdk/ts/src/connection.ts` | requests, answers, timeouts, reconnects of the client |
| `Model/SdkQueue` | `sdk/ts/src/brokers/queue.ts`, `utils/concurrent.ts` | consumer loop of a queue subscription |
| `Model/SdkStream` | `sdk/ts/src/brokers/stream.ts` | consumer loop of a stream subscription |
| `Model/Queue` | `brokers/queue/domain/queue.rs`, `dlq.rs` | one queue: indexes, waits, dead letters |
| `Model/QueueManager` | `brokers/queue/manager.rs` | all queues, warm start, names |
| `Model/QueueRpc` | `queue/tcp.rs:193-258` | queue commands as calls of the manager, their answers; ids |
| `Model/QueueWriter` | `brokers/queue/domain/persistence.rs:128-221` | the storage task: channel, batches, timer, failing transactions, statements and commits |
| `Model/QueueLife` | `brokers/queue/manager.rs:104-148,238-278`, `domain/persistence.rs:61-200` | overlapping create, delete and use of one queue name, with files that lose their name while open |
| `Model/QueueE2E` | `sdk/ts/src/brokers/queue.ts:49-79,231-314`, `connection.ts:56-64,116-119,186-192` with the queue models | any number of consumers, a network that reorders and loses, and the queue with its storage |
| `Model/StreamE2E` | `sdk/ts/src/brokers/stream.ts:51-167,203-219`, `connection.ts` with the stream models | any number of consumers of a group, a network that reorders and loses, and the topic with its storage |
| `Model/Dashboard` | `brokers/queue/http.rs`, `brokers/stream/http.rs`, `transport/http/payload.rs` | dashboard requests for queues and streams, display of payloads |
| `Model/StreamLife` | `brokers/stream/manager.rs:95-174,414-514,539-570`, `domain/persistence.rs:166-269,447-506`, `topic.rs:28-59` | overlapping create, delete and publish on one topic name, storage channel, directory |
| `Model/StreamFault` | `brokers/stream/domain/persistence.rs:178-181,199-300,302-325,405-444` | failing file operations of the stream storage task, partial writes |
| `Model/QueueStore`, `QueueRace` | `brokers/queue/domain/persistence.rs`, `manager.rs` | database, batching writer, crash, two-phase requests |
| `Model/QueueWrap` | `brokers/queue/domain/queue.rs:381-414` | the same queue with wrapping 64-bit addition |
| `Model/QueueWait` | `brokers/queue/manager.rs` | long-polling consumers and notifications |
| `Model/StreamLog`, `StreamDisk` | `brokers/stream/domain/topic.rs`, `persistence.rs` | log in memory, segment files byte by byte, group file, retention, recovery |
| `Model/StreamGroup` | `brokers/stream/domain/group.rs` | one consumer group |
| `Model/StreamTopic` | `brokers/stream/manager.rs` | one topic with all its requests, background tasks and the storage actor |
| `Model/StreamRpc` | `stream/tcp.rs:166-225` | stream commands as sections of the manager's code, their answers |
| `Model/StreamWait` | `brokers/stream/manager.rs` | long-polling fetches and notifications |
| `Model/Paths` | `stream/manager.rs`, `persistence.rs`, `queue/manager.rs` | names to files |
| `Model/TopicDirs` | `stream/manager.rs:95-152,414-425,444-489`, `persistence.rs:189-216` | topics and directories over restarts |
| `Model/StreamCrash` | `stream/manager.rs:444-514` | a crash of the stream broker with all its topics |
| `Model/Config` | `config.rs`, `brokers/*/config.rs`, `lib.rs:30-40` | settings from the environment |
| `Model/StorePage` | `brokers/store/http.rs` | the dashboard's page of the store |
| `Model/DashboardUrl` | `dashboard/src/pages/dashboard/components/*`, `transport/http/router.rs` | addresses the dashboard asks for |
| `Model/DashboardValue` | `dashboard/src/lib/dashboard-value.ts` | size and kind of a value |
| `Model/DashboardWalk` | `dashboard/src/pages/dashboard/components/queue/queue.tsx:52-90`, `285-294` | going through the pages while the queue is used |
| `Model/DashboardPages` | `dashboard/src/pages/dashboard/components/*` | paging |
| `Model/SdkExists` | `sdk/ts/src/brokers/queue.ts:30-37,219-221`, `stream.ts:184-191` | `exists` in the client |
| `Model/SdkHandles` | `sdk/ts/src/client.ts:52-60`, `brokers/queue.ts:231-308` | who may consume a queue of a client |

## Per property: how it is modelled, what is proved

* **C01** Frame round trip: `encode`/`decode` as total functions on byte lists; round-trip theorem for every frame and suffix.
  Status: proved. Theorems: `Wire.C01_round_trip`, `Wire.C01_request`. server frames against both decoders, client requests against the server's.
* **C02** Decoding does not depend on how TCP chunks the bytes: incremental decoder (buffer + chunk) against a one-shot parser of the concatenation; induction on the chunks.
  Status: proved. Theorems: `Wire.C02_chunking`, `Wire.C02_client`, `Wire.C02_everything_arrives`. server reader and client reader.
* **C03** Oversized requests are refused before they are buffered: decision-logic theorem about `decode`; invariant that every emitted payload is within the limit.
  Status: proved. Theorems: `Wire.C03_refused`, `Wire.C03_bounded`.
* **C04** Every request byte string is either a command or an error, and a rejected request has no effect: cursor readers are total functions into `Except`; dispatch of a request that fails to parse leaves the engine unchanged.
  Status: proved. Theorems: `Wire.C04_total`, `Wire.C04_wellformed`. readers modelled with explicit panics; serde is a parameter.
* **C05** Client requests are understood as they were meant: client encoders (TypeScript) and server parsers on byte lists; one round-trip theorem per command.
  Status: proved. Theorems: `Wire.C05_understood`, `Wire.C05_ids`, `Wire.C05_ids_only`, `Wire.C05_ids_text`, `Wire.C05_names_text`. hypothesis: serde reads back the JSON options that JSON.stringify wrote.
* **C06** Server answers are understood as they were meant: server response encoders and client decoders; round-trip by induction on the list of messages.
  Status: partial. Theorems: `Wire.C06_values`, `Wire.C06_consume_partial`, `Wire.C06_peek_partial`, `Wire.C06_fetch_partial`, `Wire.C06_push_partial`, `Wire.C06_scalars`, `Wire.C06_error`, `Wire.C06_violated_empty_payload`. the code violates it for empty payloads (client decoder throws); proved for non-empty payloads and for all scalar answers.
* **C07** Opcode routing is unambiguous: the dispatcher's range table as a function; theorems over all 256 opcodes and all engine states.
  Status: proved. Theorems: `Wire.C07_route`, `Wire.C07_dispatch`, `Wire.C07_only_requests`.
* **C08** One response per request, correlated by id: connection as a transition system (inbound frames, tasks, outbox); invariant over all schedules.
  Status: partial. Theorems: `Wire.C08_sound`, `Wire.C08_complete_partial`, `Wire.C08_violated`. soundness in full; completeness needs that no handler panics, and the code violates it when one does.
* **C09** Store reads return the latest live write: refinement: model store vs. 'last write' specification computed from the history.
  Status: partial. Theorems: `Store.C09_latest_write_partial`, `Store.C09_boundary_violated`. Proved for every clock reading except the exact nanosecond at which the value expires; there GET and the cleanup disagree (C09_boundary_violated). A SET whose TTL cannot be added to the clock panics and gets no answer (such a SET is not a write in lastWrite).
* **C10** Expired keys are never returned: corollary of the refinement plus boundary theorem; default-TTL theorem.
  Status: proved. Theorems: `Store.C10_expired_never_returned`.
* **C11** Store scans are sound and complete: scan against a filter of the specification map. The page/total quirks of the code are stated as theorems.
  Status: proved. Theorems: `Store.C11_scan_sound`, `Store.C11_scan_complete`, `Store.C11_pages`. The scan is modelled as an atomic snapshot of the map, visited in any order.
* **C12** Keys are independent: frame property of the refinement.
  Status: proved. Theorems: `Store.C12_independent`.
* **C13** Publish reaches exactly the matching subscribers: tree semantics `subscriber at path`; insertion/removal/matching characterised; manager invariant over histories; specification = set of (client, pattern) pairs and a recursive matcher.
  Status: proved. Theorems: `PubSub.C13_publish`. All histories, patterns whose # is last, topics, payloads; retained publishes with a representable time to live.
* **C14** At most one copy per client and publish: same invariant, with mailbox contents as lists.
  Status: proved. Theorems: `PubSub.C14_one_copy`, `PubSub.C14_count`. All histories and publishes; count equals the number of distinct connected clients with a matching subscription.
* **C15** Unsubscribe removes that subscription and nothing else: same invariant; negative theorem for patterns with an inner '#'.
  Status: proved. Theorems: `PubSub.C15_gone`, `PubSub.C15_others`. Patterns whose # is last, as the property says; C15_inner_hash_aliased shows a/# and a/#/b share one subscription.
* **C16** Disconnect removes all of a client's subscriptions: same invariant.
  Status: proved. Theorems: `PubSub.C16_never`, `PubSub.C16_others`. Every later operation of any history, with operations atomic; requests that overlap with the disconnect are in C73 and C74.
* **C17** Client-side dispatch agrees with server-side routing: TypeScript `matchesParts` as a function, equality with the server matcher.
  Status: proved. Theorems: `PubSub.C17_agrees`, `PubSub.C17_dispatch`. TypeScript matcher against the server's routing for all patterns and topics; dispatch for every subscribe/unsubscribe history.
* **C18** New subscribers get the last retained value of every matching topic: tree semantics of retained values, collected list is a permutation of the specification's list.
  Status: partial. Theorems: `PubSub.C18_retained_partial`, `PubSub.C18_violated`, `PubSub.C18_values`. False as to the label: values of topics that begin with '/' are announced with the leading separators removed (C18_violated). Apart from the label proved for all topics (C18_values); with the label for topics that do not begin with '/'.
* **C19** Clearing a retained value: same.
  Status: partial. Theorems: `PubSub.C19_cleared_partial`, `PubSub.C19_others_partial`, `PubSub.C19_exact`. C19_exact is unrestricted; the topic-labelled forms assume no topic begins with '/'.
* **C20** Retained values respect their time to live: same, with clock.
  Status: partial. Theorems: `PubSub.C20_ttl_partial`, `PubSub.C20_cleanup_invisible`, `PubSub.C20_values`. C20_values and C20_cleanup_invisible are unrestricted; with the topic's own label the exact expiry instant is stated for topics not beginning with '/'.
* **C21** Retained values survive a restart: flush/load as functions on a table; partial theorem (no leading '/', not expired while down) and three negative theorems.
  Status: partial. Theorems: `PubSub.C21_restart_partial`, `PubSub.C21_violated_leading_slash`, `PubSub.C21_violated_clash`, `PubSub.C21_violated_expired_while_down`, `PubSub.C21_violated_failed_flush`. Holds for topics not beginning with '/', successful flushes and values still alive at the restart; the four witnesses show the code violates the rest.
* **C22** Every pushed message is in exactly one place: refinement of the three indexed structures to three lists; permutation invariant over histories.
  Status: proved. Theorems: `Queue.C22_conservation`.
* **C23** Priority first, then order of arrival: refinement: consume takes from the ready list the first element of maximal priority.
  Status: proved. Theorems: `Queue.C23_priority_then_arrival`, `Queue.C23_batch_sorted`.
* **C24** A consume returns as much as it may and no more: refinement.
  Status: partial. Theorems: `Queue.C24_consume_exact_partial`, `Queue.C24_huge_batch_panics`. Holds whenever the requested batch fits in memory (n * sizeof(Message) <= isize::MAX); a larger request panics in Vec::with_capacity and the queue lock is poisoned or the request gets no answer, which is proved as C24_huge_batch_panics.
* **C25** Exclusive visibility window: history invariant (deadline of every in-flight message).
  Status: partial. Theorems: `Queue.C25_exclusive`, `Queue.C97_exclusive_partial`, `Queue.C97_violated`. C25_exclusive is about unbounded numbers; for the wrapping 64-bit addition of a release build it holds when clock + timeout < 2^64 and is false beyond.
* **C26** Timed-out messages come back: refinement of the timeout step.
  Status: proved. Theorems: `Queue.C26_timeout`.
* **C27** Acknowledged messages never come back: history invariant.
  Status: proved. Theorems: `Queue.C27_ack_final`.
* **C28** Bounded number of deliveries: history invariant on delivery counts.
  Status: proved. Theorems: `Queue.C28_bounded_deliveries`, `Queue.C28_dead_letter`, `Queue.C28_requeued`.
* **C29** Dead-letter operations are exact: refinement.
  Status: proved. Theorems: `Queue.C29_peek`, `Queue.C29_replay`, `Queue.C29_missing`, `Queue.C29_delete`, `Queue.C29_purge`.
* **C30** Counters tell the truth: refinement.
  Status: proved. Theorems: `Queue.C30_counters`, `Queue.C30_listing`, `Queue.C30_states`.
* **C31** Queues are independent: manager level frame theorem.
  Status: proved. Theorems: `Queue.C31_independent`, `Queue.C31_answers`, `Queue.C31_missing`, `Queue.C31_recreate`. create_queue and delete_queue are modelled as atomic; a delete that overlaps a create or a push of the same queue is not covered. The part of C31_recreate about files is for names without "/"; for the others no file is ever written.
* **C32** A clean restart restores the queue: database tables as lists; refinement between tables and memory for in-order storage operations; recovery function.
  Status: proved. Theorems: `Queue.C32_clean_restart`.
* **C33** Crash consistency of the queue: writer with batches; crash = committed prefix.
  Status: proved. Theorems: `Queue.C33_crash`, `Queue.C33_ack_not_undone`, `Queue.C33_push_not_lost`. The writer applies operations in the order in which it receives them (see C34 for overlapping requests) and a commit that fails loses its batch (not modelled).
* **C34** Durability does not depend on thread scheduling: two-phase requests (state change, then send) and arbitrary interleavings; negative theorem with a schedule; partial theorem for schedules that keep the per-message order.
  Status: partial. Theorems: `Queue.C34_violated`, `Queue.C34_ordered_partial`. The code violates the property: storage operations are sent after the lock is released. Proved: the violation, and the property under the hypothesis that the operations of each message reach the writer in request order.
* **C35** Retry limit across restarts: negative theorem with a history; partial theorem.
  Status: partial. Theorems: `Queue.C35_violated`, `Queue.C35_clean_restarts_partial`, `Queue.C35_any_restarts_partial`. The code violates the property (one more delivery per clean restart). Proved: the violation, and the bounds that do hold.
* **C36** Queue names survive a restart: file-name round trip, partial + negative theorem.
  Status: partial. Theorems: `Queue.C36_violated`, `Queue.C36_nested_violated`, `Queue.C36_alone_partial`, `Queue.C36_names_partial`. The code violates the property for names ending in .db and for names with "/". Proved: both violations, and the property for all other names.
* **C37** Long-polling consumers are not forgotten: transition system with waiters, notify and producers; invariant.
  Status: proved. Theorems: `Queue.C37_no_lost_wakeup`, `Queue.C37_try_succeeds`.
* **C38** Sequence numbers are dense and increasing: topic state invariant (contiguous window), history theorem.
  Status: proved. Theorems: `Stream.C38_dense`, `Stream.C38_next_number`, `Stream.C38_first`. One run of the server; the numbers after a restart are C57.
* **C39** The log is immutable and readable: topic + disk model; read refines a window of the published list.
  Status: partial. Theorems: `Stream.C39_numbered`, `Stream.C39_read_now`, `Stream.C39_fetch`, `Stream.C39_read`, `Stream.C39_from_files_partial`, `Stream.C60_violated`. Every message that any fetch or read returns is a published one, unchanged (C39_fetch, C39_read: every history, also with concurrent publishers that reach the storage task in any order; message sizes fit their length fields). Reads answered from memory are complete and in order in every history. Reads that go to the files: complete and in order for orderly histories (each publisher hands its message to the storage task before the next one does; clock monotone if age retention is on). C60_violated shows that without that order a cold read returns messages in the wrong order.
* **C40** Memory eviction never drops unpersisted data: storage actor model with buffered writers and LRU; invariant.
  Status: partial. Theorems: `Stream.C40_nothing_lost_partial`, `Stream.C40_evict_partial`, `Stream.C40_violated`. Proved for orderly histories. C40_violated: when concurrent publishers reach the storage task in the other order, an unwritten message is evicted.
* **C41** Retention removes only a prefix and never the newest segment: retention on segment lists; suffix theorem; partial for age (monotone modification times) + negative theorem.
  Status: proved. Theorems: `Stream.C41_old_end`, `Stream.C41_newest_kept`, `Stream.C41_age_exact`, `Stream.C41_size_exact`, `Stream.C41_no_limits`, `Stream.C41_prefix`, `Stream.C41_only_retention`, `Stream.C41_head`. Exact for all segment lists; the age limit deletes a prefix when modification times are ordered, which C41_prefix shows for every history in which the clock does not go backwards.
* **C42** No message is skipped by a consumer group: group invariant with history of acknowledgements.
  Status: proved. Theorems: `Stream.C42_nothing_skipped`, `Stream.C42_tracked`. Within one run, from a new topic or files in order (Started). The restart itself is C59.
* **C43** Fresh messages are delivered in order, once: same.
  Status: proved. Theorems: `Stream.C43_in_order`, `Stream.C43_answer_in_order`, `Stream.C43_no_gap`.
* **C44** A message is held by at most one consumer of a group: same.
  Status: proved. Theorems: `Stream.C44_one_holder`.
* **C45** Acknowledged stream messages are not redelivered: same.
  Status: proved. Theorems: `Stream.C45_acked_not_redelivered`. Within one run of the server.
* **C46** Backpressure bound: same.
  Status: proved. Theorems: `Stream.C46_backpressure`, `Stream.C46_limit`, `Stream.C46_limit_always`.
* **C47** Delivery limit: same.
  Status: proved. Theorems: `Stream.C47_delivery_limit`, `Stream.C47_set_aside`.
* **C48** Only the holder can acknowledge: decision logic.
  Status: proved. Theorems: `Stream.C48_accepted_iff`, `Stream.C48_rejected_unchanged`.
* **C49** Seek fences everyone: invariant over generations, including fetches in progress.
  Status: proved. Theorems: `Stream.C49_fenced_fetch`, `Stream.C49_fenced_ack`, `Stream.C49_seek_beginning`, `Stream.C49_seek_beginning_due`, `Stream.C49_seek_end`.
* **C50** Leaving releases exactly the leaver's messages: decision logic on pending sets.
  Status: proved. Theorems: `Stream.C50_leave`, `Stream.C50_disconnect`.
* **C51** Ack deadline: decision logic; iteration order of the hash map is a parameter.
  Status: proved. Theorems: `Stream.C51_deadline`.
* **C52** Progress reported to joiners is true and monotone: invariant + monotonicity of every step except seek.
  Status: proved. Theorems: `Stream.C52_true`, `Stream.C52_monotone`. Within one run of the server.
* **C53** Groups and topics are independent: frame theorem at manager level.
  Status: proved. Theorems: `Stream.C53_groups_independent`. Groups of one topic; topics share no group state in the model (see DESIGN).
* **C54** A fetch makes progress: progress theorem for the states with no disk read in progress; negative theorem for an aborted disk read.
  Status: partial. Theorems: `Stream.C54_partial`, `Stream.C54_violated`. Violated by the code: a fetch dropped during its disk read (consumer disconnects) leaves the group's 'cold fetch in progress' flag set, after which members get empty answers (C54_violated). C54_partial: for histories in which no fetch is dropped during its disk read, a fetch by a member of a group below its limit that is owed a message returns one from memory, or after the storage task has handled the commands queued before it; unless retention removed an owed message meanwhile. Also assumes publishers reach the storage task in order.
* **C55** Log records round trip and damage is confined: byte-level round trip, prefix recovery for every cut; the checksum is an arbitrary function.
  Status: proved. Theorems: `Stream.C55_load`, `Stream.C55_read`, `Stream.C55_cut`, `Stream.C55_load_intact`, `Stream.C55_read_intact`, `Stream.C55_damaged`. Round trip, every cut position, and arbitrary file contents: whatever is returned is an intact record of the file. Any checksum function.
* **C56** Group progress file round trips: byte-level round trip, partial + negative theorem.
  Status: partial. Theorems: `Stream.C56_round_trip_partial`, `Stream.C56_violated`. Round trip for group names shorter than 65536 bytes and positions below 2^64; the code violates the property for longer names (witness).
* **C57** Sequence numbers are not reused after a restart: partial + negative theorem.
  Status: partial. Theorems: `Stream.C57_violated`, `Stream.C57_partial`. Fails when the newest segment holds no complete record at the crash (C57_violated); holds for every crash point that leaves one there, for orderly histories.
* **C58** Flushed messages survive any number of restarts: partial + negative theorem.
  Status: partial. Theorems: `Stream.C58_violated`, `Stream.C58_crash_partial`, `Stream.C58_restarts_partial`. Fails after two restarts because a torn tail is never cut off (C58_violated). One crash at any point that leaves a complete record in the newest segment: proved. Any number of restarts without torn writes: proved. Orderly histories.
* **C59** After a restart a group gets everything it has not acknowledged: partial + negative theorem.
  Status: partial. Theorems: `Stream.C59_violated`, `Stream.C59_not_skipped_partial`, `Stream.C59_flushed_partial`, `Stream.C59_unsettled_partial`. Fails when progress was saved before the acknowledged messages were flushed (C59_violated). Proved: nothing above the saved progress is skipped; if the saved progress was flushed, all new messages are above it. Any crash: a message that the group had not settled when the server stopped is owed to it again after the restart if it is still in the log (no seek of the group in that run).
* **C60** Concurrent publishers do not disturb the log: two-phase publishers, negative theorem; partial for atomic publishers.
  Status: partial. Theorems: `Stream.C60_violated`, `Stream.C60_partial`. Fails for concurrent publishers (C60_violated); holds when they reach the storage task in the order of their numbers.
* **C61** Topic and queue names stay inside the data directory: path join as a function; partial + negative theorem.
  Status: partial. Theorems: `Paths.C61_partial`, `Paths.C61_violated_parent`, `Paths.C61_violated_absolute`. Holds for names that do not begin with '/' and have no part '..'. For the others the code violates it: PathBuf::join takes the name as it is, and delete removes directories outside. Path resolution is lexical (no symbolic links).
* **C62** Closing a connection releases what it held: connection life cycle; partial (clean end) + negative theorem (error end).
  Status: partial. Theorems: `Session.C62_partial`, `Session.C62_cleanup_ends`, `Session.C62_violated_error`, `Session.C62_violated_error_witness`, `Session.C62_violated_half_frame`, `Session.C62_violated_running`. Proved for clean closes when no join is executing on another thread at the moment of the abort. Violated when the connection ends by an error (half a frame is enough), and by a join that is executing while the tasks are aborted. The set of topics is fixed during a run; requests are atomic broker steps.
* **C63** Client request ids stay valid: JavaScript integer semantics; partial (first 2^31-1 requests) + negative theorem.
  Status: partial. Theorems: `Wire.C63_ids_partial`, `Wire.C63_violated`. the code violates it from request 2^31 on; proved for the requests before.
* **C64** Path resolution and file suffixes of topics and queues (Model/Paths.lean); characterise when two names give the same path; refute with concrete names, prove for names without separators.
  Status: partial. Theorems: `Paths.C64_partial`, `Paths.C64_kinds_partial`, `Paths.C64_violated`, `Paths.C64_segments`. Holds for names that are possible file names (no '/', not empty, not '.' or '..'). Violated by nested names such as 'a' and 'a/b', by './a' and by the empty name.
* **C65** Notifications as a counter, waiting fetches as a loop over it (Model/StreamWait.lean), interleaved with every step of the topic; invariant: a sleeping fetch whose counter is current belongs to a group that is owed nothing, or a notification is still to come.
  Status: proved. Theorems: `Stream.C65_no_lost_wakeup`, `Stream.C65_woken_gets`. Every schedule of topic steps, notifications and waiting fetches. C65_no_lost_wakeup: as soon as the steps that changed something have called notify, a waiting fetch of a group that is owed a message has been woken and tries again. C65_woken_gets: the retry returns a message or goes to the files, if the consumer is still a member, below the limit, and no fetch was dropped during a disk read (C54). tokio's Notify is modelled as a counter of notify_waiters calls.
* **C66** Invariant on the dirty flag: if it is clear, the newest saved progress (file, or command in the channel) covers every message that is settled together with all before it; a step that leaves the flag clear settles nothing (case analysis over all events). Then an invariant on the prefix of the channel until the command has been handled, the round trip of the group file, and the bound of the progress by 2^64.
  Status: proved. Theorems: `Stream.C66_progress`, `Stream.C66_not_redelivered`. Group names must be valid text of fewer than 2^16 bytes and sequence numbers below 2^64. Handed to the operating system counts as written (the code never calls fsync). C66_not_redelivered speaks of restarts from files that are in order (Started; C57 says when).
* **C67** State machine of `connection.ts` (Model/SdkConnection.lean): pending table, id counter, sweep, socket events. Conservation law: outcomes so far + waiting entries ≤ requests, with equality without disconnect(); origin of every pending entry for the right answer.
  Status: partial. Theorems: `Sdk.C67_at_most_once`, `Sdk.C67_right_answer`, `Sdk.C67_settled_partial`, `Sdk.C67_closed_partial`, `Sdk.C67_violated`. At most one outcome and the right answer are proved without restriction. Settlement is proved for histories without disconnect() and with fewer than 2^31-1 frames (ids, C63); disconnect() forgets outstanding requests without settling them (C67_violated).
* **C68** Same machine: a state with the stop flag, no socket and no timer is closed under every event; a witness for the call during the wait.
  Status: partial. Theorems: `Sdk.C68_final_partial`, `Sdk.C68_violated`. Proved when disconnect() is called while a socket exists; false when it is called while the client waits before the next attempt (C68_violated).
* **C69** Same machine: invariant that exactly one of connected, connecting, timer pending holds until disconnect().
  Status: proved. Theorems: `Sdk.C69_keeps_trying`, `Sdk.C69_again`.
* **C70** State machine of the loop in `queue.ts` and of `runConcurrent` (Model/SdkQueue.lean), observed through its outputs; invariant that ties the outputs about a message to where the message is (to do, in progress, done); measure for the end after stop().
  Status: proved. Theorems: `Sdk.QueueLoop.C70_once`, `Sdk.QueueLoop.C70_order`, `Sdk.QueueLoop.C70_ack`, `Sdk.QueueLoop.C70_nack`, `Sdk.QueueLoop.C70_bound`, `Sdk.QueueLoop.C70_in_progress`, `Sdk.QueueLoop.C70_settled`, `Sdk.QueueLoop.C70_stop`, `Sdk.QueueLoop.C70_stop_ends`.
* **C71** State machine of the loop in `stream.ts` (Model/SdkStream.lean), simulated by the moves of C70; invariant on the membership used for acknowledgements.
  Status: partial. Theorems: `Sdk.StreamLoop.C71_once`, `Sdk.StreamLoop.C71_order`, `Sdk.StreamLoop.C71_ack`, `Sdk.StreamLoop.C71_bound`, `Sdk.StreamLoop.C71_stop`, `Sdk.StreamLoop.C71_stop_ends`, `Sdk.StreamLoop.C71_leave_partial`, `Sdk.StreamLoop.C71_violated`. Everything but the last clause is proved without restriction. stop() leaves the group unless it is called while the consumer joins it again (C71_leave_partial, C71_violated).
* **C72** Client maps, requests and answers on their way in any order, and the server's subscriptions of the connection (Model/SdkSubs.lean); invariant that at most one request per topic is outstanding and that client and server agree on all topics without one.
  Status: partial. Theorems: `PubSub.Sdk.C72_restored_partial`, `PubSub.Sdk.C72_kept`, `PubSub.Sdk.C72_violated`, `PubSub.Sdk.C72_violated_twice`, `PubSub.Sdk.C72_violated_late`. Proved for histories in which no request times out and unsubscribe is not called for a topic while a request for the same topic is outstanding (resubscriptions included); false otherwise (the violated theorems). C72_kept holds without restriction.
* **C73** Every use of the client table or the topic tree is one step; requests in progress are numbered tasks (Model/PubSubRace.lean). Induction over the events: a live client is never removed, a subscription stays in the tree, a publish goes through its phases once.
  Status: proved. Theorems: `PubSub.Race.C73_reaches`, `PubSub.Race.C73_once`, `PubSub.Race.C73_not`, `PubSub.Race.C73_gone`, `PubSub.Race.C73_ends`. Every use of the client table or the tree is a step of its own; requests interleave freely. Patterns with an inner # (which alias each other) are excluded by `Proper`.
* **C74** Model/PubSubRace.lean and the listing of Model/PubSubScan.lean. Invariant tying table, tree and tasks of one client together (Proofs/PubSubLeft.lean); at rest the tasks are gone and table and tree agree.
  Status: partial. Theorems: `PubSub.Race.C74_counts_partial`, `PubSub.Race.C74_listed_partial`, `PubSub.Race.C74_violated`, `PubSub.Race.C74_violated_overlap`. False in general: a disconnection between the two sections of a subscription leaves it in the tree for ever (C74_violated), an unsubscribe that overtakes a subscribe is lost (C74_violated_overlap). Proved for clients that await the answer before the opposite request and are not removed while they subscribe.
* **C75** Model/PubSubRace.lean. Only the last publish can send on the topic once it has begun; the retained value changes only in the first section of a publish.
  Status: partial. Theorems: `PubSub.Race.C75_last_partial`, `PubSub.Race.C75_greeting`, `PubSub.Race.C75_violated`. False for overlapping retained publishes on one topic (C75_violated). Proved when the last publish on the topic does not overlap another one; which value a new subscriber gets is proved without restriction on overlaps.
* **C76** The walk of the tree, the sort, the paging and the search (Model/PubSubScan.lean) on top of Model/PubSub.lean. The tree is good (no dead nodes, labels without /) after every history; the walk visits every node once; together with the refinement of C14-C21 each line is tied to the history.
  Status: partial. Theorems: `PubSub.C76_right_partial`, `PubSub.C76_listed_partial`, `PubSub.C76_once_partial`, `PubSub.C76_pages`, `PubSub.C76_search`, `PubSub.C76_clients`, `PubSub.C76_violated`, `PubSub.C76_violated_twice`. Names with a leading / are shown without it and the empty name is not shown (C76_violated); a retained value under a name with wildcard levels gives a second line (C76_violated_twice). For all other names the listing is exact. Pages, search and client lists hold without that restriction.
* **C77** Model/QueueWriter.lean: channel, batch, timer and the outcome of each transaction. Refinement to the one-by-one writer of C32-C35 as long as nothing but the start of a transaction fails; witnesses for failing commits and statements.
  Status: partial. Theorems: `Queue.C77_refines_partial`, `Queue.C77_durable_partial`, `Queue.C77_acked_partial`, `Queue.C77_pushed_partial`, `Queue.C77_violated`, `Queue.C77_violated_acked`, `Queue.C77_violated_move`. Proved for every batch size and schedule of the storage task, with transactions failing to start any number of times. False when a commit or the second statement of a move fails: the batch is dropped, respectively the message is in neither table (C77_violated, C77_violated_acked, C77_violated_move).
* **C78** Model/QueueWriter.lean. Invariant over memory, database, batch and channel: every message in any of them was pushed with that payload, priority and time; holds whatever fails.
  Status: proved. Theorems: `Queue.C78_sound`, `Queue.C78_delivered`. Whatever fails: transactions, statements, commits, process.
* **C79** Model/QueueLife.lean: objects, storage tasks, files with or without a name, deletes in four stages. Simulation by the one-at-a-time queue of C36 as long as no create or restart falls into a delete; witnesses otherwise.
  Status: partial. Theorems: `Queue.C79_alone_partial`, `Queue.C79_deleted_partial`, `Queue.C79_created_partial`, `Queue.C79_violated`, `Queue.C79_violated_old`, `Queue.C79_violated_two`. Proved for histories in which no create begins, and the process does not end, while a delete of the queue is unanswered; deletes may overlap each other and everything else. False otherwise (C79_violated: the rest of the delete removes the new queue's files; C79_violated_old: the new queue holds the old messages; C79_violated_two: also for a client whose own delete was answered).
* **C80** Model/StreamLife.lean: requests cut at their awaits, the storage task's channel, the directory. Invariant: while the topic is deleted, the channel ends with a drop and handling it leaves no directory.
  Status: partial. Theorems: `StreamLife.C80_deleted_partial`, `StreamLife.C80_violated`. Proved when the delete begins while no publish or create of the topic is unanswered and no group progress is on its way. False when a publish overlaps the delete (C80_violated).
* **C81** Model/StreamLife.lean. Invariant: a create nobody interferes with sees no directory at each stage; while the topic exists, records on disk, in the channel and unsent are the topic's messages up to order, and saved progress is a past state of its groups.
  Status: partial. Theorems: `StreamLife.C81_created_partial`, `StreamLife.C81_restart_partial`, `StreamLife.C81_durable_partial`, `StreamLife.C81_violated_creates`, `StreamLife.C81_violated_delete`, `StreamLife.C81_violated_config`, `StreamLife.C81_violated_groups`. Proved when creates and deletes of the topic do not overlap each other, publishes or the saving of groups; publishes may overlap each other. False for two overlapping creates (C81_violated_creates), a create overlapping a delete (C81_violated_delete, C81_violated_config) and group progress saved late (C81_violated_groups).
* **C82** Model/StreamFault.lean. Files hold whole records of published messages (induction over failing histories). For failing flushes: the invariant of StreamDurable with a writer whose bytes are still in memory; a flush that succeeds restores it.
  Status: partial. Theorems: `Stream.C82_fetch_partial`, `Stream.C82_read_partial`, `Stream.C82_flush_partial`, `Stream.C82_violated`, `Stream.C82_violated_stuck`, `Stream.C82_violated_read`, `Stream.C82_violated_forged`, `Stream.C82_violated_torn`. False as stated: an open that fails once loses an answered message without a crash, and every group that has not had it gets nothing any more; an unreadable segment is left out of read answers; after a torn record the reader can deliver a message nobody published (also after a plain crash). Proved: whatever fails, as long as no file is left with part of a record, everything fetched or read has been published unchanged; if only flushes of open writers, saves and reads fail, nothing is lost after the next successful flush. Not modelled: failures of remove_file, metadata and read_dir.
* **C83** Model/StoreScan.lean: len and iterator go shard by shard with other requests between. Invariant: entries seen are in visited shards, without duplicates, each present at its visit; counting by shards.
  Status: partial. Theorems: `Store.C83_once`, `Store.C83_sound`, `Store.C83_complete`, `Store.C83_total`, `Store.C83_violated_total`, `Store.C83_violated_page`. All clauses but two are proved without restriction. False: the total ignores the filter and counts expired keys (C83_violated_total); expired keys take places of a page, so that a page can be short or empty before the end (C83_violated_page). Assumes DashMap's iterator reads each shard under its lock, once.
* **C84** `Model/QueueE2E` joins the consumer loop of `Model/SdkQueue` (any number of clients), a network that delivers in any order or loses, and the queue with its storage of `Model/QueueStore`. Proved by projecting a run to the server's events (`server_run`), an invariant that every acknowledgement on its way or executed comes from a callback that returned (`requests_processed`), and for crashes the invariant `Held`: whatever part of the outstanding storage operations is committed, one of the tables has the message.
  Status: proved. Theorems: `QueueE2E.C84_not_lost`, `QueueE2E.C84_stored`. Requests execute one after the other at the server; C34 is about storage operations of overlapping requests.
* **C85** Same model. Every delivery has a number that is in exactly one place (answer on its way, received and not taken, called): invariant `Tok`, so calls are at most deliveries, which C35 bounds. Contents: invariant `SC` (everything in memory, tables and outstanding operations was pushed). The last sentence is false: `C85_violated` (a consumer that is stopped refuses what it has not started, which uses up an attempt) and `C85_violated_neighbour` (an undecodable message makes the client give up the whole batch).
  Status: partial. Theorems: `QueueE2E.C85_faithful_partial`, `QueueE2E.C85_bounded_partial`, `QueueE2E.C85_violated`, `QueueE2E.C85_violated_neighbour`. Contents and bound proved; that a message is dead-lettered only after a call is refuted.
* **C86** `Model/StreamE2E` joins the loop of `Model/SdkStream` (any number of clients), a network that delivers in any order or loses, and the topic of `Model/StreamTopic`. A run is projected to the topic's events; an invariant says that every acknowledgement on its way or executed comes from a callback that returned (`acks_processed`); C52 says what the reported progress covers. For a new topic the invariant `Clean` excludes removed and skipped messages.
  Status: proved. Theorems: `StreamE2E.C86_acked`, `StreamE2E.C86_progress`, `StreamE2E.C86_new_topic`. One run of the server; restarts are the subject of C58 and C59.
* **C87** Same model. Every delivery has a number that is in exactly one place (answer on its way, received and not taken, called): invariant `NTok`, so calls are at most deliveries, which C47 bounds. Contents by `deliveries_published`. The last sentence is false: `C87_violated` (a consumer that is stopped before it starts on a message leaves the group, which uses up a delivery).
  Status: partial. Theorems: `StreamE2E.C87_faithful_partial`, `StreamE2E.C87_bounded_partial`, `StreamE2E.C87_violated`. Contents and bound proved; that a message is given up only after a call is refuted.
* **C88** Same model. Invariant `Ord`: the numbers of the deliveries a client has been called with, holds and is still to get increase, since a client has at most one request that counts; the server gives out deliveries in the order of the log except redeliveries (C43).
  Status: proved. Theorems: `StreamE2E.C88_order`, `StreamE2E.C88_strict`. One run of the server; the group is not sought.
* **C89** `Model/Dashboard.queueMessages` on the queue of `Model/Queue`; the listing by C30, the search as infix of the (lossily decoded) payload, pages by induction. False for a search in the dead letters and for unknown states.
  Status: partial. Theorems: `Dashboard.C89_pending`, `Dashboard.C89_inflight`, `Dashboard.C89_dead_partial`, `Dashboard.C89_not_found`, `Dashboard.C89_violated_search`, `Dashboard.C89_violated_state`. Exact for waiting messages and messages in flight. For dead letters only without a search (the search is ignored); an unknown state gives an empty list.
* **C90** `Model/Dashboard.display` against the client's writer and reader of `Model/Command`; hexadecimal digits are injective since the client's parser of ids reads them back. False in full: a buffer and the text of its digits look alike, and payloads with another first byte are read differently by clients.
  Status: partial. Theorems: `Dashboard.C90_shown`, `Dashboard.C90_distinct_partial`, `Dashboard.C90_violated`, `Dashboard.C90_violated_foreign`. Values a client writes are shown as themselves. Values of different kinds can look alike, and payloads with an unknown type byte are shown differently from what clients read. from_utf8_lossy is assumed to be the identity on UTF-8, serde_json is a parameter.
* **C91** `Model/Dashboard` on the topic of `Model/StreamTopic`; pages by C39, groups by the invariant behind C52. The first page is exact when it is answered from memory; `C91_violated`: if it begins before the memory it is read from the files and leaves out the messages that are not flushed.
  Status: partial. Theorems: `Dashboard.C91_last`, `Dashboard.C91_page_partial`, `Dashboard.C91_newest_partial`, `Dashboard.C91_groups`, `Dashboard.C91_violated`. Last number and groups proved. Pages proved when they are answered from memory (from files: C39_from_files_partial); the first page can miss unflushed messages.
* **C92** `Model/PubSubE2E` composes `Model/PubSub` (server), `Model/SdkSubs` (requests and connections) and `Model/SdkPubSub` (dispatch), with the messages to the client in a first-in first-out channel. Invariant: what the callback has been called with, and what is under way for it, is what was published; C13, C14, C17, C18 and C72 give the single steps. False for retained messages, which a second subscription of the same client sends again (`C92_violated`).
  Status: partial. Theorems: `PubSub.E2E.C92_delivered_partial`, `PubSub.E2E.C92_subscribed`, `PubSub.E2E.C92_only`, `PubSub.E2E.C92_stopped`, `PubSub.E2E.C92_greeted_partial`, `PubSub.E2E.C92_violated`. Exactly once and in order for what is sent because it was published; retained values can reach a callback again when the client makes further subscriptions. Retained topics must not begin with a separator (C18). The server's requests are atomic here (C73 has them overlap).
* **C93** `Model/Rpc` composes, on bytes, any number of `Model/SdkConnection` clients, their connections (`Model/Connection`, `Model/Wire`) and a server that carries out each request in a task of its own, over an arbitrary engine. Invariant: what is in every buffer is a suffix of what was written; every pending entry has its request in the trace; every answer under way is the result of an execution in the trace. `Ordinary` excludes bodies that are too large, answers that do not fit in a frame and more than 2³² requests on one client.
  Status: proved. Theorems: `Rpc.C93_once`, `Rpc.C93_asked`, `Rpc.C93_answered`, `Rpc.C93_state`, `Rpc.C93_real_time`, `Rpc.C93_settled`. The engine is arbitrary: one request's work on it is one atomic step. C94's example meets the hypotheses.
* **C94** C93 for a server whose engine contains the store (`StorePart`), with the store's own history read off the trace, and C09. False at the very instant of expiry, as C09 is.
  Status: partial. Theorems: `Rpc.C94_get_partial`, `Rpc.C94_fresh`. Not at the very instant at which a value expires (C09_violated).
* **C95** In `Model/Rpc`. True if the second request is made after the first was answered (`C95_answered_first_partial`). False if it is not: the server gives each request a task of its own, and nothing orders the tasks (`C95_violated`).
  Status: partial. Theorems: `Rpc.C95_answered_first_partial`, `Rpc.C95_violated`. Holds when each request is made after the answer to the one before; false for pipelined requests.
* **C96** In `Model/Rpc`. Invariant: no reader has failed, no buffer holds a whole frame, every answer is written or waits to be, and an entry that waits has not been answered. Progress by running reader, tasks and writer to their ends.
  Status: proved. Theorems: `Rpc.C96_carried_out`, `Rpc.C96_settled`, `Rpc.C96_connection_lost`, `Rpc.C96_progress`. disconnect() drops pending requests without settling them (C67_violated), so C96_connection_lost excludes it. A panicked task's promise ends by timeout only (C67).
* **C97** `Model/QueueWrap`: the broker of `Model/Queue` with the wrapping addition. Equal to it, event by event, whenever `now + timeout < 2^64`, so that C22–C33 carry over (`C97_same`); C25 is restated for it; beyond that bound it is false (`C97_violated`).
  Status: partial. Theorems: `Queue.C97_same`, `Queue.C97_exclusive_partial`, `Queue.C97_wrapped`, `Queue.C97_violated`. Holds whenever clock + timeout fits 64 bits. Missing: larger timeouts, for which it is false of the release build.
* **C98** `Model/ConnBounded`: the three tasks of a connection with bounded channels and a bounded network; a step into something full is impossible. Progress by cases on what is full, termination by a measure, completeness by showing that every bounded run is a run of `Model/Connection` (`C98_only_delays`) and accounting for every frame there.
  Status: proved. Theorems: `Wire.C98_progress`, `Wire.C98_terminates`, `Wire.C98_complete`, `Wire.C98_only_delays`. The network counts frames, not bytes.
* **C99** Violated: for all capacities a schedule is constructed in which server and client wait for each other (`C99_violated`). Partial: when all answers and pushes fit into the network the client is never blocked, by counting.
  Status: partial. Theorems: `Wire.C99_not_blocked_partial`, `Wire.C99_violated`. Holds when all answers and pushes fit into the network buffer; false beyond.
* **C100** The two channels stay within their capacity (invariant). Violated for the two things without a capacity: one task per request, and the push channel.
  Status: partial. Theorems: `Wire.C100_channels_partial`, `Wire.C100_tasks_violated`, `Wire.C100_pushes_violated`. The two bounded channels only; tasks and pushes are unbounded.
* **C101** `Model/QueueRpc` puts the queue manager of `Model/QueueManager` behind `Model/Rpc` as a part of an arbitrary engine (`QueuePart`). What the server did, in order (`acts`), is read off the trace; the manager's state is what these acts make of it, and each queue's state is a run of `Model/Queue` since its creation (`Proofs/QueueLives`). C22, C24, C25, C27 then speak about the acts. `Uuids`: the ids made in the run are different.
  Status: proved. Theorems: `Rpc.C101_carried_out`, `Rpc.C101_faithful`, `Rpc.C101_values`, `Rpc.C101_exclusive`, `Rpc.C101_ack_final`, `Rpc.C101_no_loss`. One run of the server (restarts: C33, C35, C84). A request's work on the queue is one step (C31, C34 have it in parts); ids are assumed different.
* **C102** Same model. While a message waits, no later message with the same or a lower priority is ahead of it (invariant `Ahead`, `Proofs/QueueFifo`), ordered by when the pushes are carried out; a push made after the answer to the first is carried out after it (C93). False for two pushes of one client without waiting in between: `C102_violated`.
  Status: partial. Theorems: `Rpc.C102_order_partial`, `Rpc.C102_answered_first_partial`, `Rpc.C102_violated`. Holds in the order in which the pushes are carried out, hence when the second push is made after the first was answered; false for pipelined pushes of one client.
* **C103** `Model/StreamRpc` puts the topics of `Model/StreamTopic` behind `Model/Rpc` as a part of an arbitrary engine (`StreamPart`). A command is one or more sections of the manager's code, the last one at the time the command is carried out; whatever the request did before is a background step. Each topic's state is a run of `Model/StreamTopic` since its creation (`Born`, `hist`), every section of it belongs to an act of the trace (`source`), and C39, C43, C44, C45, C47, C48 then speak about the acts. `Env.Ok`: the consumer ids made in the run are different, `max_deliveries` is at least 1. `Small`: payloads fit a record's length field.
  Status: proved. Theorems: `Rpc.C101_carried_out`, `Rpc.C103_faithful`, `Rpc.C103_values`, `Rpc.C103_numbers`, `Rpc.C103_exclusive`, `Rpc.C103_ack_final`, `Rpc.C103_ack_holder`, `Rpc.C103_order`, `Rpc.C103_no_gap`, `Rpc.C103_limit`. One run of the server (restarts: C55-C60). The sections of one fetch are separate steps; a request that found its topic before a delete counts as carried out before it. Consumer ids are assumed different.
* **C104** Same model. Holds when the second publish is made after the first was answered (C93, `C103_numbers`); false for pipelined publishes of one client: `C104_violated`.
  Status: partial. Theorems: `Rpc.C104_answered_first_partial`, `Rpc.C104_violated`. Holds when the second publish is made after the first was answered; false for pipelined publishes of one client.
* **C105** `Model/PubSubRpc` puts the broker of `Model/PubSub` behind `Model/Rpc` as a part of an arbitrary engine (`PubPart`), and ties the two together: a connection begins and ends in the broker as it begins and ends in the network, and what the broker sends goes into the connection's push channel. Invariants: each channel holds what was sent and has not been forwarded (`Fed`, `Ready`), what the broker sends is determined by the acts of the trace (`chunks`, `says`, `greeted`). `Spec/PubSubRpc` says in terms of the acts who listens to what and which values are retained. `_partial` for greetings: topics that begin with `/` (C18) and values loaded at start (C21) are left out.
  Status: partial. Theorems: `Rpc.C105_order`, `Rpc.C105_complete`, `Rpc.C105_progress`, `Rpc.C105_greeting_partial`, `Rpc.C105_values`. Everything but greetings is proved for all runs in which `#` comes only last in patterns; greetings for topics that do not begin with `/` (C18_violated) and a server that started without retained values (C120_greeting_partial has the others). Operations of the broker are carried out in one step each (C73-C75 have them overlap).
* **C106** Same model: the subscription and the publish are carried out between their calls and their answers (C93), so the connection listens when the publish is carried out; then C105.
  Status: proved. Theorems: `Rpc.C106_reaches`, `Rpc.C106_order`. Patterns with `#` only at the end (the documented form). The message must be delivered: C105_progress.
* **C107** Same model. Holds when the second publish is made after the first was answered (`C107_answered_first_partial`); false for pipelined publishes of one client: `C107_violated`.
  Status: partial. Theorems: `Rpc.C107_answered_first_partial`, `Rpc.C107_violated`. Holds when the second publish is made after the first was answered; false for pipelined publishes of one client.
* **C108** `Model/Engine` has the four brokers side by side behind the dispatcher. `C108_interleaving` (by induction on the acts): the histories of the engine, with all answers, are exactly the interleavings of histories of the brokers; `C108_alone`: what the server does in a run of `Model/Rpc` is such a history; `C108_parts`: the engine meets the assumptions of C94, C101, C103, C105 at once.
  Status: proved. Theorems: `Rpc.C108_parts`, `Rpc.C108_interleaving`, `Rpc.C108_alone`, `Rpc.C108_unaffected`. Data only: time, memory and the disk are shared by the brokers (each broker has its own files, C64).
* **C109** `Spec/QueueShop` has all queues as one sequential object: names to the three lists of `Spec/Queue`, and what the bytes of each answer mean. `C109_answers`: in every ordinary run of `Model/Rpc` the answers, in the order of execution, are those of this object (simulation of the lives of the queues by `Spec.Queue.run`, with the refinement of C21); `C109_linearizable`: the moment lies between call and answer.
  Status: proved. Theorems: `Rpc.C109_answers`, `Rpc.C109_linearizable`. From an empty server, without restarts in the run (for restarts see C28-C31); ids different from each other; ordinary runs (at most 2^32 requests per connection, answers below 2^32 bytes). Numbers are told modulo 2^32 as on the wire. A consume with a batch that no memory can hold fails (C24).
* **C110** `Spec/StreamDesk` has all topics as one sequential object (`LStep`: which answers a command may get and what becomes of the topics; `LRun`: a run from no topics). `C110_sequential`: in every ordinary run of `Model/Rpc` the acts of the server, in the order of execution, are a run of this object (the books of each topic follow the observers of C47-C52, the reasons of refusals come from the group invariant, and every fetch is answered because the storage task works off its commands, and with no limits the first segment stays the first); `C110_linearizable`: the moment lies between call and answer; `C110_answered`: every stream command is answered.
  Status: proved. Theorems: `Rpc.C110_sequential`, `Rpc.C110_linearizable`, `Rpc.C110_answered`. From an empty server, without restarts in the run; consumer ids different from each other; records fit their length fields; ordinary runs. A fetch may always hand out nothing from a known group (the specification does not say when messages must be handed out), and retention may remove any prefix of the messages of a topic with a limit (what it removes is C41).
* **C111** `Spec/House` puts the store (a partial function), the shop of C109 and the library of C110 side by side (`HStep`, `HRun`). `C111_store`: the store's answers are those of the partial function (a refinement of the model of the map and of its cleanup). `C111_sequential`: in every ordinary run of the server of `Model/Engine` the acts, in the order of execution, are a run of this object (C108_parts, C109, C110 and the answers of publish/subscribe). `C111_linearizable`: the moment lies between call and answer. `C111_order`: the order of execution agrees with the order of answers and calls.
  Status: proved. Theorems: `Rpc.C111_store`, `Rpc.C111_sequential`, `Rpc.C111_linearizable`, `Rpc.C111_order`. From an empty server, without restarts in the run; message ids and consumer ids different from each other; records fit their length fields; ordinary runs. What subscribers receive is the subject of C105-C107, not of this claim.
* **C112** `QueueHost` is a server with queues whose background may also crash and start again (`restart` of `Model/QueueManager`: the state is read back from what the writers committed). `Proofs/QueueEra` follows one queue from its creation to its deletion through all crashes (C36: a queue among others behaves as if alone), and shows for messages with nothing left to write that they stay ready, gone, or lent across restarts. `Proofs/QueueStorm` carries this to the acts of the server. `C112_no_loss_partial`, `C112_ack_final_partial` and `C112_exclusive_partial` need that at some moment before the next crash nothing about the message still had to be written; `C112_violated` shows that this is necessary: pushes and acks are answered before they are written. `C112_faithful_partial` and `C112_exists_partial` need no such condition.
  Status: partial. Theorems: `Rpc.C112_faithful_partial`, `Rpc.C112_no_loss_partial`, `Rpc.C112_ack_final_partial`, `Rpc.C112_exclusive_partial`, `Rpc.C112_exists_partial`, `Rpc.C112_violated`. Missing: the full claim is false (C112_violated); proved for messages about which nothing still has to be written when the server crashes. No queue's name ends in ".db" or contains "/" (C36_violated, C36_nested_violated otherwise), storage operations reach the writer in the order of the calls (C34_violated otherwise); from an empty server; different message ids; ordinary runs.
* **C113** `Model/Config` is the loading of the configuration, with `str::parse` for unsigned numbers; `Spec/Config` has the table of settings (variable, size, default, field) and `Written s n` (`s` is `n` in decimal, a `+` may come first). `parseUint_some` shows that the parser accepts exactly the numbers of the type. From it: values set, defaults, texts, exactly which environments are refused at the start, and that only the listed variables matter. Violated in three ways: a bad value of a broker's setting is silently replaced by the default, the variable in the documentation of the queues' flush interval is not read, and the hard limit of a topic's memory is read and not used.
  Status: partial. Theorems: `Config.C113_set_partial`, `Config.C113_default`, `Config.C113_text`, `Config.C113_dashboard`, `Config.C113_refused`, `Config.C113_only`, `Config.C113_ignored_violated`, `Config.C113_documented_violated`, `Config.C113_hard_limit_violated`. Missing: bad values of the brokers' settings are not refused (C113_ignored_violated); one documented variable has no effect, and one setting is not used.
* **C114** `All.period` is the period of each task's timer, `All.runs` that `tokio::time::interval` accepts it (it panics for zero; the task dies, the server goes on), `All.serves` that the channels of a connection can be made. All tasks run if no interval is zero; connections are served exactly for capacities from 1 to 2^61 - 1. Violated: zero is accepted for every interval and the task never runs; for the queues' flush interval it follows that every push is answered ok and nothing survives a restart.
  Status: partial. Theorems: `Config.C114_runs_partial`, `Config.C114_serves`, `Config.C114_zero_violated`, `Config.C114_queue_violated`. Missing: the claim is false for intervals of zero (C114_zero_violated). Proved when no interval is zero and the flush interval of streams is at most 2^60 ms (the groups' interval is ten times that, in 64 bits).
* **C115** By induction over the eviction loop, for every reachable state of a topic: after a round at most the soft limit remains, or only messages above the number last written. The setting is that limit. Violated for the hard limit: for every configuration and every n there is a history after which n messages are in memory, after a round of eviction.
  Status: partial. Theorems: `Config.C115_setting`, `Config.C115_soft_partial`, `Config.C115_violated`. Missing: the hard limit is not enforced (C115_violated); the soft limit holds after each round of eviction for messages that have been written.
* **C116** `Model/StorePage` is the handler on top of `Store.scan` (C11). By induction over the entries: the page has the entries in order, the moment shown is the expiry translated to the wall clock, late by no more than the time between the two readings of the clocks; and the page is answered exactly if every expiry on it is within the calendar. Violated: one accepted SET with a TTL of 10^13 seconds, and no page with that key is answered.
  Status: partial. Theorems: `Store.C116_shown`, `Store.C116_answered_partial`, `Store.C116_violated`. Missing: the claim is false for keys with very long TTLs (C116_violated). That chrono 0.4.42 panics beyond the year 262142 is an assumption about the library. The text of the moment (RFC 3339) is not modelled.
* **C117** `Model/StreamCrash` adds the restart of all topics to the streams of C103. A run is cut into eras, one per crash; the relation `Current` ties the topic's history in the present era (messages found in the files, steps since) to the acts of the clients, and is kept by acts and by crashes (`Proofs/StreamStorm2`). What holds within an era comes from the topic's theorems (C40-C42, C57-C61); what crosses a crash: the messages in the files are a prefix of those published, the saved progress covers only settled messages. Violated without the hypotheses: a publish that was answered is lost and its number is given again; the group whose progress was saved is never handed the new message (`C117_violated`).
  Status: partial. Theorems: `Rpc.C117_faithful_partial`, `Rpc.C117_durable_partial`, `Rpc.C117_exists_partial`, `Rpc.C117_no_gap_partial`, `Rpc.C117_ack_final_partial`, `Rpc.C117_violated`, `Rpc.C117_nested_violated`. Missing: the claim is false for messages and progress that are not yet in the files (C117_violated). The runs are `Calm`: publishers reach the storage task in order (else C60), the clock does not go back, names of groups are valid text, and no crash leaves the newest file empty or with half a record (else C57, C58). The names of topics are file names: topics with "/" in their names are gone after a crash (C117_nested_violated, C129).
* **C118** `View.refusal` says, from the observer's account of C42-C49 alone, why a request should be refused. The invariant `Rel` between topic and observer gives: answers of departures and acknowledgements are exactly that; an error answer of any fetch, at any moment, is exactly that; a fetch in progress is told when it next looks. Violated: while as many messages as the limit are delivered and unsettled, everyone gets an empty answer, also a consumer that names an outdated generation (`try_fetch_once` tests the limit first).
  Status: partial. Theorems: `Stream.C118_reason`, `Stream.C118_leave`, `Stream.C118_ack`, `Stream.C118_told_partial`, `Stream.C118_full`, `Stream.C118_violated`. Missing: a fetch is not told the reason while the group's unsettled messages reach the limit (C118_violated, C118_full).
* **C119** `Spec/StreamSize` defines the content of a segment (file plus what is on its way there). Leaks, flushes, evictions and retention keep every content; an append meets, by the invariant of the files (`DiskInv`), a count that equals the length of the newest content. Violated for concurrent publishers that reach the storage task in the wrong order: the new file can have the name of the old one (`C119_violated`).
  Status: partial. Theorems: `Stream.C119_bounded_partial`, `Stream.C119_rolls_partial`, `Stream.C119_restart`, `Stream.C119_violated`. Missing: concurrent publishers that reach the storage task in the wrong order (C119_violated); starting files are in order (StartsWith).
* **C120** `Spec/PubSubTerms`: a life of the server (`Term`) is a run of the network model of C105 from the database that the life before left behind; for one topic a small machine (`Slot`) says what the server serves and what is in the database. `Proofs/PubSubTerms` shows, by induction over the acts of a life and then over the lives, that the broker's tree and database lie between the strict and the loose reading of that machine (they differ only for values that a flush found expired); `greeted_kept` gives the greeting. Violated: a value whose time is over while the server is down is served without end (`C120_violated`).
  Status: partial. Theorems: `Rpc.C120_greeting_partial`, `Rpc.C120_survives_partial`, `Rpc.C120_cleared_partial`, `Rpc.C120_violated`. Missing: values whose time is over while the server is down (C120_violated), topics that begin with `/` (C21_violated_leading_slash), failed flushes (C21_violated_failed_flush). Each life begins with new connections; an operation of the broker is one step.
* **C121** `Model/EngineCrash` adds the crash of the whole process to the engine of C108. `C121_hosts`: this server satisfies what C112, C117 and `C121_get_partial` ask of a server; the store part is by induction over the trace since the last crash. `C121_interleaving`, `C121_alone`: its histories are exactly the interleavings of histories of the brokers alone with the same crashes, by induction over the history.
  Status: partial. Theorems: `Rpc.C121_hosts`, `Rpc.C121_get_partial`, `Rpc.C121_interleaving`, `Rpc.C121_alone`. Missing: a get at the very instant at which the value expires (C09). C112 and C117 keep their own hypotheses. Requests that were under way at a crash may be carried out after it (more runs than the code has). Publish/subscribe across crashes is C120.
* **C122** `Proofs/QueueOrder`: an invariant of memory, table and the operations that still have to be written (for every prefix of them: the later message is not before the earlier one in the table, and has no attempts and no higher priority), kept by requests, commits and restarts. `C122_order_partial`: about the answers of consume behind the network. The last sentence is false: `C122_requeued_violated`.
  Status: partial. Theorems: `Rpc.C122_order_partial`, `Rpc.C122_requeued_violated`. The sentence about messages that line up again is false (C122_requeued_violated). Missing otherwise: queues whose name ends in .db or contains "/", storage operations that reach the writer in another order than the calls (as in C112), and a first message that was not written before the first crash. Rests on SQLite reading a table without ORDER BY in rowid order.
* **C123** `Proofs/QueueOwed`: a bound on attempts and on the stored clock reading of the message, in memory and in the table after every prefix of the operations that still have to be written, kept by requests, commits and restarts; the timeout task and a restart at the end of the timeout make the message wait. `C123_again_partial`: about the answers of consume behind the network, with the deliveries counted in the answers.
  Status: partial. Theorems: `Rpc.C123_again_partial`. Missing: queues whose name ends in .db or contains "/", and storage operations that reach the writer in another order than the calls (as in C112).
* **C124** `Spec/StreamRetain` says what the options ask without using the configuration of the topic (`Exceeds`, `Respected`). `retain_respects`: the exact theorems of C41 about the age and the size check, composed; `C124_as_asked_partial` for histories of commands and background steps, `C124_crashes_partial` behind the network with the eras of C117, each of which has the configuration of the `create`.
  Status: partial. Theorems: `Rpc.C124_as_asked_partial`, `Rpc.C124_crashes_partial`. Missing: publishers that reach the storage task in another order than their numbers, a clock that goes backwards, and crashes in the middle of a record (as in C117). That config.json holds what was written is part of the model (Streams.crash). Topics are named by file names.
* **C125** Invariant `Trim`: while the dirty flag is clear, the database has only rows of values that are in the tree; kept by the cleanup because its result is true whenever it removes something (`cleanup_flag`). After the cleanup the topic has no value, so after the flush it has no row.
  Status: partial. Theorems: `PubSub.C125_stays_away_partial`. Missing: topics beginning with / and failed flushes, as in C21.
* **C126** `Model/SdkExists.lean`: what the library makes of the outcome of the request. The moment is that at which the request is carried out (C93); what the server answers there is C112 for queues and, for topics, follows from `made_iff`. Violated: a request that is not answered gives `false`.
  Status: partial. Theorems: `Rpc.C126_queue_partial`, `Rpc.C126_queue_created_partial`, `Rpc.C126_topic_partial`, `Rpc.C126_topic_created_partial`, `Rpc.C126_violated`. true is always right for queues, and for topics if all names are file names (else C129). false is right if the request was answered; a broken connection, a timeout or no connection also give false (C126_violated). Queues whose names end in .db or contain "/" change or vanish at a restart (C36). Creates and deletes are one step each (C79, C81 have them in parts).
* **C127** `Model/SdkHandles.lean`: the map of handles, each with its guard and the calls of `subscribe`, whose loops are those of `Model/SdkQueue.lean`. Invariant: what was seen says which call asks and which loops; if calls do not overlap, the guard is set exactly while a loop runs and at most one call asks or loops. Violated: two calls that overlap both pass the guard.
  Status: partial. Theorems: `Sdk.Handles.C127_one_partial`, `Sdk.Handles.C127_refused_partial`, `Sdk.Handles.C127_accepted_partial`, `Sdk.Handles.C127_separate`, `Sdk.Handles.C127_violated`. Proved if no subscribe goes on while another of the same queue waits for its existence check; otherwise violated (C127_violated). The step from began to the first request of the loop is an event of the loop.
* **C128** `Model/DashboardUrl.lean`: the addresses that the pages ask for, what a browser makes of them, and the router. Round trip of escapes by induction over the text. The names for which it works are characterized exactly: for the others the length of what comes out shows that it is not the name. Violated: the pages put names into addresses without escaping them.
  Status: partial. Theorems: `Dashboard.C128_queue_partial`, `Dashboard.C128_queue_only`, `Dashboard.C128_stream_partial`, `Dashboard.C128_stream_only`, `Dashboard.C128_store`, `Dashboard.C128_pubsub`, `Dashboard.C128_violated`. Searches are proved in full. Names: proved for those that can stand in an address as they are (Linkable), and that it fails for every other name (C128_queue_only, C128_stream_only). Trusted: the URL Standard as modelled, axum's routing and decoding; numbers below 2^64 (JavaScript writes them in decimal up to 2^53).
* **C129** `Model/TopicDirs.lean`: the manager's map and the directories below the data directory, each directory as the list of its parts. Invariant by induction over the history, relating both to `Alive` (created, and not deleted since) and `Nested` (some topic was created inside a directory of this name). Violated for names with `/`, which are paths.
  Status: partial. Theorems: `Dirs.C129_tidy_partial`, `Dirs.C129_kept_partial`, `Dirs.C129_made_partial`, `Dirs.C129_nested_violated`, `Dirs.C129_phantom_violated`, `Dirs.C129_empty_violated`. Proved in full if all names are file names (C129_tidy_partial); topics whose name is a file name are kept beside others whose names are paths (C129_kept_partial). False otherwise. Each request is one step; creating and removing directories succeeds; a process that ends between the steps of one request is C79-C81.
* **C130** `Model/DashboardPages.lean`: the state of the pages and their buttons, over the models of the handlers (`Model/Dashboard`, `PubSubScan`, `Store`). `ShowsAll` and `Oriented` (`Spec/DashboardPages.lean`) are proved once for any list whose pages and totals are right (induction over the presses), and then for each handler by its own theorem (C89, C76, C39). Violated: Newer of streams (off by one) and a search in the store (the total ignores it).
  Status: partial. Theorems: `Dashboard.C130_queue`, `Dashboard.C130_pubsub`, `Dashboard.C130_store_partial`, `Dashboard.C130_store_violated`, `Dashboard.C130_older_partial`, `Dashboard.C130_newer_only`, `Dashboard.C130_newer_violated`. Queues and publish/subscribe in full. Store: without a search and without expired keys in the map. Streams: Older reaches every message if pages are answered from memory (C91_violated otherwise); Newer is off by one. Iteration order of the store's map is the same for all pages.
* **C131** `Model/DashboardValue.lean` on top of `Dashboard.display` (C90). Sizes by induction over the buffer; the values shown as binary are characterized exactly. Violated: buffers are shown with the size of their hexadecimal text, texts that begin with 0x as binary.
  Status: partial. Theorems: `Dashboard.C131_text_partial`, `Dashboard.C131_size_violated`, `Dashboard.C131_kind_only`, `Dashboard.C131_kind_violated`. Sizes: proved for texts, false for buffers; of JSON values the size is that of the text the browser makes of them (not compared with what the client wrote). Kind: exact characterization. As in C90, from_utf8_lossy is the identity on UTF-8, serde_json is a parameter.
* **C132** On the composition of clients, network and queue (`Model/QueueE2E`). Invariant over the reference queue: whoever stands in line without having been handed out stands behind earlier pushes only; refinement carries it to the model of the code; a second invariant orders the deliveries a client works on. Violated when an answer is lost: the message in it comes back behind its successors.
  Status: partial. Theorems: `QueueE2E.C132_in_order_partial`, `QueueE2E.C132_handed_out_partial`, `QueueE2E.C132_one_at_a_time`, `QueueE2E.C132_returns_first`, `QueueE2E.C132_violated`. Proved while the server runs (order across restarts: C122), for max_retries of at least 1, and up to messages that are handed out at least twice; for those it is false. One callback at a time with concurrency 1: proved in full.
* **C133** `Model/DashboardWalk.lean`: pages, presses of Next, and requests between them. Every request either only takes messages out of the list of waiting messages (in flight, dead) or only inserts some, so while none disappears no position becomes smaller; induction over the pages with the invariant that what has not been shown is at or behind the offset. Violated by one consumed message: the 51st of 51 is never shown.
  Status: partial. Theorems: `Dashboard.C133_growing_partial`, `Dashboard.C133_pushes`, `Dashboard.C133_missed_partial`, `Dashboard.C133_violated`. Proved for the three views of a queue while no message disappears from the view between the pages, for any reachable queue, any such requests and any number of pages; false if a message is consumed. For any requests at most as many are missed as the requests take out of the view (C133_missed_partial). A page fetched again while it is shown is not modelled.
* **C134** On the model of C13 (`Model/PubSub.lean`) and its specification `Matches`: a pattern without wildcards matches only itself, so subscribers of concrete topics get nothing of a publish to a wildcard name. Violated: the server does not look for wildcards in a published name, and it reaches every subscriber of that same name.
  Status: partial. Theorems: `PubSub.C134_no_fan_out_partial`, `PubSub.C134_concrete`, `PubSub.C134_violated`. Proved: nothing published to a wildcard name reaches a client that has only subscribed to concrete topics, which gets exactly what is published to these. False: the publish is not refused and reaches subscribers of the same wildcard name.

## Trusted base

* Lean's kernel (4.33.0).
* The axioms `propext`, `Classical.choice`, `Quot.sound`, as `#print axioms` reports for the theorems of the manifest;
  no others, no `sorry`, no `native_decide`, no `bv_decide`, no own axioms.
* That the definitions in `Verif/Model` say what the Rust and TypeScript text says (they are hand-written; every
  definition cites the lines it models).
* That the libraries behave as the models assume:
  * `std` collections, `hashlink::LinkedHashSet`, `DashMap`: finite maps and ordered sets; one entry operation is atomic.
  * tokio: a task runs between `await`s without interruption by its own cancellation; `abort` takes effect at the next
    `await`; channels are first-in first-out; `Notify::notify_waiters` wakes exactly the waiters that exist.
  * SQLite: a committed transaction survives a crash of the process, an uncommitted one leaves no trace, statements have
    their documented meaning. A full-table `SELECT` without `ORDER BY` reads in `rowid` order, and a new row has the largest
    `rowid` (used by C122; SQLite does this, but does not promise the first).
  * file system: bytes that have been written survive a crash of the process, `rename` is atomic. Loss of written pages
    by a crash of the machine (there is no `fsync` in the stream broker) is not modelled.
  * chrono 0.4.42: `DateTime::<Utc>::from(SystemTime)` panics beyond the year 262142 (`C116_violated`).
  * serde_json and `JSON.stringify` agree on the options of create requests (a hypothesis of `C05_understood`).

## Not modelled

* HTTP transport and web assets (`transport/http/*`) and JSON (routing is in `Model/DashboardUrl`, what the dashboard's queries answer is in `Model/Dashboard`,
  `Model/StoreScan`, `Model/StorePage` and `Model/PubSubScan`), logging, `build.rs`, the `.env` file
  (`Model/Config` starts from the environment that it leads to), and of `main.rs` all but the start.
* Sizes of tokio channels other than those of a connection (`Model/ConnBounded`; the channels of the storage tasks only delay their
  senders), and allocation failure, except where a request can make the server panic (`Vec::with_capacity`, `Instant` overflow).
* Failures of `remove_file`, `metadata` and `read_dir` when stream retention runs.
* In the client library: logging, the option checks of `create`, `client.ts` (except the map of queue handles, `Model/SdkHandles.lean`), and the durations of timers (a timer is an event
  that can happen at any time after it was set).

## What the model has found

Deviations of the code from the properties; each one is either a theorem (name given) or an observation outside the model.

1. Store: at the exact nanosecond of expiry GET and the cleanup disagree (`C09_boundary_violated`); a TTL that overflows the
   clock panics; the `total` of a scan ignores the filter (`C11_pages` states what it is).
2. Retained values that expire while the server is down come back for ever, and a failed flush loses values
   (`C21_violated_expired_while_down`, `C21_violated_failed_flush`).
3. Topics with a leading `/`: retained values are relabelled and can clash (`C18_violated`, `C21_violated_leading_slash`,
   `C21_violated_clash`).
4. Patterns with an inner `#` alias each other (`C15_inner_hash_aliased`).
5. Queue: storage commands are sent outside the lock, so they can arrive in the wrong order (`C34_violated`); one more
   delivery per restart (`C35_violated`); queue names ending in `.db` change on restart (`C36_violated`); a huge batch size
   panics (`C24_huge_batch_panics`).
6. A request whose handler panics is never answered (`C08_violated`).
7. Client: empty payloads make the decoder throw (`C06_violated_empty_payload`), request ids become negative after 2^31
   requests (`C63_violated`).
8. Streams: publishers hand their messages to the storage task outside the lock (`C40_violated`, `C60_violated`).
9. Streams after a crash: numbers are reused when the newest segment holds no complete record (`C57_violated`); a torn tail is
   never cut off, later messages behind it are lost at the next restart (`C58_violated`); saved progress can be ahead of the
   recovered log (`C59_violated`); group names of 65536 bytes and more corrupt the group file (`C56_violated`).
10. A disk read that is aborted by a disconnect leaves its group without deliveries from disk (`C54_violated`).
11. A connection that ends by an error, even half a frame before the end of the stream, is never cleaned up
    (`C62_violated_error`, `C62_violated_half_frame`); `abort_all` does not stop a join that is executing
    (`C62_violated_running`).
12. Names are used as paths unchecked (`C61_violated_parent`, `C61_violated_absolute`), and names with `/` nest topics in one
    another (`C64_violated`).
13. Client: `disconnect()` leaves outstanding requests unsettled (`C67_violated`); called while the client waits to connect
    again it is not obeyed, and the requests of the new connection have no timeout (`C68_violated`).
14. Client: a stream consumer stopped while it joins its group again stays a member, and the messages it fetches are given to
    nobody (`C71_violated`).
15. Client: an `unsubscribe` can overtake the resubscription after a reconnect (`C72_violated`); two `unsubscribe` calls with a
    `subscribe` between their answers lose the callback (`C72_violated_twice`); an `unsubscribe` that times out leaves a callback
    without subscription (`C72_violated_late`).
16. Dashboard: a topic `/a` is shown as `a`, the empty name is not shown (`C76_violated`); a retained value under a name with
    wildcard levels gives a second line (`C76_violated_twice`).
17. Publish/subscribe: a disconnect between the two sections of a subscribe leaves the tree entry for ever (`C74_violated`); an
    unsubscribe that overtakes a subscribe is lost (`C74_violated_overlap`); two overlapping retained publishes can leave the value
    of the one and the last message of the other (`C75_violated`).
18. Queue: a failed commit drops its batch, so answered pushes and acknowledgements are lost while later ones are kept
    (`C77_violated`, `C77_violated_acked`); a move between the tables is two statements that can fail separately
    (`C77_violated_move`).
19. Queue: a create that overlaps a delete of the same queue opens the old file (the deleted messages are back), and the rest of the
    delete removes the new queue's files, so that everything pushed later is lost at the next restart (`C79_violated_old`,
    `C79_violated`); since a second delete does not wait for the first, this happens also to a client that creates the queue
    after its own delete was answered (`C79_violated_two`).
20. Streams: a publish that overlaps a delete brings the topic's directory back (`C80_violated`); two overlapping creates leave the
    options of one in memory and of the other on disk (`C81_violated_creates`); a create that overlaps a delete shows the deleted
    messages and loses its directory (`C81_violated_delete`, `C81_violated_config`); group progress of a deleted topic can be
    saved into its successor (`C81_violated_groups`).
21. Streams: the storage task ignores every file error. A segment that cannot be opened once loses an answered message without a
    crash (`C82_violated`), and every group that has not had it is stuck (`C82_violated_stuck`); an unreadable segment is left out
    of the answers of reads (`C82_violated_read`); after a record that was written in part (failing write, or crash) the reader
    takes payload bytes for records and delivers messages nobody published (`C82_violated_forged`, `C82_violated_torn`).
22. Store: the total of a scan ignores the search text and counts expired keys (`C83_violated_total`); expired keys take places of a
    page, so a page can be empty although more keys follow (`C83_violated_page`).
23. C85 (`C85_violated`, `C85_violated_neighbour`): a message can be dead-lettered although no callback was ever called with it. A consumer that is stopped refuses the messages it has fetched and not started with "Consumer stopped", and every refusal counts as a failed attempt. A message that cannot be decoded makes the client give up the whole batch, so its neighbours time out and lose an attempt too.
24. C87 (`C87_violated`): a stream message can be given up although no callback was ever called with it. A consumer that is stopped skips the messages it has fetched and not started, and leaving the group uses up a delivery of each; with max_deliveries = 1 the message is passed at once.
25. C89 (`C89_violated_search`, `C89_violated_state`): the dashboard ignores the search text for dead letters, and answers a state that does not exist with an empty list.
26. C90 (`C90_violated`, `C90_violated_foreign`): a buffer and the text of its hexadecimal digits are shown alike; a payload whose first byte is above 2 is shown as text although clients drop that byte and get a buffer.
27. C91 (`C91_violated`): the first page of a stream topic can leave out the newest messages. If the page begins before the messages in memory it is read from the files, and messages that are not flushed yet are missing.
28. C92 (`C92_violated`): a callback is called twice with one retained message on one connection: when the same client subscribes to a second pattern that matches the topic as well, the server sends the retained value again and the library hands it to all matching callbacks.
29. C95 (`C95_violated`): requests made by one client without awaiting the answers can take effect in another order than they were made. `connection.rs:67-77` spawns one task for each request. `store.map.set(k, 1); await store.map.set(k, 2)` can leave 1 in the store.
30. Queue: `now + visibility_timeout_ms` wraps around in a release build (`queue.rs:395`); a queue created with a timeout near 2^64 ms hands the same message out again at once and dead-letters it after `max_retries` checks (`C97_violated`; a debug build panics).
31. Connection: the socket task writes and reads in turn (`connection.rs:117-142`), so a client that sends `send + recv + 2` requests before reading can block for ever (`C99_violated`).
32. Connection: request tasks and the push channel are unbounded (`connection.rs:38,68`); a slow reader makes the server keep everything published to it (`C100_tasks_violated`, `C100_pushes_violated`).
33. Queue: two pushes that one client makes without waiting for the first answer can be stored in the other order, so that a consumer gets them in the wrong order (`C102_violated`).
34. Streams: two publishes that one client makes without waiting for the first answer can be numbered in the other order (`C104_violated`).
35. Publish/subscribe: two publishes that one client makes without waiting for the first answer can arrive at a subscriber in the other order (`C107_violated`).
36. C112: a push answered ok is lost, and an ack answered ok is undone, if the server crashes before the writer of the queue commits (at most a flush interval later): the answer does not wait for the commit (`C112_violated`, the same as seen by a client).
37. C113: a value of a broker's setting that is not a number of its size (`30s`, `-1`, `1e6`) is silently ignored and the default is used, while the same mistake in a server setting ends the process (`C113_ignored_violated`).
38. C113: `docs/guide/queue.md:25` documents `NEXO_QUEUE_DEFAULT_FLUSH_MS` (default 200 ms); the code reads `QUEUE_DEFAULT_FLUSH_MS` (default 100 ms), so the documented variable has no effect (`C113_documented_violated`).
39. C114: an interval of 0 is accepted and the task of that interval panics at once and never runs: with `QUEUE_DEFAULT_FLUSH_MS=0` every push is answered ok and nothing is ever written to disk (`C114_zero_violated`, `C114_queue_violated`).
40. C115: `STREAM_RAM_HARD_LIMIT` is read and never used: a topic whose storage task does not keep up grows without limit (`C113_hard_limit_violated`, `C115_violated`).
41. C116: a single SET with a TTL of 10^13 seconds or more (up to about 9.2 * 10^18 it is accepted) makes the dashboard's handler panic on every page that contains the key, because `chrono::DateTime::from(SystemTime)` ends in the year 262142 (`C116_violated`).
42. A consumer whose group has been sought gets empty answers instead of FENCED while the group's unsettled messages reach the limit: `try_fetch_once` tests `is_backpressured` before it tests who asks (`C118_violated`, `C118_full`).
43. When two concurrent publishers reach the storage task in the wrong order and the first file has no room for the second record, the new file gets the name of the old one (`1.log`): the file grows beyond the configured size (`C119_violated`).
44. C122: a message that was refused, or whose timeout elapsed, lines up again behind the waiting messages of its priority; after a restart it is back where it was pushed, since `load_all_messages` reads the table in the order of the inserts (`C122_requeued_violated`).
45. Client: `exists()` resolves to `false` when the connection breaks, the client is not connected or the request times out, although the queue or topic is there (`C126_violated`); so `subscribe` on a queue fails with "not found" for the same reasons.
46. Client: two calls of `subscribe` on a queue that overlap both succeed, because the guard is read before the wait for `exists` and set after it; when one of the two loops ends it clears the guard of the other (`C127_violated`).
47. Dashboard: the names of queues and topics are put into addresses without `encodeURIComponent`. Queues such as `orders/new` cannot be shown; for `50%25` or `a/../b` the messages of another queue are shown under the name of the selected one (`C128_violated`; `C128_queue_only` says exactly for which names it works).
48. Stream topics with `/` in their name are created and take messages, but no such topic is there after a restart, although `exists` goes on saying so (`C129_nested_violated`, `C117_nested_violated`). Instead a topic named like the first part appears, which nobody created (`C129_phantom_violated`).
49. `exists` of a stream topic answers yes for the empty name and for `.`, and for every directory below the data directory (`C129_empty_violated`).
50. Queues with `/` in their name are created and take messages, but their database file cannot be opened, since its directory is missing: the queue, its settings and its messages are gone after a restart, and no request was refused (`C36_nested_violated`).
51. Dashboard: `hasNewer` of a stream compares the number of the first message of the next page with `<` instead of `≤`, so that Newer is disabled when exactly one newer message exists (`C130_newer_only`); with 51, 101, 151, ... messages the last one cannot be reached with Newer (`C130_newer_violated`).
52. Dashboard: with more than 500 keys in the store, a search that finds nothing is shown with further pages, all empty (`C130_store_violated`), because the total ignores the search (C83).
53. Dashboard: the size of every buffer is shown as that of its hexadecimal text, 2n+2 instead of n (`C131_size_violated`); texts that begin with `0x` are shown as binary data (`C131_kind_violated`; `C131_kind_only` has all cases).
54. Queue: the guide promises that with `concurrency: 1` messages are processed strictly in order; a message whose answer is lost is processed after later ones, although no callback failed (`C132_violated`). Up to messages handed out twice the order holds (`C132_in_order_partial`).
55. Dashboard: going through the waiting messages while one of them is consumed leaves out a message that is waiting all the time (`C133_violated`).
56. Publish/subscribe: the guide says that only concrete topics can be published to; a publish to `a/+` is accepted and delivered to the subscribers of `a/+` (`C134_violated`).
57. Not theorems: `max_deliveries = 0` sets every message aside undelivered; a group is stuck behind a number that is missing
    from the files; redelivery from disk waits as long as fresh messages come from memory; requests of one connection run
    concurrently, so their effects need not follow the order in which they were sent.
    A save of the group file that fails is not tried again until the progress changes.
    A failed first `NexoClient.connect` leaves a reconnect loop that the user has no handle on.
    One undecodable payload makes a
    whole consumed batch fail; a fractional `concurrency` throws after messages were consumed. A long-polling fetch of a group that
    has too many messages in flight is answered at once with nothing, so the consumer loop of the client spins.
