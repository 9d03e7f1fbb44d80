{"id": "C01", "title": "Frame round trip", "statement": "Any frame the server writes (response or push, any status, any payload that fits the 32-bit length field and the configured limit) is read back from the byte stream as one frame with the same type, status/opcode byte, id and payload, and the bytes that follow it are left untouched.", "quantifier": "all frame types, ids, payload byte strings and trailing bytes", "why_tests_cant": "the byte-level encoding has unboundedly many payloads and trailing contexts; a unit test checks a handful of literals", "anchors": ["src/transport/tcp/protocol/codec.rs: NexoCodec::encode, NexoCodec::decode", "src/transport/tcp/protocol/frame.rs: TYPE_*, STATUS_*"]}
{"id": "C02", "title": "Decoding does not depend on how TCP chunks the bytes", "statement": "The sequence of requests the server reads from a connection is a function of the concatenated bytes only: however the byte stream is cut into reads, the same frames come out in the same order, and the same protocol error ends it.", "quantifier": "all byte streams and all ways of splitting them into chunks", "why_tests_cant": "the number of splittings is exponential in the stream length", "anchors": ["src/transport/tcp/protocol/codec.rs: NexoCodec::decode"]}
{"id": "C03", "title": "Oversized requests are refused before they are buffered", "statement": "A frame header announcing more than the configured maximum payload is rejected as soon as its ten header bytes are there, whatever else is in the buffer, and no request longer than the maximum is ever handed to a broker.", "quantifier": "all buffers, header contents and configured limits", "why_tests_cant": "needs every header value and every buffer fill level", "anchors": ["src/transport/tcp/protocol/codec.rs: NexoCodec::decode"]}
{"id": "C04", "title": "Every request byte string is either a command or an error, and a rejected request has no effect", "statement": "Parsing a request payload never reads out of bounds and never panics: any byte string yields a command or an error response; when the answer is a parse error, no broker state has changed.", "quantifier": "all opcodes and all payload byte strings", "why_tests_cant": "the input space is all byte strings; fuzzing samples it", "anchors": ["src/transport/tcp/protocol/cursor.rs: PayloadCursor", "src/brokers/store/tcp.rs: handle", "src/brokers/queue/tcp.rs: handle", "src/brokers/pub-sub/tcp.rs: handle", "src/brokers/stream/tcp.rs: handle"]}
{"id": "C05", "title": "Client requests are understood as they were meant", "statement": "For every command of the client library, the bytes the client writes are parsed by the server into the same command with the same arguments (names, payloads, ids, limits, generations).", "quantifier": "all commands and all argument values within the wire limits (strings and payloads below 2^32 bytes, ids of 16 bytes, 32/64-bit integers)", "why_tests_cant": "argument values range over all strings, payloads and integers", "anchors": ["sdk/ts/src/codec.ts: FrameWriter", "sdk/ts/src/brokers/*.ts", "src/brokers/queue/tcp.rs: QueueCommand::parse", "src/brokers/stream/tcp.rs: StreamCommand::parse", "src/brokers/pub-sub/tcp.rs: PubSubCommand::parse", "src/brokers/store/tcp.rs: StoreCommand::parse"]}
{"id": "C06", "title": "Server answers are understood as they were meant", "statement": "For every structured response (consumed batch, dead-letter page, fetched stream messages, published sequence, join result, counters, booleans, push packets) the client's decoder returns exactly the values the server encoded.", "quantifier": "all response values, including empty batches and empty payloads, within 32-bit length limits", "why_tests_cant": "responses are lists of unbounded length with arbitrary payloads", "anchors": ["src/brokers/queue/tcp.rs: ConsumeBatchResponse, PeekDlqResponse", "src/brokers/stream/tcp.rs: FetchResponse, PublishResponse, JoinGroupResponse", "src/brokers/pub-sub/domain/types.rs: PubSubMessage::get_network_packet", "sdk/ts/src/codec.ts: Cursor"]}
{"id": "C07", "title": "Opcode routing is unambiguous", "statement": "Each of the 256 opcodes is handled by at most one broker, reserved or unknown opcodes are answered with an error and change nothing, and the echo opcode returns its payload unchanged.", "quantifier": "all opcodes, payloads and server states", "why_tests_cant": "must hold in every server state, not just a fresh one", "anchors": ["src/transport/tcp/dispatcher.rs: route", "src/brokers/store/tcp.rs", "src/brokers/queue/tcp.rs", "src/brokers/pub-sub/tcp.rs", "src/brokers/stream/tcp.rs: OPCODE_MIN, OPCODE_MAX"]}
{"id": "C08", "title": "One response per request, correlated by id", "statement": "On a live connection every request frame is answered by exactly one response carrying that request's id, no response carries an id that was not requested, and pushes are never confused with responses - under every interleaving of request handlers.", "quantifier": "all sequences of inbound frames and all schedules of the per-request tasks", "why_tests_cant": "schedules of concurrent handlers are unbounded", "anchors": ["src/transport/tcp/connection.rs: handle_connection, run_socket"]}
{"id": "C09", "title": "Store reads return the latest live write", "statement": "A GET returns the value of the most recent SET of that key that was not followed by a DEL, as long as its time to live has not elapsed; otherwise it reports absence. Background cleanup is invisible to GET.", "quantifier": "all histories of SET/GET/DEL/cleanup at non-decreasing times, all keys, values and TTLs", "why_tests_cant": "histories and timings are unbounded", "anchors": ["src/brokers/store/domain/map.rs: MapStore", "src/brokers/store/manager.rs: StoreManager"]}
{"id": "C10", "title": "Expired keys are never returned", "statement": "Once the time to live of a key's last SET has elapsed (strictly), neither GET nor a scan ever returns it, and a SET without TTL (or with TTL 0) lives exactly the default TTL.", "quantifier": "all histories and times", "why_tests_cant": "boundary behaviour of time over all histories", "anchors": ["src/brokers/store/domain/map.rs: MapStore::set, get, scan, cleanup"]}
{"id": "C11", "title": "Store scans are sound and complete", "statement": "A scan returns only live keys that contain the filter, with the value GET would return, no key twice; a scan with offset 0 and a limit at least as large as the store returns every live key that matches; consecutive pages of an unchanged store list together what one large page lists, and no page exceeds its limit.", "quantifier": "all store states, filters, offsets, limits", "why_tests_cant": "quantifies over all states and pages", "anchors": ["src/brokers/store/domain/map.rs: MapStore::scan"]}
{"id": "C12", "title": "Keys are independent", "statement": "SET and DEL of one key never change what GET returns for another key.", "quantifier": "all histories and all pairs of keys", "why_tests_cant": "all pairs in all states", "anchors": ["src/brokers/store/domain/map.rs: MapStore"]}
{"id": "C13", "title": "Publish reaches exactly the matching subscribers", "statement": "A publish on a topic is delivered to a connected client if and only if the client currently holds at least one subscription whose pattern matches the topic, where '+' stands for exactly one level and a final '#' for any number of remaining levels including none.", "quantifier": "all histories of connect/subscribe/unsubscribe/publish/disconnect, all patterns and topics", "why_tests_cant": "the pattern tree has unboundedly many shapes reached by unboundedly many histories", "anchors": ["src/brokers/pub-sub/domain/radix_tree.rs: Node::insert_subscriber, match_subscribers", "src/brokers/pub-sub/manager.rs: PubSubManager::publish, subscribe"]}
{"id": "C14", "title": "At most one copy per client and publish", "statement": "However many of a client's subscriptions match, one publish puts exactly one message in that client's outbox, and the returned count is the number of clients that got it.", "quantifier": "all subscription sets and topics", "why_tests_cant": "overlaps between wildcard patterns are unbounded", "anchors": ["src/brokers/pub-sub/manager.rs: PubSubManager::publish"]}
{"id": "C15", "title": "Unsubscribe removes that subscription and nothing else", "statement": "After a client unsubscribes from a pattern it no longer receives messages on account of that pattern; all its other subscriptions, every other client's subscriptions and all retained messages are unaffected.", "quantifier": "all histories and patterns (patterns whose '#' is the last level; the code aliases patterns with an inner '#')", "why_tests_cant": "pruning of the shared tree could remove somebody else's branch in some shape", "anchors": ["src/brokers/pub-sub/domain/radix_tree.rs: Node::remove_subscriber", "src/brokers/pub-sub/manager.rs: PubSubManager::unsubscribe"]}
{"id": "C16", "title": "Disconnect removes all of a client's subscriptions", "statement": "After a client disconnects no publish is ever delivered to it again, and every other client keeps receiving exactly what it received before.", "quantifier": "all histories", "why_tests_cant": "all shapes of the tree and all subscription sets", "anchors": ["src/brokers/pub-sub/manager.rs: PubSubManager::disconnect"]}
{"id": "C17", "title": "Client-side dispatch agrees with server-side routing", "statement": "The client library's own pattern matching accepts a topic for a subscription exactly when the server's routing does, so every delivered message reaches the right callbacks and only those.", "quantifier": "all patterns and topics", "why_tests_cant": "two independent implementations over all pairs of strings", "anchors": ["sdk/ts/src/brokers/pubsub.ts: matchesParts, isWildcard", "src/brokers/pub-sub/domain/radix_tree.rs: Node::match_subscribers"]}
{"id": "C18", "title": "New subscribers get the last retained value of every matching topic", "statement": "A new subscription is immediately sent, once each, the most recently retained non-empty non-expired message of every topic that matches its pattern, labelled with that topic, and nothing else.", "quantifier": "all histories of retained publishes and all patterns", "why_tests_cant": "wildcard expansion over arbitrary trees", "anchors": ["src/brokers/pub-sub/domain/radix_tree.rs: Node::set_retained, collect_retained_for_pattern", "src/brokers/pub-sub/manager.rs: PubSubManager::subscribe"]}
{"id": "C19", "title": "Clearing a retained value", "statement": "Publishing an empty retained message removes the topic's retained value and no other topic's; later subscribers do not receive it.", "quantifier": "all histories and topics", "why_tests_cant": "state-dependent over all trees", "anchors": ["src/brokers/pub-sub/manager.rs: PubSubManager::publish", "src/brokers/pub-sub/domain/radix_tree.rs: Node::set_retained"]}
{"id": "C20", "title": "Retained values respect their time to live", "statement": "While the server runs, a retained value is never sent to a subscriber once its TTL has elapsed, and always sent before; the periodic cleanup does not change what subscribers see.", "quantifier": "all histories and times", "why_tests_cant": "timing over all histories", "anchors": ["src/brokers/pub-sub/domain/retained.rs: RetainedMessage::is_expired", "src/brokers/pub-sub/domain/radix_tree.rs: Node::cleanup_expired"]}
{"id": "C21", "title": "Retained values survive a restart", "statement": "After a flush and a restart, the retained values are exactly those that were live at the flush and have not expired since, under the same topic names and with the same remaining life.", "quantifier": "all retained states, restart times", "why_tests_cant": "needs all trees, names and clock readings; the code violates it for topics with a leading '/', for pairs such as 'a' and '/a', and for values that expire while the server is down", "anchors": ["src/brokers/pub-sub/domain/persistence.rs: flush, load_all", "src/brokers/pub-sub/domain/retained.rs: RetainedMessage::from_persisted", "src/brokers/pub-sub/domain/radix_tree.rs: collect_all_retained"]}
{"id": "C22", "title": "Every pushed message is in exactly one place", "statement": "At any time each pushed message is in exactly one of: waiting, in flight, dead-letter list, or removed (acknowledged, deleted or purged); no message is duplicated or lost by any operation.", "quantifier": "all histories of push/consume/ack/nack/timeout/replay/delete/purge", "why_tests_cant": "conservation over all histories", "anchors": ["src/brokers/queue/domain/queue.rs: QueueState", "src/brokers/queue/domain/dlq.rs: DlqState", "src/brokers/queue/manager.rs: QueueManager"]}
{"id": "C23", "title": "Priority first, then order of arrival", "statement": "A consume returns waiting messages in order of decreasing priority and, within one priority, in the order in which they became waiting.", "quantifier": "all queue states and batch sizes", "why_tests_cant": "all interleavings of pushes, requeues and consumes", "anchors": ["src/brokers/queue/domain/queue.rs: QueueState::pop_single, take_batch, push, transition_to"]}
{"id": "C24", "title": "A consume returns as much as it may and no more", "statement": "A consume with batch size n returns exactly min(n, number of waiting messages) messages, each of them once.", "quantifier": "all states and batch sizes", "why_tests_cant": "all states", "anchors": ["src/brokers/queue/domain/queue.rs: QueueState::take_batch", "src/brokers/queue/manager.rs: QueueManager::consume_batch"]}
{"id": "C25", "title": "Exclusive visibility window", "statement": "A message handed to a consumer is not handed out again before its visibility timeout has elapsed, unless somebody negatively acknowledges it (or the server restarts).", "quantifier": "all histories and all clock readings", "why_tests_cant": "all interleavings of consumers", "anchors": ["src/brokers/queue/domain/queue.rs: pop_single, process_expired, nack"]}
{"id": "C26", "title": "Timed-out messages come back", "statement": "When the visibility timeout of an in-flight message has elapsed and the timeout task runs, the message is either waiting again or in the dead-letter list; messages whose timeout has not elapsed are untouched.", "quantifier": "all states and clock readings", "why_tests_cant": "all states", "anchors": ["src/brokers/queue/domain/queue.rs: process_expired", "src/brokers/queue/manager.rs: spawn_timeout_task"]}
{"id": "C27", "title": "Acknowledged messages never come back", "statement": "After a successful ACK the message is never delivered again, is not in the dead-letter list, and a second ACK of it reports failure.", "quantifier": "all histories after the ACK", "why_tests_cant": "unbounded futures", "anchors": ["src/brokers/queue/manager.rs: QueueManager::ack", "src/brokers/queue/domain/queue.rs: delete_message"]}
{"id": "C28", "title": "Bounded number of deliveries", "statement": "Between its push (or replay from the dead-letter list) and the moment it is removed or dead-lettered, a message is delivered at most max(1, max_retries) times while the server runs, and a failing message that has used its attempts ends in the dead-letter list with its payload, priority, attempt count and last failure reason.", "quantifier": "all histories and configurations", "why_tests_cant": "all failure patterns", "anchors": ["src/brokers/queue/domain/queue.rs: nack, process_expired", "src/brokers/queue/domain/dlq.rs: DlqMessage::from_message"]}
{"id": "C29", "title": "Dead-letter operations are exact", "statement": "Peeking pages through the dead-letter list newest first without changing it; replay moves exactly that message back to waiting with a fresh attempt count; delete removes exactly that one; purge empties the list and reports how many were there.", "quantifier": "all dead-letter lists, offsets, limits, ids", "why_tests_cant": "all states and pages", "anchors": ["src/brokers/queue/domain/dlq.rs: DlqState", "src/brokers/queue/manager.rs: peek_dlq, move_to_queue, delete_dlq, purge_dlq"]}
{"id": "C30", "title": "Counters tell the truth", "statement": "The snapshot counters equal the number of waiting, in-flight and dead-lettered messages, and the message listing pages contain exactly the messages in the requested state.", "quantifier": "all states", "why_tests_cant": "index and registry could diverge in some reachable state", "anchors": ["src/brokers/queue/domain/queue.rs: get_counters, get_messages", "src/brokers/queue/manager.rs: get_snapshot"]}
{"id": "C31", "title": "Queues are independent", "statement": "An operation on one queue changes neither the contents nor the answers of any other queue; operations on a queue that does not exist fail and change nothing; deleting and recreating a queue yields an empty queue.", "quantifier": "all histories over several queues", "why_tests_cant": "all pairs of queues in all states", "anchors": ["src/brokers/queue/manager.rs: QueueManager"]}
{"id": "C32", "title": "A clean restart restores the queue", "statement": "If all storage operations have been committed, a restart restores the same waiting, in-flight and dead-letter messages with payload, priority and attempts; in-flight messages whose timeout is still in the future stay in flight with the same timeout, others are waiting.", "quantifier": "all histories in which storage operations are issued in the order of the state changes, all restart times", "why_tests_cant": "all histories and clock readings", "anchors": ["src/brokers/queue/domain/persistence.rs: exec_op, load_all_messages, load_dlq_messages", "src/brokers/queue/manager.rs: build_queue"]}
{"id": "C33", "title": "Crash consistency of the queue", "statement": "After a crash at any point the recovered contents are those of some earlier moment of the history, no earlier than the last committed batch: no committed push is lost, no committed ACK is undone, and no message is in both the main queue and the dead-letter list.", "quantifier": "all histories, batch boundaries and crash points", "why_tests_cant": "all crash points", "anchors": ["src/brokers/queue/domain/persistence.rs: run_writer, flush_batch, exec_op"]}
{"id": "C34", "title": "Durability does not depend on thread scheduling", "statement": "The guarantees of the two previous properties hold for every interleaving of concurrent requests on the queue.", "quantifier": "all interleavings of the state change and of the sending of the storage operation of concurrent requests", "why_tests_cant": "the window between unlocking the state and sending the storage operation is a schedule-dependent race; the code violates the property in it", "anchors": ["src/brokers/queue/manager.rs: push, ack, nack, consume_batch, move_to_queue"]}
{"id": "C35", "title": "Retry limit across restarts", "statement": "A restart does not give a message more deliveries than its retry limit allows.", "quantifier": "all histories with restarts", "why_tests_cant": "depends on the crash time relative to the visibility timeout; the code violates it", "anchors": ["src/brokers/queue/domain/persistence.rs: load_all_messages"]}
{"id": "C36", "title": "Queue names survive a restart", "statement": "A queue created under a name is restored under the same name after a restart.", "quantifier": "all names that are valid file names", "why_tests_cant": "all names; the code violates it for names ending in '.db'", "anchors": ["src/brokers/queue/manager.rs: QueueManager::new, build_queue"]}
{"id": "C37", "title": "Long-polling consumers are not forgotten", "statement": "A consumer waiting for messages is woken whenever a message becomes available: there is no schedule in which a message is waiting, no wake-up is on its way, and a waiter that has seen an empty queue stays asleep.", "quantifier": "all interleavings of waiters and producers", "why_tests_cant": "lost wake-ups are schedule-dependent", "anchors": ["src/brokers/queue/manager.rs: consume_batch, push, nack, move_to_queue, spawn_timeout_task"]}
{"id": "C38", "title": "Sequence numbers are dense and increasing", "statement": "The publishes on a topic get the sequence numbers 1, 2, 3, ... in the order in which they take effect, without gaps or repetitions, whatever eviction, retention and consumers do in between.", "quantifier": "all histories of one run of the server", "why_tests_cant": "all interleavings with background tasks", "anchors": ["src/brokers/stream/domain/topic.rs: TopicState::append, evict, apply_head", "src/brokers/stream/manager.rs: StreamManager::publish"]}
{"id": "C39", "title": "The log is immutable and readable", "statement": "Reading from a sequence number returns, in order and without gaps, the messages published under the following sequence numbers with their original payloads, whether they are in memory or only on disk, for everything that retention has not removed.", "quantifier": "all histories, read positions and limits", "why_tests_cant": "hot/cold boundaries in all states", "anchors": ["src/brokers/stream/domain/topic.rs: TopicState::read", "src/brokers/stream/manager.rs: StreamManager::read", "src/brokers/stream/domain/persistence.rs: cold_read, read_log_segment"]}
{"id": "C40", "title": "Memory eviction never drops unpersisted data", "statement": "A message leaves memory only after it has been written out to the topic's segment files; every non-deleted message is at any time in memory or readable from disk.", "quantifier": "all interleavings of publishing, flushing, file-handle eviction, segment rolling and eviction", "why_tests_cant": "all interleavings of the storage task with publishers", "anchors": ["src/brokers/stream/domain/topic.rs: TopicState::evict", "src/brokers/stream/domain/persistence.rs: handle_append, get_or_open_writer, flush_all"]}
{"id": "C41", "title": "Retention removes only a prefix and never the newest segment", "statement": "Size- and age-based retention delete whole segments from the old end, never the newest one; size-based retention stops as soon as the total fits; afterwards the first readable sequence is the first one of the oldest surviving segment.", "quantifier": "all segment lists, sizes, modification times and limits", "why_tests_cant": "all combinations of sizes and ages", "anchors": ["src/brokers/stream/domain/persistence.rs: apply_retention", "src/brokers/stream/manager.rs: spawn_background_tasks"]}
{"id": "C42", "title": "No message is skipped by a consumer group", "statement": "For every message that retention has not removed, a group that has moved past it has either had it acknowledged, still tracks it as delivered and unacknowledged, has it queued for redelivery, or has given up on it after the configured number of deliveries.", "quantifier": "all histories of joins, fetches (from memory and disk), acks, timeouts, leaves, disconnects, retention", "why_tests_cant": "at-least-once over all histories", "anchors": ["src/brokers/stream/domain/group.rs: ConsumerGroup", "src/brokers/stream/manager.rs: try_fetch_once, cold_fetch"]}
{"id": "C43", "title": "Fresh messages are delivered in order, once", "statement": "First deliveries to a group are in increasing sequence order without gaps (except what retention removed), and each message is delivered for the first time at most once between two seeks.", "quantifier": "all histories", "why_tests_cant": "all interleavings of members and of memory/disk fetches", "anchors": ["src/brokers/stream/domain/group.rs: fetch, register_cold_messages"]}
{"id": "C44", "title": "A message is held by at most one consumer of a group", "statement": "At any time an unacknowledged delivered message belongs to exactly one consumer, and it is not handed to another one before its ack deadline passes or its holder leaves, disconnects or is fenced.", "quantifier": "all histories", "why_tests_cant": "all interleavings", "anchors": ["src/brokers/stream/domain/group.rs: fetch, issue_delivery, check_redelivery, release_consumer"]}
{"id": "C45", "title": "Acknowledged stream messages are not redelivered", "statement": "After a successful ACK a message is not delivered again to that group until a seek or a restart.", "quantifier": "all histories after the ACK", "why_tests_cant": "unbounded futures", "anchors": ["src/brokers/stream/domain/group.rs: ack, fetch, register_cold_messages"]}
{"id": "C46", "title": "Backpressure bound", "statement": "A group never has more than max_ack_pending unacknowledged messages outstanding, and a fetch never returns more messages than its limit.", "quantifier": "all histories and configurations", "why_tests_cant": "all histories", "anchors": ["src/brokers/stream/domain/group.rs: fetch, register_cold_messages, is_backpressured"]}
{"id": "C47", "title": "Delivery limit", "statement": "Between two seeks a message is delivered to a group at most max_deliveries times; after that it is set aside and never redelivered.", "quantifier": "all histories and configurations", "why_tests_cant": "all failure patterns", "anchors": ["src/brokers/stream/domain/group.rs: issue_delivery, release_seq"]}
{"id": "C48", "title": "Only the holder can acknowledge", "statement": "An ACK succeeds only for a member of the current generation that currently holds the message; every rejected ACK leaves deliveries and progress unchanged.", "quantifier": "all states, consumers, generations, sequence numbers", "why_tests_cant": "all states", "anchors": ["src/brokers/stream/domain/group.rs: ack, ensure_active_consumer"]}
{"id": "C49", "title": "Seek fences everyone", "statement": "After a seek no consumer that joined before it ever receives a message or has an ACK accepted, even for requests already in progress; a seek to the beginning redelivers everything retained, a seek to the end delivers only what is published afterwards.", "quantifier": "all histories around the seek", "why_tests_cant": "in-progress fetches race with the seek", "anchors": ["src/brokers/stream/domain/group.rs: seek_beginning, seek_end, reset_runtime", "src/brokers/stream/manager.rs: seek, cold_fetch"]}
{"id": "C50", "title": "Leaving releases exactly the leaver's messages", "statement": "When a consumer leaves or its connection closes, all its unacknowledged messages become available to the others at once (or are set aside if used up), and nobody else's messages are touched.", "quantifier": "all states", "why_tests_cant": "all states", "anchors": ["src/brokers/stream/domain/group.rs: remove_member, release_consumer", "src/brokers/stream/manager.rs: leave_group, disconnect"]}
{"id": "C51", "title": "Ack deadline", "statement": "The redelivery task releases exactly the messages whose ack deadline has passed.", "quantifier": "all states and clock readings", "why_tests_cant": "all states", "anchors": ["src/brokers/stream/domain/group.rs: check_redelivery"]}
{"id": "C52", "title": "Progress reported to joiners is true and monotone", "statement": "The progress marker of a group never decreases except by a seek, and every message at or below it is acknowledged, set aside, removed by retention or skipped by a seek.", "quantifier": "all histories", "why_tests_cant": "all histories", "anchors": ["src/brokers/stream/domain/group.rs: try_advance_floor, clamp_head", "src/brokers/stream/manager.rs: join_group"]}
{"id": "C53", "title": "Groups and topics are independent", "statement": "Fetching, acknowledging, leaving or seeking in one group never affects another group of the same or another topic.", "quantifier": "all histories and pairs of groups", "why_tests_cant": "all pairs", "anchors": ["src/brokers/stream/manager.rs: StreamManager"]}
{"id": "C54", "title": "A fetch makes progress", "statement": "If a group is below its outstanding limit and a message that it has not yet delivered (or must redeliver) is available, a fetch by a member with a positive limit returns at least one message, from memory or after one disk read.", "quantifier": "all reachable states", "why_tests_cant": "all states, including after cancelled requests; the code violates it after a consumer disconnects in the middle of a disk read", "anchors": ["src/brokers/stream/manager.rs: try_fetch_once, cold_fetch", "src/brokers/stream/domain/group.rs: remove_member"]}
{"id": "C55", "title": "Log records round trip and damage is confined", "statement": "Records written to a segment file are read back identically in order; if the file is cut at any byte, exactly the complete records before the cut are recovered, and a damaged record is never returned as data.", "quantifier": "all record sequences, cut positions, checksum functions", "why_tests_cant": "all crash points", "anchors": ["src/brokers/stream/domain/persistence.rs: serialize_message, load_segment_file, read_log_segment"]}
{"id": "C56", "title": "Group progress file round trips", "statement": "The saved group progress is read back as the same map from group name to position.", "quantifier": "all group maps", "why_tests_cant": "all names and sizes; the code violates it for group names of 65536 bytes or more", "anchors": ["src/brokers/stream/domain/persistence.rs: save_groups_file, write_group_entry, load_groups_file"]}
{"id": "C57", "title": "Sequence numbers are not reused after a restart", "statement": "After a restart the next publish gets a sequence number greater than that of every message still readable.", "quantifier": "all histories and crash points", "why_tests_cant": "all crash points; the code violates it when the newest segment holds no complete record", "anchors": ["src/brokers/stream/domain/persistence.rs: recover_topic", "src/brokers/stream/domain/topic.rs: TopicState::restore"]}
{"id": "C58", "title": "Flushed messages survive any number of restarts", "statement": "A message that has been flushed is still readable after any sequence of crashes and restarts, until retention removes it.", "quantifier": "all histories with several crashes", "why_tests_cant": "two crashes in sequence; the code violates it because a torn tail is never cut off", "anchors": ["src/brokers/stream/domain/persistence.rs: load_segment_file, handle_append"]}
{"id": "C59", "title": "After a restart a group gets everything it has not acknowledged", "statement": "After a restart each group is delivered every retained message above its saved progress, in particular every message published after the restart.", "quantifier": "all histories and crash points", "why_tests_cant": "all crash points; the code violates it when progress was saved but the acknowledged messages were not yet flushed", "anchors": ["src/brokers/stream/domain/group.rs: ConsumerGroup::restore", "src/brokers/stream/manager.rs: build_topic_shared"]}
{"id": "C60", "title": "Concurrent publishers do not disturb the log", "statement": "The order of messages on disk is the order of their sequence numbers for every interleaving of concurrent publishers.", "quantifier": "all interleavings", "why_tests_cant": "race between releasing the topic lock and enqueuing the write; the code violates it", "anchors": ["src/brokers/stream/manager.rs: StreamManager::publish", "src/brokers/stream/domain/persistence.rs: handle_append"]}
{"id": "C61", "title": "Topic and queue names stay inside the data directory", "statement": "No name given by a client makes the server create, read or delete files outside its data directory.", "quantifier": "all names", "why_tests_cant": "all strings; the code violates it for names containing '..' or starting with '/'", "anchors": ["src/brokers/stream/manager.rs: create_topic, delete_topic", "src/brokers/stream/domain/persistence.rs: handle_command", "src/brokers/queue/manager.rs: build_queue, delete_queue"]}
{"id": "C62", "title": "Closing a connection releases what it held", "statement": "However a connection ends, the stream consumers that joined over it are removed, their messages are released, and its subscriptions are dropped.", "quantifier": "all ways a connection can end", "why_tests_cant": "depends on how the socket task ends; the code violates it when the connection ends with a protocol or I/O error", "anchors": ["src/transport/tcp/connection.rs: handle_connection, run_socket"]}
{"id": "C63", "title": "Client request ids stay valid", "statement": "The client library can go on issuing requests for ever: each new request id fits the 32-bit id field and is not the id of a request still in flight.", "quantifier": "all numbers of requests issued", "why_tests_cant": "the failure needs 2^31 requests; the code violates it", "anchors": ["sdk/ts/src/connection.ts: nextId"]}
{"id": "C64", "title": "Different names have different files", "statement": "Two stream topics, or two queues, with different names never share a file or directory, so nothing done to one of them (deletion included) changes or removes data of the other.", "quantifier": "every pair of different names, every configured data directory, every request that carries a name", "why_tests_cant": "A test tries a few names; that no two of the unboundedly many names collide needs an argument about path resolution and file suffixes.", "anchors": ["src/brokers/stream/manager.rs: create_topic, delete_topic, exists, build_topic_shared", "src/brokers/stream/domain/persistence.rs: handle_command, handle_append", "src/brokers/queue/manager.rs: create_queue, delete_queue, build_queue"]}
{"id": "C65", "title": "A waiting fetch is woken", "statement": "A stream consumer that waits in a long-polling fetch never sleeps through a message: whenever its group is owed a message (newly published, released by another consumer that left, disconnected or ran out of time, or made available again by a seek) and the request or task that caused this has completed, the waiting fetch has been woken and tries again, and the attempt returns a message or reads it from disk.", "quantifier": "all interleavings of the waiting fetches' loops with publishes, acks, leaves, disconnects, seeks, timer runs, retention and the notifications that follow them", "why_tests_cant": "A lost wake-up shows only in the one interleaving where the notification falls between the failed attempt and the registration of the waiter; tests do not control that schedule.", "anchors": ["src/brokers/stream/manager.rs: fetch, publish, leave, seek, disconnect, spawn_background_tasks", "src/brokers/stream/manager.rs: try_fetch_once"]}
{"id": "C66", "title": "Saved acknowledgements survive a crash", "statement": "If at some moment every message up to number s is settled for a group and s has been acknowledged or has used up its deliveries, and after that the periodic save of the group progress runs and the storage task handles the commands then in its queue, then after a crash at any later moment a joining consumer is told a progress of at least s, and no message up to s is delivered to the group again, unless the group is sought.", "quantifier": "all histories of publishes, fetches, acknowledgements, disconnects, timeouts, retention, saves and storage steps, all crash points", "why_tests_cant": "the save is skipped when a flag says that nothing has changed; every one of the many operations that settle messages must set the flag, in every interleaving with saves and storage steps", "anchors": ["src/brokers/stream/manager.rs: spawn_background_tasks (group save), groups_dirty", "src/brokers/stream/domain/persistence.rs: save_groups_file, load_groups_file", "src/brokers/stream/domain/group.rs: ConsumerGroup::restore"]}
{"id": "C67", "title": "Every request of the client is settled once", "statement": "Every request made through the client library is settled exactly once: with the answer that the server sent to this very request on the same connection, or with an error when the connection is lost or, at the latest, at the first periodic check after the request's timeout.", "quantifier": "all interleavings of requests, answers (late, unknown and repeated ones included), timeouts, connection losses, reconnects and disconnect calls", "why_tests_cant": "the pending table, its sweep and its clean-up interleave with reconnects in unboundedly many ways; a promise that never settles or settles with someone else's answer shows only in one of them", "anchors": ["sdk/ts/src/connection.ts: send, handleResponse, startSweep, cleanup, disconnect"]}
{"id": "C68", "title": "Disconnect is final", "statement": "After disconnect() has been called the client does not connect again by itself and no request is sent.", "quantifier": "every moment at which disconnect() can be called, and everything that may happen afterwards", "why_tests_cant": "it must hold for a call at every point of the reconnect cycle, in particular while a timer is pending", "anchors": ["sdk/ts/src/connection.ts: disconnect, scheduleReconnect, tryConnect"]}
{"id": "C69", "title": "The client keeps trying to connect", "statement": "Until disconnect() is called, a client whose connection is lost or cannot be made goes on trying: it is always connected, connecting, or waiting for exactly one timer that starts the next attempt, never more than one at a time, and every loss or failed attempt leads to another attempt.", "quantifier": "all histories of connection losses, refused attempts, timers and requests", "why_tests_cant": "an attempt that is lost or doubled shows only after a particular order of close, error and timer events, possibly after any number of attempts", "anchors": ["sdk/ts/src/connection.ts: connect, tryConnect, scheduleReconnect, on('close')"]}
{"id": "C70", "title": "Queue consumers settle each message once, after its callback", "statement": "A queue subscription of the client library gives every received message to the callback at most once and in the order received; it acknowledges a message only when its callback has returned and refuses it when the callback has thrown, never both; at most `concurrency` callbacks run at a time; more messages are asked for only when all callbacks of the last answer have ended. After stop() the callback is not called again, messages it was not called with are given back, and when stop() resolves no callback is running.", "quantifier": "every concurrency, all interleavings of received batches, callback ends (returns and throws), network failures and stop()", "why_tests_cant": "workers, batches and stop() interleave in unboundedly many ways", "anchors": ["sdk/ts/src/brokers/queue.ts: subscribe", "sdk/ts/src/utils/concurrent.ts: runConcurrent"]}
{"id": "C71", "title": "Stream consumers acknowledge each message once, after its callback", "statement": "A stream subscription of the client library gives every received message to the callback at most once and in the order received; it acknowledges a message once, only when its callback has returned without an error, and with the membership under which it was fetched; at most `concurrency` callbacks run at a time. After stop() the callback is not called again and the consumer leaves its group.", "quantifier": "every concurrency, all interleavings of fetches, fenced answers, rejoins, callback ends, network failures and stop()", "why_tests_cant": "rejoins, workers and stop() interleave in unboundedly many ways", "anchors": ["sdk/ts/src/brokers/stream.ts: subscribe, stop", "sdk/ts/src/utils/concurrent.ts: runConcurrent"]}
{"id": "C72", "title": "Subscriptions outlive connections", "statement": "Whenever the client is connected and none of its subscription requests is outstanding, the topics for which the application has a callback are exactly the topics the server sends to this connection: lost connections lose no subscription and leave none behind.", "quantifier": "all histories of subscribe, unsubscribe, lost connections and reconnects, with the server handling and answering the requests of a connection in any order", "why_tests_cant": "requests of one connection are handled concurrently and resubscription runs in the background; the two sides can drift apart only in particular orders", "anchors": ["sdk/ts/src/brokers/pubsub.ts: constructor (on reconnect), subscribe, unsubscribe", "src/transport/tcp/connection.rs: handle_connection", "src/brokers/pub-sub/manager.rs: subscribe, unsubscribe, disconnect"]}
{"id": "C73", "title": "Overlapping publish/subscribe requests", "statement": "A publish that begins after a subscription has been answered puts exactly one copy of its message into the channel of the subscriber, as long as the pattern matches, the client stays connected and does not unsubscribe; one publish never sends a client more than one copy; a client whose unsubscribe has been answered gets nothing from later publishes; after a disconnect nothing is sent to the client except by subscriptions it had begun before.", "quantifier": "all interleavings of the lock sections of any number of subscribe, unsubscribe, publish, connect and disconnect requests of any clients, including clients found dead", "why_tests_cant": "the client table and the topic tree are locked separately, so requests interleave between them in unboundedly many ways", "anchors": ["src/brokers/pub-sub/manager.rs: subscribe, unsubscribe, publish, disconnect"]}
{"id": "C74", "title": "A client that has gone leaves no subscription behind", "statement": "Whenever no publish/subscribe request is in progress, the subscribers the dashboard counts for a name are exactly the connected clients whose last request about this name was to subscribe; a client that has been disconnected is counted nowhere.", "quantifier": "all interleavings of the lock sections of subscribe, unsubscribe, publish, connect and disconnect requests of any clients", "why_tests_cant": "the two sections of a subscription can be separated by a disconnection only in particular schedules", "anchors": ["src/brokers/pub-sub/manager.rs: subscribe, unsubscribe, disconnect, scan_topics", "src/transport/tcp/connection.rs: handle_connection"]}
{"id": "C75", "title": "The retained value is the last message", "statement": "When all publishes on a topic have been answered, the value a new subscriber is sent is that of the last message the present subscribers got on this topic.", "quantifier": "all interleavings of publishes, subscriptions and disconnections", "why_tests_cant": "storing the value and sending the message are separate sections of a publish, so concurrent publishes can order them differently", "anchors": ["src/brokers/pub-sub/manager.rs: publish, subscribe"]}
{"id": "C76", "title": "The publish/subscribe dashboard shows the topics there are", "statement": "The dashboard lists, under their names, sorted and once each, exactly the topics with a subscriber or a current retained value, with the number of subscribers and the retained value; the pages of a listing together give the whole listing; the search shows the topics whose name contains the text; the number of clients is that of the connected clients and the wildcard lists hold exactly their wildcard subscriptions.", "quantifier": "all histories of requests, limits, offsets and search texts", "why_tests_cant": "depends on the shape of the topic tree after any history", "anchors": ["src/brokers/pub-sub/manager.rs: scan_topics", "src/brokers/pub-sub/domain/radix_tree.rs: collect_filtered_topics", "src/brokers/pub-sub/http.rs: get_pubsub"]}
{"id": "C77", "title": "What was answered is durable after the next flush", "statement": "Once the queue's storage task has received the operations of the requests answered so far and has flushed, a crash loses nothing of them: an acknowledged message does not come back, a pushed message that was not removed is there after the restart, and what is recovered is the state at some moment after those requests.", "quantifier": "all requests, batch sizes, schedules of the storage task, storage failures and crash points", "why_tests_cant": "ranges over every interleaving of requests with batches, timer flushes, failing transactions and crashes", "anchors": ["src/brokers/queue/domain/persistence.rs: run_writer, flush_batch, exec_op", "src/brokers/queue/manager.rs: build_queue"]}
{"id": "C78", "title": "Storage failures invent nothing", "statement": "Whatever transactions, statements and commits fail and whenever the process crashes, the queue holds and hands out only messages that were pushed, with their payload, priority and time of creation, and each in one place only (waiting, in flight or dead letter).", "quantifier": "all requests, batch sizes, schedules, storage failures and crash points", "why_tests_cant": "ranges over every combination of failing statements and crashes; half-done moves between two tables must not duplicate a message", "anchors": ["src/brokers/queue/domain/persistence.rs: run_writer, flush_batch, exec_op, load_all_messages, load_dlq_messages", "src/brokers/queue/manager.rs: build_queue"]}
{"id": "C79", "title": "Creating and deleting a queue take effect one after the other", "statement": "Requests that create, delete and use the same queue behave, however they overlap, as if they happened one at a time: a new queue is empty and has the requested configuration, what is pushed to it is kept across restarts like in any queue, and a deleted queue does not come back until it is created again.", "quantifier": "all interleavings of create, delete and other requests on one queue name with the storage tasks of its present and former incarnations, and restarts", "why_tests_cant": "a delete awaits the storage task and removes files in several steps, with every other request possible in between", "anchors": ["src/brokers/queue/manager.rs: create_queue, delete_queue, build_queue, new", "src/brokers/queue/domain/persistence.rs: QueueStore::new, execute, shutdown, run_writer"]}
{"id": "C80", "title": "A deleted stream topic is gone", "statement": "Once a delete of a stream topic has been answered, and until a create of it begins, the topic does not exist: the existence check says no, publishes fail, and it does not come back at a restart.", "quantifier": "all interleavings of create, delete and publish requests on one topic with the storage task, the task that saves the groups, and restarts", "why_tests_cant": "a publish that found the topic before the delete can hand its message over at any later moment", "anchors": ["src/brokers/stream/manager.rs: delete_topic, publish, exists, bootstrap_from_disk", "src/brokers/stream/domain/persistence.rs: handle_command, handle_append"]}
{"id": "C81", "title": "A created stream topic is new and stays", "statement": "A create request for a topic that does not exist makes an empty topic with the requested configuration and numbers from 1; a restart brings it back with that configuration, with the messages published to it (not those of a former topic of the name) and with the progress of its own groups.", "quantifier": "all interleavings of create, delete and publish requests on one topic with the storage task, the task that saves the groups, and restarts", "why_tests_cant": "a create has seven stages with every other request and storage command possible between them", "anchors": ["src/brokers/stream/manager.rs: create_topic, delete_topic, build_topic_shared, load_topic_config, bootstrap_from_disk", "src/brokers/stream/domain/topic.rs: TopicConfig::from_options", "src/brokers/stream/domain/persistence.rs: handle_command, recover_topic, save_groups_file"]}
{"id": "C82", "title": "Storage failures of a stream topic", "statement": "When operations on the files of a stream topic fail (the directory cannot be made, a segment cannot be opened, a write or a flush fails in part, the progress of groups cannot be saved, a segment cannot be read), a published message that was answered with its number stays readable by reads and by groups until retention removes it, groups go on being served, and every message delivered is one that was published, unchanged.", "quantifier": "all histories of requests, background tasks and storage steps in which any operation of the storage task may fail, with any number of bytes reaching the file, and with crashes", "why_tests_cant": "a failure can strike any file operation at any byte, followed by any history", "anchors": ["src/brokers/stream/domain/persistence.rs: handle_append, get_or_open_writer, flush_all, cold_read, read_log_segment, load_segment_file, save_groups_file", "src/brokers/stream/domain/topic.rs: evict", "src/brokers/stream/domain/group.rs: register_cold_messages"]}
{"id": "C83", "title": "Store scans that overlap writes", "statement": "While other clients write, delete and the cleanup runs, a scan lists no key twice, at most as many as its limit, each with a value it had at some moment of the scan and not expired; a key that keeps its value all the time is listed by every scan whose limit is large enough; the total lies between the number of keys that are there all the time and the number of keys at the start plus the writes during the scan, and is the number of entries that all pages list together; a page that is not full is the last one.", "quantifier": "all interleavings of a scan with other requests and the cleanup, all shard numbers, key placements and visiting orders", "why_tests_cant": "the scan locks one shard after the other; every interleaving between the shards counts", "anchors": ["src/brokers/store/manager.rs: StoreManager::scan", "src/brokers/store/domain/map.rs: MapStore::iter, MapStore::len", "src/brokers/store/http.rs: get_store"]}
{"id": "C84", "title": "A pushed message is in the queue until some consumer has processed it", "statement": "With any number of subscribed consumers, a pushed message stays in the queue (waiting, handed out or dead-lettered) until the callback of some consumer has returned without an error for it, or somebody acknowledges it or removes it from the dead letters by hand. This holds whatever requests and answers are lost on the way, whenever consumers stop, time out, reconnect or throw. Once the message is committed it also holds through any number of crashes and restarts of the server.", "quantifier": "all numbers of consumers, batch sizes, concurrency settings, interleavings of consumers, network and server, lost requests and answers, crash points", "why_tests_cant": "the guarantee joins the consumer loop, the network and the broker; each has its own interleavings and failures, and only their combinations can lose a message", "anchors": ["sdk/ts/src/brokers/queue.ts: subscribe, consume, ack, nack", "src/brokers/queue/manager.rs: consume_batch, ack, nack", "src/brokers/queue/domain/queue.rs", "src/brokers/queue/domain/persistence.rs"]}
{"id": "C85", "title": "Consumers see pushed messages, a bounded number of times, before they are given up", "statement": "A consumer's callback is called only with messages that were pushed, with the id and payload they were pushed with. Over all consumers together it is called for one message at most max(1, max_retries) times per run of the server unless the message is replayed from the dead letters. A message is dead-lettered only after a callback was called with it.", "quantifier": "all numbers of consumers, settings, interleavings, lost requests and answers, crash points", "why_tests_cant": "the count is over all consumers and all deliveries of a history, and whether a delivery leads to a call depends on losses and stops at any point", "anchors": ["sdk/ts/src/brokers/queue.ts: subscribe, consume", "src/brokers/queue/manager.rs: consume_batch, nack", "src/brokers/queue/domain/queue.rs: pop_single, nack, process_expired"]}
{"id": "C86", "title": "The progress of a consumer group covers only processed messages", "statement": "With any number of subscribed consumers of a stream group, a message counts as acknowledged only if the callback of some consumer has returned without an error for it, or somebody acknowledged it by hand. So the progress the server reports to a joining consumer passes only messages that were processed, acknowledged by hand, delivered as often as max_deliveries allows, removed by retention, or that lie before the group's starting point; for a new topic without retention and seeks the last two do not occur. This holds whatever requests and answers are lost, and whenever consumers stop, are fenced, reconnect or throw.", "quantifier": "all numbers of consumers, batch sizes, concurrency settings, interleavings of consumers, network and server, lost requests and answers", "why_tests_cant": "the guarantee joins the consumer loop, the network and the broker; each has its own interleavings and failures, and only their combinations can lose a message", "anchors": ["sdk/ts/src/brokers/stream.ts: StreamSubscription", "src/brokers/stream/manager.rs: join, fetch, ack, leave", "src/brokers/stream/domain/group.rs"]}
{"id": "C87", "title": "Stream consumers see published messages, a bounded number of times, before they are given up", "statement": "A stream consumer's callback is called only with messages that were published, with the number and payload they were published with. Over all consumers of a group together it is called for one message at most as often as the server delivered it, and so at most max_deliveries times in a run of the server unless the group is sought. A message is given up only after a callback was called with it.", "quantifier": "all numbers of consumers, settings, interleavings, lost requests and answers", "why_tests_cant": "the count is over all consumers and all deliveries of a history, and whether a delivery leads to a call depends on losses and stops at any point", "anchors": ["sdk/ts/src/brokers/stream.ts: StreamSubscription", "src/brokers/stream/manager.rs: fetch, leave, disconnect", "src/brokers/stream/domain/group.rs: release, redelivery"]}
{"id": "C88", "title": "Each stream consumer's callback is called in the order of the log", "statement": "The callback of one consumer is called with messages in increasing order of their numbers, except for messages that the server delivered more than once; if max_deliveries is 1 the order is strict. This holds as long as the group is not sought, with any number of other consumers, lost requests and answers, and rejoining.", "quantifier": "all numbers of consumers, batch sizes, concurrency settings, interleavings, lost requests and answers", "why_tests_cant": "an answer of an old request that overtakes a newer one, or a fetch that is still waiting in the server when the client asks again, could break the order; only some interleavings show it", "anchors": ["sdk/ts/src/brokers/stream.ts: StreamSubscription", "sdk/ts/src/connection.ts: send, handleFrame", "src/brokers/stream/manager.rs: fetch", "src/brokers/stream/domain/group.rs: fetch"]}
{"id": "C89", "title": "The dashboard lists the messages of a queue", "statement": "The dashboard's message list of a queue shows, for each of the states pending, inflight and dlq (in any case of letters), exactly the messages in that state whose payload contains the search text: the total is their number, the page is the part from the offset on up to the limit (50 if not given, at most 1000), and pages of one size together show every message once. A queue or a state that does not exist is reported as an error.", "quantifier": "all queue states, state names, offsets, limits, page sizes and search texts", "why_tests_cant": "the claim is about every page of every queue content", "anchors": ["src/brokers/queue/http.rs: get_queue_messages", "src/brokers/queue/domain/queue.rs: get_messages", "src/brokers/queue/domain/dlq.rs: peek"]}
{"id": "C90", "title": "The dashboard shows payloads as what they are", "statement": "The dashboard shows the value a client wrote into the store, a queue, a topic or a stream: text as itself, a JSON value as itself, a buffer as 0x and its hexadecimal digits. Different values are shown differently, and what is shown is what a client that reads the payload gets.", "quantifier": "all payloads", "why_tests_cant": "a statement about all byte strings and pairs of them", "anchors": ["src/transport/http/payload.rs: payload_to_json_value", "sdk/ts/src/codec.ts: any, decodeAny"]}
{"id": "C91", "title": "The dashboard shows streams as they are", "statement": "The dashboard shows for a stream topic the number of the last message published, for each group that exists its progress (every message up to it is settled, the next one is not) and the number of messages its consumers hold. A page for a given number shows the messages from that number on, newest first, up to the limit; the first page shows the newest messages of the topic.", "quantifier": "all histories of a topic, all positions and limits", "why_tests_cant": "depends on what is in memory, in files and in neither, after any history", "anchors": ["src/brokers/stream/http.rs: get_stream_messages", "src/brokers/stream/manager.rs: get_snapshot, read"]}
{"id": "C92", "title": "From publish to callback", "statement": "After subscribe has resolved, and as long as the connection lasts and unsubscribe is not called, the callback is called exactly once, in the order of publishing, for each message published on a matching topic, whatever other subscriptions come and go; when the subscription is handled it is called with the value retained for each matching topic. A callback is called only with messages that were published, on topics that match its pattern. Once unsubscribe has resolved, the callback is not called again until subscribe is called again.", "quantifier": "all histories of one client of the library (its calls, lost connections, timeouts), of the network and of the server with all its other clients; all patterns whose # is last", "why_tests_cant": "orders of requests, answers and messages on the connection, and connections lost at any point", "anchors": ["sdk/ts/src/brokers/pubsub.ts: subscribe, unsubscribe, dispatch", "sdk/ts/src/connection.ts: handleFrame", "src/transport/tcp/connection.rs: handle_connection", "src/brokers/pub-sub/manager.rs: publish, subscribe, unsubscribe"]}
{"id": "C93", "title": "Requests are carried out at most once, between call and answer, and answered with their own result", "statement": "Whatever the clients, the network, lost connections and the server's concurrent tasks do, a request made through the client library is carried out at most once; it is carried out as the command that was asked for, on the state left by the requests carried out before it; if its promise is settled with an answer, it was carried out between the call and the settlement, and the answer is the result of that very request. So all answered requests, of all clients, take effect one after the other in an order that respects real time. No promise is settled twice.", "quantifier": "all servers (any engine, any result function), all numbers of clients, all histories of calls, timeouts, lost connections and reconnections, and all cuttings of the byte streams into chunks and interleavings of the server's tasks", "why_tests_cant": "the interleavings of clients, byte chunks, tasks and lost connections have no bound", "anchors": ["sdk/ts/src/connection.ts: send, sendFireAndForget, processBuffer, handleFrame, cleanup", "src/transport/tcp/connection.rs: handle_connection, run_socket", "src/transport/tcp/protocol/codec.rs"]}
{"id": "C94", "title": "The store through the library, the network and the server", "statement": "A get made through the client library that is answered resolves, at some moment between call and answer, to the value of the last set or del of that key carried out before that moment: to that value if its time to live has not elapsed, else to null. In particular a get made, by any client, after the answer to a set resolves to the value set if no other write of the key intervenes.", "quantifier": "all histories of all clients, connections, byte chunks, server tasks and expiry sweeps; all keys, values and times to live", "why_tests_cant": "concurrent writes by other clients, delayed and reordered tasks and sweeps at any moment", "anchors": ["sdk/ts/src/brokers/store.ts: mapSet, mapGet, mapDel", "src/brokers/store/manager.rs", "src/transport/tcp/connection.rs: handle_connection"]}
{"id": "C95", "title": "A client's requests take effect in the order made", "statement": "If a client makes one request and then another on the same connection, the first takes effect before the second.", "quantifier": "all histories of clients, connections, byte chunks and server tasks", "why_tests_cant": "the order in which the server's tasks run is up to the scheduler", "anchors": ["src/transport/tcp/connection.rs: handle_connection", "sdk/ts/src/connection.ts: send"]}
{"id": "C96", "title": "No request is lost", "statement": "If no request is larger than the server's limit: once nothing is on its way between a client and the server, every request the client wrote on its connection has been carried out, and every promise is settled, except those of requests whose handler panicked. As long as the connection is up, the network and the server can always go on until nothing is on its way. Promises of requests made on a connection that was lost are settled.", "quantifier": "all servers, all histories of calls, connections, byte chunks and tasks of any number of clients", "why_tests_cant": "frames cut at any byte, tasks finishing in any order, connections lost at any point", "anchors": ["sdk/ts/src/connection.ts: send, processBuffer, cleanup", "src/transport/tcp/connection.rs: handle_connection, run_socket", "src/transport/tcp/protocol/codec.rs"]}
{"id": "C97", "title": "Visibility timeouts of any size", "statement": "Whatever visibility timeout a queue was created with, a message handed to a consumer is not handed out again before that timeout has elapsed, unless somebody negatively acknowledges it or the server restarts; and a build whose 64-bit arithmetic wraps around answers like one with unbounded numbers.", "quantifier": "all configurations, all histories of requests, commits and restarts, all clock readings", "why_tests_cant": "the sum of clock and timeout wraps around only for values no test uses", "anchors": ["src/brokers/queue/domain/queue.rs: pop_single, take_batch", "src/brokers/queue/options.rs", "Cargo.toml: profile.release"]}
{"id": "C98", "title": "Back pressure only delays", "statement": "However small the channels of a connection and the network buffers are, and however the tasks are scheduled: as long as the client goes on reading, a connection with work under way can always take a further step, it comes to rest after finitely many steps, and then every request has been carried out and answered exactly once (in some order, as if one after the other) and every push has arrived, in order.", "quantifier": "all channel and buffer capacities of at least one, all schedules of client, network and tasks, all requests and pushes", "why_tests_cant": "a deadlock between three tasks and two full buffers needs a particular interleaving at particular fill levels", "anchors": ["src/transport/tcp/connection.rs: run, run_socket", "src/config.rs: channel_capacity_socket_write", "src/brokers/pub-sub/manager.rs: connect (unbounded push channel)"]}
{"id": "C99", "title": "A client may send any number of requests before it reads", "statement": "A client that writes all its requests before it reads the first answer gets to the end of writing, and its requests are answered.", "quantifier": "all capacities, all numbers of requests, all schedules in which the client does not read", "why_tests_cant": "needs as many requests in flight as both network buffers hold, and a schedule that fills them", "anchors": ["src/transport/tcp/connection.rs: run, run_socket", "src/config.rs: channel_capacity_socket_write", "src/brokers/pub-sub/manager.rs: connect (unbounded push channel)"]}
{"id": "C100", "title": "The memory of a connection is bounded by the configuration", "statement": "What the server holds for a connection (frames read and not answered, answers and pushes not written) is bounded by the configuration, however fast the client sends and however slowly it reads.", "quantifier": "all capacities, all schedules, all numbers of requests and pushes", "why_tests_cant": "a test stops long before memory runs out", "anchors": ["src/transport/tcp/connection.rs: run, run_socket", "src/config.rs: channel_capacity_socket_write", "src/brokers/pub-sub/manager.rs: connect (unbounded push channel)"]}
{"id": "C101", "title": "Queues behind the network", "statement": "For any number of clients over their own connections, whatever the network, the server's tasks and the other brokers do: a consume whose promise resolves returns messages with different ids, each with the id and the payload (the value) of a push to that queue that was carried out before and answered ok, the queue not having been deleted since; a message handed out once is handed out again, to whichever client, only if it was refused in between or the timeout task ran when its visibility timeout had elapsed; a message whose ack was answered ok is never handed out again; a message whose push was answered ok and that nobody has been handed, has settled, or has deleted with its queue is in the answer of the next consume that has room for it.", "quantifier": "all numbers of clients and connections, all requests, all splittings of the byte streams, all interleavings of request tasks and background tasks, all configurations", "why_tests_cant": "clients, connections and request tasks interleave without bound; a test sees a few of the schedules", "anchors": ["src/brokers/queue/tcp.rs: handle", "src/brokers/queue/manager.rs: push, consume_batch, ack, nack, create_queue, delete_queue", "src/transport/tcp/connection.rs: run", "sdk/ts/src/brokers/queue.ts"]}
{"id": "C102", "title": "First come, first served, across clients", "statement": "Of two messages pushed to a queue one after the other, with the same priority or the second with a lower one, the second is not handed out while the first waits, and in one answer the first comes first.", "quantifier": "all histories of all clients, all schedules of the request tasks", "why_tests_cant": "the order of the tasks of one connection is up to the scheduler", "anchors": ["src/brokers/queue/tcp.rs: handle", "src/brokers/queue/manager.rs: push, consume_batch, ack, nack, create_queue, delete_queue", "src/transport/tcp/connection.rs: run", "sdk/ts/src/brokers/queue.ts"]}
{"id": "C103", "title": "Streams behind the network", "statement": "For any number of clients over their own connections, whatever the network, the server's tasks and the other brokers do: a fetch whose promise resolves returns messages each with the number, timestamp and payload (the value) of a publish on that topic that was carried out before and answered with that number, the topic not having been deleted since; the publishes on a topic are numbered 1, 2, 3, ... in the order in which they are carried out, whoever makes them; in a consumer group a message handed out once is handed out again, to whichever consumer, only if in between its consumer left, the connection over which that consumer joined closed, its time for acknowledging was over, or the group was sought; an acknowledged message is not handed out to the group again unless the group is sought; only a consumer that was handed a message can acknowledge it; a group gets new messages in the order of their numbers and, unless retention removed some or it was sought, without gaps; no message is handed out to a group more than max_deliveries times between seeks.", "quantifier": "all numbers of clients and connections, all topics, groups and requests, all splittings of the byte streams, all interleavings of request tasks and background tasks, all configurations", "why_tests_cant": "clients, connections, request tasks and background tasks interleave without bound; a test sees a few of the schedules", "anchors": ["src/brokers/stream/tcp.rs: handle", "src/brokers/stream/manager.rs: publish, fetch, join_group, ack, seek, leave_group, disconnect, create_topic, delete_topic", "src/transport/tcp/connection.rs: run", "sdk/ts/src/brokers/stream.ts"]}
{"id": "C104", "title": "Messages of one publisher are numbered in the order of its calls", "statement": "Of two messages that a client publishes on a topic one after the other, the first has the lower number.", "quantifier": "all histories of all clients, all schedules of the request tasks", "why_tests_cant": "the order of the tasks of one connection is up to the scheduler", "anchors": ["src/brokers/stream/tcp.rs: handle", "src/brokers/stream/manager.rs: publish, fetch, join_group, ack, seek, leave_group, disconnect, create_topic, delete_topic", "src/transport/tcp/connection.rs: run", "sdk/ts/src/brokers/stream.ts"]}
{"id": "C105", "title": "Publish/subscribe behind the network", "statement": "For any number of clients over their own connections, whatever the network, the server's tasks and the other brokers do: the messages that arrive at a client over a connection are, in order, without gaps and without repetition, a beginning of this list: for each publish that the server carries out, its topic and payload once if the connection is subscribed to a matching pattern at that moment (it has subscribed and neither unsubscribed nor ended since), nothing for publishes that fail, nothing for anything else but the connection's own subscriptions; and for a subscription the values retained for the topics that match it and not yet expired, each once. Once nothing is on its way any more and the connection stands, the whole list has arrived, and work on that connection alone gets there. The client decodes each packet to the topic and the value that was encoded.", "quantifier": "all numbers of clients and connections, all topics, patterns and payloads, all splittings of the byte streams, all interleavings of request tasks, push bridges, socket tasks and background tasks, all configurations", "why_tests_cant": "clients, connections, request tasks, bridges and background tasks interleave without bound; a test sees a few of the schedules", "anchors": ["src/brokers/pub-sub/tcp.rs: handle", "src/brokers/pub-sub/manager.rs: connect, disconnect, subscribe, unsubscribe, publish", "src/brokers/pub-sub/types.rs: PubSubMessage", "src/transport/tcp/connection.rs: run, run_socket", "sdk/ts/src/brokers/pubsub.ts", "sdk/ts/src/connection.ts: processBuffer, handleFrame"]}
{"id": "C106", "title": "A message published after the subscription resolved arrives", "statement": "A client's subscribe resolves; after that any client calls publish on a matching topic and that resolves too: the message arrives at the subscriber exactly once for that publish, once everything on its connection is delivered, if the connection stands and the pattern was not unsubscribed. If a second publish, by anybody, is called after the first one resolved, the two messages arrive in this order.", "quantifier": "all histories of all clients, all schedules of tasks and network", "why_tests_cant": "the call, its execution, its answer, the push and its delivery are spread over several tasks and two sockets", "anchors": ["src/brokers/pub-sub/tcp.rs: handle", "src/brokers/pub-sub/manager.rs: connect, disconnect, subscribe, unsubscribe, publish", "src/brokers/pub-sub/types.rs: PubSubMessage", "src/transport/tcp/connection.rs: run, run_socket", "sdk/ts/src/brokers/pubsub.ts", "sdk/ts/src/connection.ts: processBuffer, handleFrame"]}
{"id": "C107", "title": "Messages of one publisher arrive in the order of its calls", "statement": "Of two messages that a client publishes one after the other, a subscriber to both gets the first one first.", "quantifier": "all histories of all clients, all schedules of the request tasks", "why_tests_cant": "the order of the tasks of one connection is up to the scheduler", "anchors": ["src/brokers/pub-sub/tcp.rs: handle", "src/brokers/pub-sub/manager.rs: connect, disconnect, subscribe, unsubscribe, publish", "src/brokers/pub-sub/types.rs: PubSubMessage", "src/transport/tcp/connection.rs: run, run_socket", "sdk/ts/src/brokers/pubsub.ts", "sdk/ts/src/connection.ts: processBuffer, handleFrame"]}
{"id": "C108", "title": "The four brokers do not interfere", "statement": "One server runs the store, the queues, the streams and publish/subscribe. Whatever clients do with three of them, in whatever order, over whatever connections: the commands of the fourth are answered as if the other three did not exist; two runs in which a broker is asked the same in the same order give the same answers from that broker. Conversely every interleaving of what the brokers do on their own is something the server can do. So everything proved about one broker behind the network holds for the server with all four.", "quantifier": "all histories of all clients, all configurations, all schedules of tasks and network", "why_tests_cant": "the histories of the other brokers are unbounded; a test has one of them", "anchors": ["src/lib.rs: NexoEngine", "src/transport/tcp/dispatcher.rs: dispatch", "src/brokers/store/tcp.rs: handle", "src/brokers/queue/tcp.rs: handle", "src/brokers/pub-sub/tcp.rs: handle", "src/brokers/stream/tcp.rs: handle"]}
{"id": "C109", "title": "The queues are linearizable", "statement": "However many clients use the queues at the same time, every queue command (create, delete, exists, push, consume, ack, nack, and peeking at, replaying, deleting and purging dead letters) takes effect at one moment between its call and its answer, and its answer is the one that simple sequential queues give at that moment: a queue is a waiting line ordered by priority and arrival, a list of messages handed out with the time until which they are, and a list of dead letters; between the commands only the timeout of the messages handed out acts on it.", "quantifier": "all histories of all clients over any number of connections, all schedules of tasks, network and clocks", "why_tests_cant": "linearizability is a statement about all interleavings of unboundedly many operations; the tests run a handful of operations from one or two clients", "anchors": ["src/brokers/queue/tcp.rs: handle", "src/brokers/queue/manager.rs: QueueManager", "src/brokers/queue/domain/queue.rs: QueueState", "src/brokers/queue/domain/dlq.rs: DlqState", "sdk/ts/src/brokers/queue.ts: NexoQueue"]}
{"id": "C110", "title": "The streams are linearizable", "statement": "However many clients use the streams at the same time, every stream command (create, delete, exists, publish, join, leave, fetch, ack and seek) takes effect at one moment between its call and its answer, and its answer is one that simple sequential topics may give at that moment. A topic is the list of its messages, the number of the oldest one kept, and its groups; a group is its generation, its members and the fate of each message. Each refusal has the reason it names (unknown group, fenced generation, not a member, not pending, not the owner), a publish gets the next number, a fetch hands out only messages that are kept, owed to the group and delivered less often than allowed, at most as many as asked for, with the contents published under their numbers. A topic created with both retention limits zero keeps everything. Between the commands only closed connections, the redelivery and the retention act on the topics. Every stream command that is carried out is answered.", "quantifier": "all histories of all clients over any number of connections, all schedules of tasks, network and clocks, all choices of the retention", "why_tests_cant": "linearizability is a statement about all interleavings of unboundedly many operations and background steps; the tests run a few operations from one or two clients", "anchors": ["src/brokers/stream/tcp.rs: handle", "src/brokers/stream/manager.rs: StreamManager", "src/brokers/stream/domain/group.rs: ConsumerGroup", "src/brokers/stream/domain/topic.rs: TopicConfig", "sdk/ts/src/brokers/stream.ts: NexoStream"]}
{"id": "C111", "title": "The whole server is linearizable", "statement": "However many clients use the server at the same time, every command, of the store, the queues, the streams and publish/subscribe alike, takes effect at one moment between its call and its answer, and its answer is one that a simple sequential server may give at that moment: the store is a function from keys to values with an expiry time, the queues are those of C109, the topics those of C110, and publish/subscribe always says ok (unless a value is to be retained until a time that cannot be represented). One order of all commands serves all four brokers, and it agrees with time: a command answered before another one is called comes first. Between the commands only expiry, timeouts, closed connections, redelivery and retention act.", "quantifier": "all histories of all clients over any number of connections on all four brokers together, all schedules of tasks, network and clocks", "why_tests_cant": "linearizability is a statement about all interleavings of unboundedly many operations and background steps, here of four brokers sharing the connections; the tests exercise one broker at a time with one or two clients", "anchors": ["src/transport/tcp/connection.rs: handle_connection", "src/transport/tcp/dispatcher.rs: dispatch", "src/lib.rs: NexoEngine", "src/brokers/store/manager.rs: StoreManager", "src/brokers/queue/manager.rs: QueueManager", "src/brokers/stream/manager.rs: StreamManager", "src/brokers/pub-sub/manager.rs: PubSubManager"]}
{"id": "C112", "title": "Queues behind the network survive crashes", "statement": "Applications use queues through the client library and the network while the server crashes and starts again, at any moments and any number of times. A push that was answered ok is not lost: unless somebody was handed the message, settled it or deleted the queue, the next consume with room for it hands it out. A message whose ack was answered ok is not handed out any more. A message that was handed out is not handed out again before its visibility timeout has elapsed, unless it was refused. Everything that is handed out was pushed to that queue, with that id and that payload. A queue exists exactly if it was created and not deleted since.", "quantifier": "all histories of all clients over any number of connections, all schedules of tasks, network and writers, all crash points and all numbers of crashes", "why_tests_cant": "crash points times interleavings of clients, writer and timeout task cannot be enumerated; the tests restart the server once, after it was left idle", "anchors": ["src/brokers/queue/manager.rs: QueueManager::new, create_queue, push, ack, consume_batch", "src/brokers/queue/domain/persistence.rs: run_writer, flush_batch, recover, exec_op", "src/brokers/queue/domain/queue.rs: QueueState", "src/transport/tcp/connection.rs: handle_connection"]}
{"id": "C113", "title": "Settings mean what they say", "statement": "A setting whose environment variable holds a number of its size has exactly that value; one whose variable is not set has the documented default; no other variable has any influence; a value that makes no sense is refused at the start.", "quantifier": "all environments: all values (any bytes) of all variables, all settings", "why_tests_cant": "the space of texts is infinite (signs, leading zeros, spaces, units, values at and beyond the limit of the type), and that nothing else has an influence is a statement about all other variables; the configuration is loaded once per process, so the tests run with one", "anchors": ["src/config.rs: Config::load, ServerConfig::load, get_env", "src/brokers/queue/config.rs: SystemQueueConfig::load, get_env", "src/brokers/stream/config.rs: SystemStreamConfig::load", "src/brokers/pub-sub/config.rs: PubSubConfig::load", "src/brokers/store/config.rs: StoreConfig::load", "docs/guide/deployment.md", "docs/guide/queue.md"]}
{"id": "C114", "title": "Every accepted configuration gives a working server", "statement": "If the server starts, then all its background tasks run and connections are served, whatever the settings.", "quantifier": "all environments with which the server starts", "why_tests_cant": "the values for which a task dies are single points of a space of 2^64 values for each of eight settings", "anchors": ["src/brokers/store/domain/map.rs: cleanup task", "src/brokers/queue/domain/persistence.rs: run_writer", "src/brokers/pub-sub/manager.rs: flush and cleanup tasks", "src/brokers/stream/manager.rs: spawn_background_tasks", "src/brokers/stream/domain/persistence.rs: StorageManager::run", "src/transport/tcp/connection.rs: handle_connection"]}
{"id": "C115", "title": "The memory of a topic is bounded by the configuration", "statement": "The number of messages that a stream topic holds in memory stays within the configured limits (STREAM_RAM_SOFT_LIMIT after each round of the eviction task, STREAM_RAM_HARD_LIMIT always), however fast clients publish.", "quantifier": "all settings, all histories of a topic, all schedules of publishers, storage task and eviction task", "why_tests_cant": "the bound must hold for publishers that are faster than the storage task for any length of time", "anchors": ["src/brokers/stream/domain/topic.rs: evict, append, TopicConfig", "src/brokers/stream/manager.rs: publish, spawn_background_tasks", "src/brokers/stream/config.rs: ram_soft_limit, ram_hard_limit"]}
{"id": "C116", "title": "The dashboard shows when a key expires", "statement": "A page of the dashboard's list of keys is always answered, and shows each key found with its value and the moment at which it expires by the wall clock.", "quantifier": "all contents of the store (any TTL a client may set), all pages, all readings of the two clocks", "why_tests_cant": "the values that matter lie near the end of the calendar and of the clock's range, and the two clocks are read at different moments, in every order with the expiries", "anchors": ["src/brokers/store/http.rs: get_store", "src/brokers/store/domain/map.rs: scan, set"]}
{"id": "C117", "title": "Streams survive crashes behind the network", "statement": "Clients that publish, fetch, acknowledge and ask for topics over the network see the same stream before and after the server crashes: what a fetch hands out was published (with that number and timestamp, last under that number), what is in the files is still readable, topics neither appear nor disappear, a group is not led past a message it never got, and what the files count as acknowledged is not handed out again.", "quantifier": "all runs of clients, connections and server with any number of crashes at any moments, all interleavings of the background tasks, all topics, groups and payloads", "why_tests_cant": "the crash may come between any two steps of the storage task, the flushes and the saving of progress, on top of every interleaving of the clients; a test stops the server at a few chosen places", "anchors": ["src/brokers/stream/manager.rs: bootstrap_from_disk, build_topic_shared, publish, fetch, ack, exists", "src/brokers/stream/domain/persistence.rs: recover, handle_append, flush_all, save_groups, load_groups", "src/brokers/stream/domain/group.rs: restore", "src/brokers/stream/tcp.rs: handle"]}
{"id": "C118", "title": "Refusals name their reason", "statement": "A fetch, an acknowledgement or a departure of a consumer that may not act (its group does not exist, the group has been sought since the consumer joined, or the consumer is not a member) is refused with exactly that reason (\"Group not found\", FENCED, NOT_MEMBER) and changes nothing; a member that names the current generation is never refused. (A waiting fetch by a consumer that has left gets an empty answer.)", "quantifier": "all histories of a topic's groups: joins, departures, lost connections, seeks, restarts, fetches in progress at any of these moments; all consumers and generations", "why_tests_cant": "the client library joins again only when it is told FENCED or NOT_MEMBER; whether it is told depends on what happened between its requests and during a disk read, in every interleaving", "anchors": ["src/brokers/stream/manager.rs: fetch, try_fetch_once, cold_fetch, ack, leave_group, is_active_member", "src/brokers/stream/domain/group.rs: ensure_active_consumer, is_backpressured, fetch, ack, register_cold_messages", "sdk/ts/src/brokers/stream.ts"]}
{"id": "C119", "title": "Files of messages keep to the configured size", "statement": "A file of a topic never grows beyond MAX_SEGMENT_SIZE bytes, unless it holds a single message; a new file is begun exactly when the newest one holds something and has no room for the next message, and it is named after that message.", "quantifier": "all histories of a topic: publishes, retention, flushes, evicted file handles, restarts; all payload sizes and all configured sizes", "why_tests_cant": "the size is counted in memory while the bytes reach the file later, through buffers, flushes and reopened files; whether the count agrees with the file depends on the whole history", "anchors": ["src/brokers/stream/domain/persistence.rs: handle_append, get_or_open_writer, flush_all, apply_retention", "src/config.rs: MAX_SEGMENT_SIZE"]}
{"id": "C120", "title": "Retained values behind the network survive crashes", "statement": "A value that was retained by an answered publish and written to the database by a flush is sent to every new matching subscriber, once, in every later life of the server, however often it crashes, until somebody retains something else for the topic or its time is over; a value that was cleared does not come back; nothing else is sent for the topic.", "quantifier": "all sequences of lives of the server, each with any clients, connections, requests, schedules and moment of the crash; all topics, patterns, payloads and times to live; any database at first", "why_tests_cant": "the value passes through the client's encoding, the broker's tree, a flush, the database, any number of restarts with different clocks, and the push channel of a connection that did not exist when it was published", "anchors": ["src/brokers/pub-sub/manager.rs: new, publish, subscribe", "src/brokers/pub-sub/domain/persistence.rs: flush, load_all", "src/brokers/pub-sub/domain/retained.rs", "src/transport/tcp/connection.rs: handle_connection"]}
{"id": "C121", "title": "The whole server across crashes", "statement": "The process may end at any moment and start again, and with it all four brokers at once. Whatever crashes, each broker's commands are answered as if the other three did not exist, and the guarantees about queues (C112) and streams (C117) across crashes hold together for this one server. The store keeps nothing: a get answers with the last write of the key since the last crash, if it is still alive, and null otherwise, so no crash brings an old value back.", "quantifier": "all histories of all clients of all four brokers, all moments of crashes, any number of them, all configurations and schedules", "why_tests_cant": "the moments of the crashes and the histories before them are unbounded, and a test has one of them", "anchors": ["src/lib.rs: NexoEngine::new", "src/brokers/store/manager.rs: new", "src/brokers/queue/manager.rs: new", "src/brokers/stream/manager.rs: bootstrap_from_disk", "src/brokers/pub-sub/manager.rs: new"]}
{"id": "C122", "title": "Order of arrival across crashes", "statement": "A message whose push was answered and written keeps its place across crashes: as long as nobody was handed it, nobody acknowledged or refused it, and the queue was not deleted, no consume hands out, without it or before it in the answer, a message that was pushed to the queue later with the same or a lower priority, however often the server crashed in between. A message that was refused and lined up again behind others keeps that place across a crash, too.", "quantifier": "all histories of all clients, all moments of crashes and of commits, any number of them, all priorities", "why_tests_cant": "the order in which rows are read back depends on the whole history of inserts, deletes and commits before the crash", "anchors": ["src/brokers/queue/domain/persistence.rs: load_all_messages", "src/brokers/queue/domain/persistence.rs: exec_op", "src/brokers/queue/manager.rs: build_queue", "src/brokers/queue/domain/queue.rs: push"]}
{"id": "C123", "title": "At least once across crashes", "statement": "A message whose push was answered and written before the next crash, that nobody has acknowledged, and that was handed out fewer times than the queue's limit of retries, comes again whatever crashes: once the timeout task has run, or the server was started, after the end of the last visibility timeout of the message, a consume with room for it hands it out, with the payload that was pushed. It does not matter how often it was handed out, refused or timed out before, how much of that was written when the server crashed, and how often it crashed.", "quantifier": "all histories of all clients, all moments of crashes and of commits, any number of them, all visibility timeouts and retry limits", "why_tests_cant": "a delivery changes the message in memory at once and its row only later; the message must come again for every way in which crashes separate the two", "anchors": ["src/brokers/queue/manager.rs: spawn_timeout_task", "src/brokers/queue/domain/queue.rs: process_expired", "src/brokers/queue/domain/queue.rs: nack", "src/brokers/queue/domain/persistence.rs: load_all_messages", "src/brokers/queue/domain/persistence.rs: exec_op"]}
{"id": "C124", "title": "Retention does what the create asked for", "statement": "A topic is created with retention options: an age limit, a size limit, each left out (the server's own limit holds), zero (no limit) or a number. Whenever the storage task applies retention, then or after any number of crashes, it removes whole segment files from the old end only; each removed file was older than the age limit, or it and the later files took more room than the size limit; the newest file stays; no other file that is left is too old; and unless only the newest is left, the files fit the size limit.", "quantifier": "all options, all histories of all clients since the topic was created, all moments of crashes, any number of them", "why_tests_cant": "the limits are turned from the options at the creation, read back from a file at each start, and used by another task much later; tests cover single values", "anchors": ["src/brokers/stream/domain/topic.rs: from_options", "src/brokers/stream/manager.rs: create_topic", "src/brokers/stream/manager.rs: load_topic_config", "src/brokers/stream/domain/persistence.rs: apply_retention"]}
{"id": "C125", "title": "A retained value that was cleaned up does not come back", "statement": "A retained value has expired when the cleanup task runs, nobody publishes a new value on the topic, and the flush task runs after it. Whenever the server then stops and starts again, no subscriber is sent a value for that topic.", "quantifier": "all histories of publishes, subscriptions, cleanups and flushes, all topics not beginning with /, all values and times to live, all times of the restart", "why_tests_cant": "the cleanup task must tell the flush task that it has removed something, however deep in the tree and whatever else is there; a row that stays behind is served for ever after a restart (C21)", "anchors": ["src/brokers/pub-sub/manager.rs: PubSubManager::new", "src/brokers/pub-sub/domain/radix_tree.rs: cleanup_expired_retained", "src/brokers/pub-sub/domain/persistence.rs: flush", "src/brokers/pub-sub/domain/persistence.rs: load_all"]}
{"id": "C126", "title": "exists tells whether there is such a queue or topic", "statement": "exists() on a queue or a topic resolves to true only if there was, at some moment between the call and the result, such a queue or topic: created and not deleted since. It resolves to false only if there was none at some such moment. After a create that was answered, and without a delete, every later exists() resolves to true. Crashes of the server change nothing of this.", "quantifier": "all numbers of clients, all interleavings of their calls, all ways TCP cuts their bytes, all orders in which requests complete, all crash points of the server, all losses of connections, all names", "why_tests_cant": "requests of other clients, crashes and broken connections can fall anywhere between the call and the answer, and the library turns every failure into false", "anchors": ["sdk/ts/src/brokers/queue.ts: QueueCommands.exists", "sdk/ts/src/brokers/stream.ts: NexoStream.exists", "sdk/ts/src/connection.ts: send", "src/brokers/queue/tcp.rs: handle", "src/brokers/queue/manager.rs: exists", "src/brokers/stream/tcp.rs: handle", "src/brokers/stream/manager.rs: exists"]}
{"id": "C127", "title": "A queue of a client has at most one consumer", "statement": "At any time each queue of a client has at most one running consumer. subscribe() is refused as \"already subscribed\" if and only if a consumer of that queue runs: as long as stop() has not taken effect every further subscribe() is refused, and afterwards it is accepted again. Consumers of other queues change nothing.", "quantifier": "all sequences of calls of subscribe and stop on all queues of a client, all answers to the existence check, all courses of the consumer loops, all interleavings of these", "why_tests_cant": "the check, the request to the server and the setting of the guard are separated by waits, and the loop that clears the guard ends at a time of its own", "anchors": ["sdk/ts/src/client.ts: queue", "sdk/ts/src/brokers/queue.ts: NexoQueue.subscribe"]}
{"id": "C128", "title": "The dashboard asks for what was selected", "statement": "When a queue or a stream topic is selected in the dashboard, the server is asked for the messages of exactly the queue or topic of this name, with the selected state, page and starting number; when a text is entered in a search field, the server searches for exactly this text.", "quantifier": "all names of queues and topics, all search texts, all pages", "why_tests_cant": "names and texts go through a template or URLSearchParams, the browser's parsing of addresses and the server's routing and decoding; each has its own special characters, and only a few of them occur in tests", "anchors": ["dashboard/src/pages/dashboard/components/queue/queue.tsx", "dashboard/src/pages/dashboard/components/stream/stream.tsx", "dashboard/src/pages/dashboard/components/store/store.tsx", "dashboard/src/pages/dashboard/components/pubsub/pubsub.tsx", "src/transport/http/router.rs: start_http_server", "src/brokers/queue/http.rs: get_queue_messages", "src/brokers/stream/http.rs: get_stream_messages", "src/brokers/store/http.rs: get_store", "src/brokers/pub-sub/http.rs: get_pubsub"]}
{"id": "C129", "title": "After a restart there are exactly the topics that were created and not deleted", "statement": "Whatever topics are created, deleted and written to, and however often the server stops at any moment and starts again: publish, fetch and join find a topic exactly if it was created and not deleted since, and exists says the same.", "quantifier": "all histories of creating, deleting, writing and restarting; all names", "why_tests_cant": "the server learns its topics from the directories it finds at its start; whether these are the topics created depends on every name in the whole history, in particular on names that are paths", "anchors": ["src/brokers/stream/manager.rs: create_topic, delete_topic, exists, bootstrap_from_disk", "src/brokers/stream/domain/persistence.rs: DropTopic"]}
{"id": "C130", "title": "Going through the pages of the dashboard shows everything", "statement": "While nothing changes on the server, pressing Next from the first page until it is disabled shows every waiting message, message in flight or dead letter of a queue, every topic of publish/subscribe and every key of the store, once and in order; every message of a stream is reached with Older from the newest page, and with Newer from the oldest. Wherever one is, a button can be pressed exactly if there is something in its direction.", "quantifier": "all queues, topics, stores and streams of any length; all sequences of presses", "why_tests_cant": "the buttons are enabled by comparing offset, page size and the server's total; off-by-one errors show only for certain lengths, and the totals come from four handlers with their own rules", "anchors": ["dashboard/src/pages/dashboard/components/queue/queue.tsx", "dashboard/src/pages/dashboard/components/pubsub/pubsub.tsx", "dashboard/src/pages/dashboard/components/store/store.tsx", "dashboard/src/pages/dashboard/components/stream/stream.tsx", "src/brokers/queue/http.rs: get_queue_messages", "src/brokers/stream/http.rs: get_stream_messages", "src/brokers/store/http.rs: get_store", "src/brokers/pub-sub/http.rs: get_pubsub"]}
{"id": "C131", "title": "The dashboard tells size and kind of a value", "statement": "The size shown for a value is the number of bytes that the client wrote, and it is shown as binary data exactly if the client wrote a buffer.", "quantifier": "all values a client can write", "why_tests_cant": "the server turns payloads into JSON values and the page guesses size and kind from those; which values are guessed wrong is a question about all payloads", "anchors": ["dashboard/src/lib/dashboard-value.ts: getDashboardValueSize, getDashboardValueKind", "dashboard/src/pages/dashboard/components/store/store.tsx", "dashboard/src/pages/dashboard/components/pubsub/pubsub.tsx", "src/transport/http/payload.rs: payload_to_json_value"]}
{"id": "C132", "title": "A consumer processes the messages of a queue in order", "statement": "The callback of a subscribed client is called with the messages of a queue in the order of their priority and, for equal priority, of their pushes; with concurrency 1 a callback returns before the next one is called.", "quantifier": "all numbers of clients and options, all pushes, all interleavings of requests, answers, lost messages, callbacks and timeouts", "why_tests_cant": "the order depends on how batches, lost answers, timeouts and the client's workers interleave, over histories of any length", "anchors": ["docs/guide/queue.md: FIFO Ordering", "sdk/ts/src/brokers/queue.ts: subscribe", "sdk/ts/src/utils/concurrent.ts: runConcurrent", "src/brokers/queue/domain/queue.rs: pop_single, take_batch, transition_to", "src/brokers/queue/tcp.rs"]}
{"id": "C133", "title": "Going through the pages of a queue in use misses no message", "statement": "Whoever opens the waiting messages of a queue in the dashboard (or its messages in flight, or its dead letters) and presses Next until it is disabled has seen every message that was there all the time, whatever happens to the queue meanwhile.", "quantifier": "all histories of the queue before, all requests between two pages, any number of pages", "why_tests_cant": "a page is cut out of the list by its position at the time of the request; whether positions move the wrong way depends on what is executed between any two pages", "anchors": ["src/brokers/queue/http.rs: get_queue_messages", "src/brokers/queue/manager.rs: get_messages", "dashboard/src/pages/dashboard/components/queue/queue.tsx"]}
{"id": "C134", "title": "Only concrete topics can be published to", "statement": "Publishing to a name with wildcards has no effect: it is refused, and no subscriber receives anything, neither those of topics that match the name nor those of the name itself.", "quantifier": "all histories of connections and subscriptions, all names, payloads and subscribers", "why_tests_cant": "who receives a publish depends on all subscriptions in the tree and on how wildcard levels of the published name are looked up in it", "anchors": ["docs/guide/pubsub.md", "src/brokers/pub-sub/manager.rs: publish", "src/brokers/pub-sub/radix_tree.rs: match_subscribers"]}
