{
 "claims": [
  {
   "property": "C01",
   "status": "proved",
   "theorems": [
    "Verif.Wire.C01_round_trip",
    "Verif.Wire.C01_request"
   ],
   "note": "server frames against both decoders, client requests against the server's"
  },
  {
   "property": "C02",
   "status": "proved",
   "theorems": [
    "Verif.Wire.C02_chunking",
    "Verif.Wire.C02_client",
    "Verif.Wire.C02_everything_arrives"
   ],
   "note": "server reader and client reader"
  },
  {
   "property": "C03",
   "status": "proved",
   "theorems": [
    "Verif.Wire.C03_refused",
    "Verif.Wire.C03_bounded"
   ],
   "note": ""
  },
  {
   "property": "C04",
   "status": "proved",
   "theorems": [
    "Verif.Wire.C04_total",
    "Verif.Wire.C04_wellformed"
   ],
   "note": "readers modelled with explicit panics; serde is a parameter"
  },
  {
   "property": "C05",
   "status": "proved",
   "theorems": [
    "Verif.Wire.C05_understood",
    "Verif.Wire.C05_ids",
    "Verif.Wire.C05_ids_only",
    "Verif.Wire.C05_ids_text",
    "Verif.Wire.C05_names_text"
   ],
   "note": "hypothesis: serde reads back the JSON options that JSON.stringify wrote"
  },
  {
   "property": "C06",
   "status": "partial",
   "theorems": [
    "Verif.Wire.C06_values",
    "Verif.Wire.C06_consume_partial",
    "Verif.Wire.C06_peek_partial",
    "Verif.Wire.C06_fetch_partial",
    "Verif.Wire.C06_push_partial",
    "Verif.Wire.C06_scalars",
    "Verif.Wire.C06_error",
    "Verif.Wire.C06_violated_empty_payload"
   ],
   "note": "the code violates it for empty payloads (client decoder throws); proved for non-empty payloads and for all scalar answers"
  },
  {
   "property": "C07",
   "status": "proved",
   "theorems": [
    "Verif.Wire.C07_route",
    "Verif.Wire.C07_dispatch",
    "Verif.Wire.C07_only_requests"
   ],
   "note": ""
  },
  {
   "property": "C08",
   "status": "partial",
   "theorems": [
    "Verif.Wire.C08_sound",
    "Verif.Wire.C08_complete_partial",
    "Verif.Wire.C08_violated"
   ],
   "note": "soundness in full; completeness needs that no handler panics, and the code violates it when one does"
  },
  {
   "property": "C09",
   "status": "partial",
   "theorems": [
    "Verif.Store.C09_latest_write_partial",
    "Verif.Store.C09_boundary_violated"
   ],
   "note": "Proved for every clock reading except the exact nanosecond at which the value expires; there GET and the cleanup disagree (C09_boundary_violated). A SET whose TTL cannot be added to the clock panics and gets no answer (such a SET is not a write in lastWrite)."
  },
  {
   "property": "C10",
   "status": "proved",
   "theorems": [
    "Verif.Store.C10_expired_never_returned"
   ],
   "note": ""
  },
  {
   "property": "C100",
   "status": "partial",
   "theorems": [
    "Verif.Wire.C100_channels_partial",
    "Verif.Wire.C100_tasks_violated",
    "Verif.Wire.C100_pushes_violated"
   ],
   "note": "The two bounded channels only; tasks and pushes are unbounded."
  },
  {
   "property": "C101",
   "status": "proved",
   "theorems": [
    "Verif.Rpc.C101_carried_out",
    "Verif.Rpc.C101_faithful",
    "Verif.Rpc.C101_values",
    "Verif.Rpc.C101_exclusive",
    "Verif.Rpc.C101_ack_final",
    "Verif.Rpc.C101_no_loss"
   ],
   "note": "One run of the server (restarts: C33, C35, C84). A request's work on the queue is one step (C31, C34 have it in parts); ids are assumed different."
  },
  {
   "property": "C102",
   "status": "partial",
   "theorems": [
    "Verif.Rpc.C102_order_partial",
    "Verif.Rpc.C102_answered_first_partial",
    "Verif.Rpc.C102_violated"
   ],
   "note": "Holds in the order in which the pushes are carried out, hence when the second push is made after the first was answered; false for pipelined pushes of one client."
  },
  {
   "property": "C103",
   "status": "proved",
   "theorems": [
    "Verif.Rpc.C101_carried_out",
    "Verif.Rpc.C103_faithful",
    "Verif.Rpc.C103_values",
    "Verif.Rpc.C103_numbers",
    "Verif.Rpc.C103_exclusive",
    "Verif.Rpc.C103_ack_final",
    "Verif.Rpc.C103_ack_holder",
    "Verif.Rpc.C103_order",
    "Verif.Rpc.C103_no_gap",
    "Verif.Rpc.C103_limit"
   ],
   "note": "One run of the server (restarts: C55-C60). The sections of one fetch are separate steps; a request that found its topic before a delete counts as carried out before it. Consumer ids are assumed different."
  },
  {
   "property": "C104",
   "status": "partial",
   "theorems": [
    "Verif.Rpc.C104_answered_first_partial",
    "Verif.Rpc.C104_violated"
   ],
   "note": "Holds when the second publish is made after the first was answered; false for pipelined publishes of one client."
  },
  {
   "property": "C105",
   "status": "partial",
   "theorems": [
    "Verif.Rpc.C105_order",
    "Verif.Rpc.C105_complete",
    "Verif.Rpc.C105_progress",
    "Verif.Rpc.C105_greeting_partial",
    "Verif.Rpc.C105_values"
   ],
   "note": "Everything but greetings is proved for all runs in which `#` comes only last in patterns; greetings for topics that do not begin with `/` (C18_violated) and a server that started without retained values (C120_greeting_partial has the others). Operations of the broker are carried out in one step each (C73-C75 have them overlap)."
  },
  {
   "property": "C106",
   "status": "proved",
   "theorems": [
    "Verif.Rpc.C106_reaches",
    "Verif.Rpc.C106_order"
   ],
   "note": "Patterns with `#` only at the end (the documented form). The message must be delivered: C105_progress."
  },
  {
   "property": "C107",
   "status": "partial",
   "theorems": [
    "Verif.Rpc.C107_answered_first_partial",
    "Verif.Rpc.C107_violated"
   ],
   "note": "Holds when the second publish is made after the first was answered; false for pipelined publishes of one client."
  },
  {
   "property": "C108",
   "status": "proved",
   "theorems": [
    "Verif.Rpc.C108_parts",
    "Verif.Rpc.C108_interleaving",
    "Verif.Rpc.C108_alone",
    "Verif.Rpc.C108_unaffected"
   ],
   "note": "Data only: time, memory and the disk are shared by the brokers (each broker has its own files, C64)."
  },
  {
   "property": "C109",
   "status": "proved",
   "theorems": [
    "Verif.Rpc.C109_answers",
    "Verif.Rpc.C109_linearizable"
   ],
   "note": "From an empty server, without restarts in the run (for restarts see C28-C31); ids different from each other; ordinary runs (at most 2^32 requests per connection, answers below 2^32 bytes). Numbers are told modulo 2^32 as on the wire. A consume with a batch that no memory can hold fails (C24)."
  },
  {
   "property": "C11",
   "status": "proved",
   "theorems": [
    "Verif.Store.C11_scan_sound",
    "Verif.Store.C11_scan_complete",
    "Verif.Store.C11_pages"
   ],
   "note": "The scan is modelled as an atomic snapshot of the map, visited in any order."
  },
  {
   "property": "C110",
   "status": "proved",
   "theorems": [
    "Verif.Rpc.C110_sequential",
    "Verif.Rpc.C110_linearizable",
    "Verif.Rpc.C110_answered"
   ],
   "note": "From an empty server, without restarts in the run; consumer ids different from each other; records fit their length fields; ordinary runs. A fetch may always hand out nothing from a known group (the specification does not say when messages must be handed out), and retention may remove any prefix of the messages of a topic with a limit (what it removes is C41)."
  },
  {
   "property": "C111",
   "status": "proved",
   "theorems": [
    "Verif.Rpc.C111_store",
    "Verif.Rpc.C111_sequential",
    "Verif.Rpc.C111_linearizable",
    "Verif.Rpc.C111_order"
   ],
   "note": "From an empty server, without restarts in the run; message ids and consumer ids different from each other; records fit their length fields; ordinary runs. What subscribers receive is the subject of C105-C107, not of this claim."
  },
  {
   "property": "C112",
   "status": "partial",
   "theorems": [
    "Verif.Rpc.C112_faithful_partial",
    "Verif.Rpc.C112_no_loss_partial",
    "Verif.Rpc.C112_ack_final_partial",
    "Verif.Rpc.C112_exclusive_partial",
    "Verif.Rpc.C112_exists_partial",
    "Verif.Rpc.C112_violated"
   ],
   "note": "Missing: the full claim is false (C112_violated); proved for messages about which nothing still has to be written when the server crashes. No queue's name ends in \".db\" or contains \"/\" (C36_violated, C36_nested_violated otherwise), storage operations reach the writer in the order of the calls (C34_violated otherwise); from an empty server; different message ids; ordinary runs."
  },
  {
   "property": "C113",
   "status": "partial",
   "theorems": [
    "Verif.Config.C113_set_partial",
    "Verif.Config.C113_default",
    "Verif.Config.C113_text",
    "Verif.Config.C113_dashboard",
    "Verif.Config.C113_refused",
    "Verif.Config.C113_only",
    "Verif.Config.C113_ignored_violated",
    "Verif.Config.C113_documented_violated",
    "Verif.Config.C113_hard_limit_violated"
   ],
   "note": "Missing: bad values of the brokers' settings are not refused (C113_ignored_violated); one documented variable has no effect, and one setting is not used."
  },
  {
   "property": "C114",
   "status": "partial",
   "theorems": [
    "Verif.Config.C114_runs_partial",
    "Verif.Config.C114_serves",
    "Verif.Config.C114_zero_violated",
    "Verif.Config.C114_queue_violated"
   ],
   "note": "Missing: the claim is false for intervals of zero (C114_zero_violated). Proved when no interval is zero and the flush interval of streams is at most 2^60 ms (the groups' interval is ten times that, in 64 bits)."
  },
  {
   "property": "C115",
   "status": "partial",
   "theorems": [
    "Verif.Config.C115_setting",
    "Verif.Config.C115_soft_partial",
    "Verif.Config.C115_violated"
   ],
   "note": "Missing: the hard limit is not enforced (C115_violated); the soft limit holds after each round of eviction for messages that have been written."
  },
  {
   "property": "C116",
   "status": "partial",
   "theorems": [
    "Verif.Store.C116_shown",
    "Verif.Store.C116_answered_partial",
    "Verif.Store.C116_violated"
   ],
   "note": "Missing: the claim is false for keys with very long TTLs (C116_violated). That chrono 0.4.42 panics beyond the year 262142 is an assumption about the library. The text of the moment (RFC 3339) is not modelled."
  },
  {
   "property": "C117",
   "status": "partial",
   "theorems": [
    "Verif.Rpc.C117_faithful_partial",
    "Verif.Rpc.C117_durable_partial",
    "Verif.Rpc.C117_exists_partial",
    "Verif.Rpc.C117_no_gap_partial",
    "Verif.Rpc.C117_ack_final_partial",
    "Verif.Rpc.C117_violated",
    "Verif.Rpc.C117_nested_violated"
   ],
   "note": "Missing: the claim is false for messages and progress that are not yet in the files (C117_violated). The runs are `Calm`: publishers reach the storage task in order (else C60), the clock does not go back, names of groups are valid text, and no crash leaves the newest file empty or with half a record (else C57, C58). The names of topics are file names: topics with \"/\" in their names are gone after a crash (C117_nested_violated, C129)."
  },
  {
   "property": "C118",
   "status": "partial",
   "theorems": [
    "Verif.Stream.C118_reason",
    "Verif.Stream.C118_leave",
    "Verif.Stream.C118_ack",
    "Verif.Stream.C118_told_partial",
    "Verif.Stream.C118_full",
    "Verif.Stream.C118_violated"
   ],
   "note": "Missing: a fetch is not told the reason while the group's unsettled messages reach the limit (C118_violated, C118_full)."
  },
  {
   "property": "C119",
   "status": "partial",
   "theorems": [
    "Verif.Stream.C119_bounded_partial",
    "Verif.Stream.C119_rolls_partial",
    "Verif.Stream.C119_restart",
    "Verif.Stream.C119_violated"
   ],
   "note": "Missing: concurrent publishers that reach the storage task in the wrong order (C119_violated); starting files are in order (StartsWith)."
  },
  {
   "property": "C12",
   "status": "proved",
   "theorems": [
    "Verif.Store.C12_independent"
   ],
   "note": ""
  },
  {
   "property": "C120",
   "status": "partial",
   "theorems": [
    "Verif.Rpc.C120_greeting_partial",
    "Verif.Rpc.C120_survives_partial",
    "Verif.Rpc.C120_cleared_partial",
    "Verif.Rpc.C120_violated"
   ],
   "note": "Missing: values whose time is over while the server is down (C120_violated), topics that begin with `/` (C21_violated_leading_slash), failed flushes (C21_violated_failed_flush). Each life begins with new connections; an operation of the broker is one step."
  },
  {
   "property": "C121",
   "status": "partial",
   "theorems": [
    "Verif.Rpc.C121_hosts",
    "Verif.Rpc.C121_get_partial",
    "Verif.Rpc.C121_interleaving",
    "Verif.Rpc.C121_alone"
   ],
   "note": "Missing: a get at the very instant at which the value expires (C09). C112 and C117 keep their own hypotheses. Requests that were under way at a crash may be carried out after it (more runs than the code has). Publish/subscribe across crashes is C120."
  },
  {
   "property": "C122",
   "status": "partial",
   "theorems": [
    "Verif.Rpc.C122_order_partial",
    "Verif.Rpc.C122_requeued_violated"
   ],
   "note": "The sentence about messages that line up again is false (C122_requeued_violated). Missing otherwise: queues whose name ends in .db or contains \"/\", storage operations that reach the writer in another order than the calls (as in C112), and a first message that was not written before the first crash. Rests on SQLite reading a table without ORDER BY in rowid order."
  },
  {
   "property": "C123",
   "status": "partial",
   "theorems": [
    "Verif.Rpc.C123_again_partial"
   ],
   "note": "Missing: queues whose name ends in .db or contains \"/\", and storage operations that reach the writer in another order than the calls (as in C112)."
  },
  {
   "property": "C124",
   "status": "partial",
   "theorems": [
    "Verif.Rpc.C124_as_asked_partial",
    "Verif.Rpc.C124_crashes_partial"
   ],
   "note": "Missing: publishers that reach the storage task in another order than their numbers, a clock that goes backwards, and crashes in the middle of a record (as in C117). That config.json holds what was written is part of the model (Streams.crash). Topics are named by file names."
  },
  {
   "property": "C125",
   "status": "partial",
   "theorems": [
    "Verif.PubSub.C125_stays_away_partial"
   ],
   "note": "Missing: topics beginning with / and failed flushes, as in C21."
  },
  {
   "property": "C126",
   "status": "partial",
   "theorems": [
    "Verif.Rpc.C126_queue_partial",
    "Verif.Rpc.C126_queue_created_partial",
    "Verif.Rpc.C126_topic_partial",
    "Verif.Rpc.C126_topic_created_partial",
    "Verif.Rpc.C126_violated"
   ],
   "note": "true is always right for queues, and for topics if all names are file names (else C129). false is right if the request was answered; a broken connection, a timeout or no connection also give false (C126_violated). Queues whose names end in .db or contain \"/\" change or vanish at a restart (C36). Creates and deletes are one step each (C79, C81 have them in parts)."
  },
  {
   "property": "C127",
   "status": "partial",
   "theorems": [
    "Verif.Sdk.Handles.C127_one_partial",
    "Verif.Sdk.Handles.C127_refused_partial",
    "Verif.Sdk.Handles.C127_accepted_partial",
    "Verif.Sdk.Handles.C127_separate",
    "Verif.Sdk.Handles.C127_violated"
   ],
   "note": "Proved if no subscribe goes on while another of the same queue waits for its existence check; otherwise violated (C127_violated). The step from began to the first request of the loop is an event of the loop."
  },
  {
   "property": "C128",
   "status": "partial",
   "theorems": [
    "Verif.Dashboard.C128_queue_partial",
    "Verif.Dashboard.C128_queue_only",
    "Verif.Dashboard.C128_stream_partial",
    "Verif.Dashboard.C128_stream_only",
    "Verif.Dashboard.C128_store",
    "Verif.Dashboard.C128_pubsub",
    "Verif.Dashboard.C128_violated"
   ],
   "note": "Searches are proved in full. Names: proved for those that can stand in an address as they are (Linkable), and that it fails for every other name (C128_queue_only, C128_stream_only). Trusted: the URL Standard as modelled, axum's routing and decoding; numbers below 2^64 (JavaScript writes them in decimal up to 2^53)."
  },
  {
   "property": "C129",
   "status": "partial",
   "theorems": [
    "Verif.Dirs.C129_tidy_partial",
    "Verif.Dirs.C129_kept_partial",
    "Verif.Dirs.C129_made_partial",
    "Verif.Dirs.C129_nested_violated",
    "Verif.Dirs.C129_phantom_violated",
    "Verif.Dirs.C129_empty_violated"
   ],
   "note": "Proved in full if all names are file names (C129_tidy_partial); topics whose name is a file name are kept beside others whose names are paths (C129_kept_partial). False otherwise. Each request is one step; creating and removing directories succeeds; a process that ends between the steps of one request is C79-C81."
  },
  {
   "property": "C13",
   "status": "proved",
   "theorems": [
    "Verif.PubSub.C13_publish"
   ],
   "note": "All histories, patterns whose # is last, topics, payloads; retained publishes with a representable time to live."
  },
  {
   "property": "C130",
   "status": "partial",
   "theorems": [
    "Verif.Dashboard.C130_queue",
    "Verif.Dashboard.C130_pubsub",
    "Verif.Dashboard.C130_store_partial",
    "Verif.Dashboard.C130_store_violated",
    "Verif.Dashboard.C130_older_partial",
    "Verif.Dashboard.C130_newer_only",
    "Verif.Dashboard.C130_newer_violated"
   ],
   "note": "Queues and publish/subscribe in full. Store: without a search and without expired keys in the map. Streams: Older reaches every message if pages are answered from memory (C91_violated otherwise); Newer is off by one. Iteration order of the store's map is the same for all pages."
  },
  {
   "property": "C131",
   "status": "partial",
   "theorems": [
    "Verif.Dashboard.C131_text_partial",
    "Verif.Dashboard.C131_size_violated",
    "Verif.Dashboard.C131_kind_only",
    "Verif.Dashboard.C131_kind_violated"
   ],
   "note": "Sizes: proved for texts, false for buffers; of JSON values the size is that of the text the browser makes of them (not compared with what the client wrote). Kind: exact characterization. As in C90, from_utf8_lossy is the identity on UTF-8, serde_json is a parameter."
  },
  {
   "property": "C132",
   "status": "partial",
   "theorems": [
    "Verif.QueueE2E.C132_in_order_partial",
    "Verif.QueueE2E.C132_handed_out_partial",
    "Verif.QueueE2E.C132_one_at_a_time",
    "Verif.QueueE2E.C132_returns_first",
    "Verif.QueueE2E.C132_violated"
   ],
   "note": "Proved while the server runs (order across restarts: C122), for max_retries of at least 1, and up to messages that are handed out at least twice; for those it is false. One callback at a time with concurrency 1: proved in full."
  },
  {
   "property": "C133",
   "status": "partial",
   "theorems": [
    "Verif.Dashboard.C133_growing_partial",
    "Verif.Dashboard.C133_pushes",
    "Verif.Dashboard.C133_missed_partial",
    "Verif.Dashboard.C133_violated"
   ],
   "note": "Proved for the three views of a queue while no message disappears from the view between the pages, for any reachable queue, any such requests and any number of pages; false if a message is consumed. For any requests at most as many are missed as the requests take out of the view (C133_missed_partial). A page fetched again while it is shown is not modelled."
  },
  {
   "property": "C134",
   "status": "partial",
   "theorems": [
    "Verif.PubSub.C134_no_fan_out_partial",
    "Verif.PubSub.C134_concrete",
    "Verif.PubSub.C134_violated"
   ],
   "note": "Proved: nothing published to a wildcard name reaches a client that has only subscribed to concrete topics, which gets exactly what is published to these. False: the publish is not refused and reaches subscribers of the same wildcard name."
  },
  {
   "property": "C14",
   "status": "proved",
   "theorems": [
    "Verif.PubSub.C14_one_copy",
    "Verif.PubSub.C14_count"
   ],
   "note": "All histories and publishes; count equals the number of distinct connected clients with a matching subscription."
  },
  {
   "property": "C15",
   "status": "proved",
   "theorems": [
    "Verif.PubSub.C15_gone",
    "Verif.PubSub.C15_others"
   ],
   "note": "Patterns whose # is last, as the property says; C15_inner_hash_aliased shows a/# and a/#/b share one subscription."
  },
  {
   "property": "C16",
   "status": "proved",
   "theorems": [
    "Verif.PubSub.C16_never",
    "Verif.PubSub.C16_others"
   ],
   "note": "Every later operation of any history, with operations atomic; requests that overlap with the disconnect are in C73 and C74."
  },
  {
   "property": "C17",
   "status": "proved",
   "theorems": [
    "Verif.PubSub.C17_agrees",
    "Verif.PubSub.C17_dispatch"
   ],
   "note": "TypeScript matcher against the server's routing for all patterns and topics; dispatch for every subscribe/unsubscribe history."
  },
  {
   "property": "C18",
   "status": "partial",
   "theorems": [
    "Verif.PubSub.C18_retained_partial",
    "Verif.PubSub.C18_violated",
    "Verif.PubSub.C18_values"
   ],
   "note": "False as to the label: values of topics that begin with '/' are announced with the leading separators removed (C18_violated). Apart from the label proved for all topics (C18_values); with the label for topics that do not begin with '/'."
  },
  {
   "property": "C19",
   "status": "partial",
   "theorems": [
    "Verif.PubSub.C19_cleared_partial",
    "Verif.PubSub.C19_others_partial",
    "Verif.PubSub.C19_exact"
   ],
   "note": "C19_exact is unrestricted; the topic-labelled forms assume no topic begins with '/'."
  },
  {
   "property": "C20",
   "status": "partial",
   "theorems": [
    "Verif.PubSub.C20_ttl_partial",
    "Verif.PubSub.C20_cleanup_invisible",
    "Verif.PubSub.C20_values"
   ],
   "note": "C20_values and C20_cleanup_invisible are unrestricted; with the topic's own label the exact expiry instant is stated for topics not beginning with '/'."
  },
  {
   "property": "C21",
   "status": "partial",
   "theorems": [
    "Verif.PubSub.C21_restart_partial",
    "Verif.PubSub.C21_violated_leading_slash",
    "Verif.PubSub.C21_violated_clash",
    "Verif.PubSub.C21_violated_expired_while_down",
    "Verif.PubSub.C21_violated_failed_flush"
   ],
   "note": "Holds for topics not beginning with '/', successful flushes and values still alive at the restart; the four witnesses show the code violates the rest."
  },
  {
   "property": "C22",
   "status": "proved",
   "theorems": [
    "Verif.Queue.C22_conservation"
   ],
   "note": ""
  },
  {
   "property": "C23",
   "status": "proved",
   "theorems": [
    "Verif.Queue.C23_priority_then_arrival",
    "Verif.Queue.C23_batch_sorted"
   ],
   "note": ""
  },
  {
   "property": "C24",
   "status": "partial",
   "theorems": [
    "Verif.Queue.C24_consume_exact_partial",
    "Verif.Queue.C24_huge_batch_panics"
   ],
   "note": "Holds whenever the requested batch fits in memory (n * sizeof(Message) <= isize::MAX); a larger request panics in Vec::with_capacity and the queue lock is poisoned or the request gets no answer, which is proved as C24_huge_batch_panics."
  },
  {
   "property": "C25",
   "status": "partial",
   "theorems": [
    "Verif.Queue.C25_exclusive",
    "Verif.Queue.C97_exclusive_partial",
    "Verif.Queue.C97_violated"
   ],
   "note": "C25_exclusive is about unbounded numbers; for the wrapping 64-bit addition of a release build it holds when clock + timeout < 2^64 and is false beyond."
  },
  {
   "property": "C26",
   "status": "proved",
   "theorems": [
    "Verif.Queue.C26_timeout"
   ],
   "note": ""
  },
  {
   "property": "C27",
   "status": "proved",
   "theorems": [
    "Verif.Queue.C27_ack_final"
   ],
   "note": ""
  },
  {
   "property": "C28",
   "status": "proved",
   "theorems": [
    "Verif.Queue.C28_bounded_deliveries",
    "Verif.Queue.C28_dead_letter",
    "Verif.Queue.C28_requeued"
   ],
   "note": ""
  },
  {
   "property": "C29",
   "status": "proved",
   "theorems": [
    "Verif.Queue.C29_peek",
    "Verif.Queue.C29_replay",
    "Verif.Queue.C29_missing",
    "Verif.Queue.C29_delete",
    "Verif.Queue.C29_purge"
   ],
   "note": ""
  },
  {
   "property": "C30",
   "status": "proved",
   "theorems": [
    "Verif.Queue.C30_counters",
    "Verif.Queue.C30_listing",
    "Verif.Queue.C30_states"
   ],
   "note": ""
  },
  {
   "property": "C31",
   "status": "proved",
   "theorems": [
    "Verif.Queue.C31_independent",
    "Verif.Queue.C31_answers",
    "Verif.Queue.C31_missing",
    "Verif.Queue.C31_recreate"
   ],
   "note": "create_queue and delete_queue are modelled as atomic; a delete that overlaps a create or a push of the same queue is not covered. The part of C31_recreate about files is for names without \"/\"; for the others no file is ever written."
  },
  {
   "property": "C32",
   "status": "proved",
   "theorems": [
    "Verif.Queue.C32_clean_restart"
   ],
   "note": ""
  },
  {
   "property": "C33",
   "status": "proved",
   "theorems": [
    "Verif.Queue.C33_crash",
    "Verif.Queue.C33_ack_not_undone",
    "Verif.Queue.C33_push_not_lost"
   ],
   "note": "The writer applies operations in the order in which it receives them (see C34 for overlapping requests) and a commit that fails loses its batch (not modelled)."
  },
  {
   "property": "C34",
   "status": "partial",
   "theorems": [
    "Verif.Queue.C34_violated",
    "Verif.Queue.C34_ordered_partial"
   ],
   "note": "The code violates the property: storage operations are sent after the lock is released. Proved: the violation, and the property under the hypothesis that the operations of each message reach the writer in request order."
  },
  {
   "property": "C35",
   "status": "partial",
   "theorems": [
    "Verif.Queue.C35_violated",
    "Verif.Queue.C35_clean_restarts_partial",
    "Verif.Queue.C35_any_restarts_partial"
   ],
   "note": "The code violates the property (one more delivery per clean restart). Proved: the violation, and the bounds that do hold."
  },
  {
   "property": "C36",
   "status": "partial",
   "theorems": [
    "Verif.Queue.C36_violated",
    "Verif.Queue.C36_nested_violated",
    "Verif.Queue.C36_alone_partial",
    "Verif.Queue.C36_names_partial"
   ],
   "note": "The code violates the property for names ending in .db and for names with \"/\". Proved: both violations, and the property for all other names."
  },
  {
   "property": "C37",
   "status": "proved",
   "theorems": [
    "Verif.Queue.C37_no_lost_wakeup",
    "Verif.Queue.C37_try_succeeds"
   ],
   "note": ""
  },
  {
   "property": "C38",
   "status": "proved",
   "theorems": [
    "Verif.Stream.C38_dense",
    "Verif.Stream.C38_next_number",
    "Verif.Stream.C38_first"
   ],
   "note": "One run of the server; the numbers after a restart are C57."
  },
  {
   "property": "C39",
   "status": "partial",
   "theorems": [
    "Verif.Stream.C39_numbered",
    "Verif.Stream.C39_read_now",
    "Verif.Stream.C39_fetch",
    "Verif.Stream.C39_read",
    "Verif.Stream.C39_from_files_partial",
    "Verif.Stream.C60_violated"
   ],
   "note": "Every message that any fetch or read returns is a published one, unchanged (C39_fetch, C39_read: every history, also with concurrent publishers that reach the storage task in any order; message sizes fit their length fields). Reads answered from memory are complete and in order in every history. Reads that go to the files: complete and in order for orderly histories (each publisher hands its message to the storage task before the next one does; clock monotone if age retention is on). C60_violated shows that without that order a cold read returns messages in the wrong order."
  },
  {
   "property": "C40",
   "status": "partial",
   "theorems": [
    "Verif.Stream.C40_nothing_lost_partial",
    "Verif.Stream.C40_evict_partial",
    "Verif.Stream.C40_violated"
   ],
   "note": "Proved for orderly histories. C40_violated: when concurrent publishers reach the storage task in the other order, an unwritten message is evicted."
  },
  {
   "property": "C41",
   "status": "proved",
   "theorems": [
    "Verif.Stream.C41_old_end",
    "Verif.Stream.C41_newest_kept",
    "Verif.Stream.C41_age_exact",
    "Verif.Stream.C41_size_exact",
    "Verif.Stream.C41_no_limits",
    "Verif.Stream.C41_prefix",
    "Verif.Stream.C41_only_retention",
    "Verif.Stream.C41_head"
   ],
   "note": "Exact for all segment lists; the age limit deletes a prefix when modification times are ordered, which C41_prefix shows for every history in which the clock does not go backwards."
  },
  {
   "property": "C42",
   "status": "proved",
   "theorems": [
    "Verif.Stream.C42_nothing_skipped",
    "Verif.Stream.C42_tracked"
   ],
   "note": "Within one run, from a new topic or files in order (Started). The restart itself is C59."
  },
  {
   "property": "C43",
   "status": "proved",
   "theorems": [
    "Verif.Stream.C43_in_order",
    "Verif.Stream.C43_answer_in_order",
    "Verif.Stream.C43_no_gap"
   ],
   "note": ""
  },
  {
   "property": "C44",
   "status": "proved",
   "theorems": [
    "Verif.Stream.C44_one_holder"
   ],
   "note": ""
  },
  {
   "property": "C45",
   "status": "proved",
   "theorems": [
    "Verif.Stream.C45_acked_not_redelivered"
   ],
   "note": "Within one run of the server."
  },
  {
   "property": "C46",
   "status": "proved",
   "theorems": [
    "Verif.Stream.C46_backpressure",
    "Verif.Stream.C46_limit",
    "Verif.Stream.C46_limit_always"
   ],
   "note": ""
  },
  {
   "property": "C47",
   "status": "proved",
   "theorems": [
    "Verif.Stream.C47_delivery_limit",
    "Verif.Stream.C47_set_aside"
   ],
   "note": ""
  },
  {
   "property": "C48",
   "status": "proved",
   "theorems": [
    "Verif.Stream.C48_accepted_iff",
    "Verif.Stream.C48_rejected_unchanged"
   ],
   "note": ""
  },
  {
   "property": "C49",
   "status": "proved",
   "theorems": [
    "Verif.Stream.C49_fenced_fetch",
    "Verif.Stream.C49_fenced_ack",
    "Verif.Stream.C49_seek_beginning",
    "Verif.Stream.C49_seek_beginning_due",
    "Verif.Stream.C49_seek_end"
   ],
   "note": ""
  },
  {
   "property": "C50",
   "status": "proved",
   "theorems": [
    "Verif.Stream.C50_leave",
    "Verif.Stream.C50_disconnect"
   ],
   "note": ""
  },
  {
   "property": "C51",
   "status": "proved",
   "theorems": [
    "Verif.Stream.C51_deadline"
   ],
   "note": ""
  },
  {
   "property": "C52",
   "status": "proved",
   "theorems": [
    "Verif.Stream.C52_true",
    "Verif.Stream.C52_monotone"
   ],
   "note": "Within one run of the server."
  },
  {
   "property": "C53",
   "status": "proved",
   "theorems": [
    "Verif.Stream.C53_groups_independent"
   ],
   "note": "Groups of one topic; topics share no group state in the model (see DESIGN)."
  },
  {
   "property": "C54",
   "status": "partial",
   "theorems": [
    "Verif.Stream.C54_partial",
    "Verif.Stream.C54_violated"
   ],
   "note": "Violated by the code: a fetch dropped during its disk read (consumer disconnects) leaves the group's 'cold fetch in progress' flag set, after which members get empty answers (C54_violated). C54_partial: for histories in which no fetch is dropped during its disk read, a fetch by a member of a group below its limit that is owed a message returns one from memory, or after the storage task has handled the commands queued before it; unless retention removed an owed message meanwhile. Also assumes publishers reach the storage task in order."
  },
  {
   "property": "C55",
   "status": "proved",
   "theorems": [
    "Verif.Stream.C55_load",
    "Verif.Stream.C55_read",
    "Verif.Stream.C55_cut",
    "Verif.Stream.C55_load_intact",
    "Verif.Stream.C55_read_intact",
    "Verif.Stream.C55_damaged"
   ],
   "note": "Round trip, every cut position, and arbitrary file contents: whatever is returned is an intact record of the file. Any checksum function."
  },
  {
   "property": "C56",
   "status": "partial",
   "theorems": [
    "Verif.Stream.C56_round_trip_partial",
    "Verif.Stream.C56_violated"
   ],
   "note": "Round trip for group names shorter than 65536 bytes and positions below 2^64; the code violates the property for longer names (witness)."
  },
  {
   "property": "C57",
   "status": "partial",
   "theorems": [
    "Verif.Stream.C57_violated",
    "Verif.Stream.C57_partial"
   ],
   "note": "Fails when the newest segment holds no complete record at the crash (C57_violated); holds for every crash point that leaves one there, for orderly histories."
  },
  {
   "property": "C58",
   "status": "partial",
   "theorems": [
    "Verif.Stream.C58_violated",
    "Verif.Stream.C58_crash_partial",
    "Verif.Stream.C58_restarts_partial"
   ],
   "note": "Fails after two restarts because a torn tail is never cut off (C58_violated). One crash at any point that leaves a complete record in the newest segment: proved. Any number of restarts without torn writes: proved. Orderly histories."
  },
  {
   "property": "C59",
   "status": "partial",
   "theorems": [
    "Verif.Stream.C59_violated",
    "Verif.Stream.C59_not_skipped_partial",
    "Verif.Stream.C59_flushed_partial",
    "Verif.Stream.C59_unsettled_partial"
   ],
   "note": "Fails when progress was saved before the acknowledged messages were flushed (C59_violated). Proved: nothing above the saved progress is skipped; if the saved progress was flushed, all new messages are above it. Any crash: a message that the group had not settled when the server stopped is owed to it again after the restart if it is still in the log (no seek of the group in that run)."
  },
  {
   "property": "C60",
   "status": "partial",
   "theorems": [
    "Verif.Stream.C60_violated",
    "Verif.Stream.C60_partial"
   ],
   "note": "Fails for concurrent publishers (C60_violated); holds when they reach the storage task in the order of their numbers."
  },
  {
   "property": "C61",
   "status": "partial",
   "theorems": [
    "Verif.Paths.C61_partial",
    "Verif.Paths.C61_violated_parent",
    "Verif.Paths.C61_violated_absolute"
   ],
   "note": "Holds for names that do not begin with '/' and have no part '..'. For the others the code violates it: PathBuf::join takes the name as it is, and delete removes directories outside. Path resolution is lexical (no symbolic links)."
  },
  {
   "property": "C62",
   "status": "partial",
   "theorems": [
    "Verif.Session.C62_partial",
    "Verif.Session.C62_cleanup_ends",
    "Verif.Session.C62_violated_error",
    "Verif.Session.C62_violated_error_witness",
    "Verif.Session.C62_violated_half_frame",
    "Verif.Session.C62_violated_running"
   ],
   "note": "Proved for clean closes when no join is executing on another thread at the moment of the abort. Violated when the connection ends by an error (half a frame is enough), and by a join that is executing while the tasks are aborted. The set of topics is fixed during a run; requests are atomic broker steps."
  },
  {
   "property": "C63",
   "status": "partial",
   "theorems": [
    "Verif.Wire.C63_ids_partial",
    "Verif.Wire.C63_violated"
   ],
   "note": "the code violates it from request 2^31 on; proved for the requests before"
  },
  {
   "property": "C64",
   "status": "partial",
   "theorems": [
    "Verif.Paths.C64_partial",
    "Verif.Paths.C64_kinds_partial",
    "Verif.Paths.C64_violated",
    "Verif.Paths.C64_segments"
   ],
   "note": "Holds for names that are possible file names (no '/', not empty, not '.' or '..'). Violated by nested names such as 'a' and 'a/b', by './a' and by the empty name."
  },
  {
   "property": "C65",
   "status": "proved",
   "theorems": [
    "Verif.Stream.C65_no_lost_wakeup",
    "Verif.Stream.C65_woken_gets"
   ],
   "note": "Every schedule of topic steps, notifications and waiting fetches. C65_no_lost_wakeup: as soon as the steps that changed something have called notify, a waiting fetch of a group that is owed a message has been woken and tries again. C65_woken_gets: the retry returns a message or goes to the files, if the consumer is still a member, below the limit, and no fetch was dropped during a disk read (C54). tokio's Notify is modelled as a counter of notify_waiters calls."
  },
  {
   "property": "C66",
   "status": "proved",
   "theorems": [
    "Verif.Stream.C66_progress",
    "Verif.Stream.C66_not_redelivered"
   ],
   "note": "Group names must be valid text of fewer than 2^16 bytes and sequence numbers below 2^64. Handed to the operating system counts as written (the code never calls fsync). C66_not_redelivered speaks of restarts from files that are in order (Started; C57 says when)."
  },
  {
   "property": "C67",
   "status": "partial",
   "theorems": [
    "Verif.Sdk.C67_at_most_once",
    "Verif.Sdk.C67_right_answer",
    "Verif.Sdk.C67_settled_partial",
    "Verif.Sdk.C67_closed_partial",
    "Verif.Sdk.C67_violated"
   ],
   "note": "At most one outcome and the right answer are proved without restriction. Settlement is proved for histories without disconnect() and with fewer than 2^31-1 frames (ids, C63); disconnect() forgets outstanding requests without settling them (C67_violated)."
  },
  {
   "property": "C68",
   "status": "partial",
   "theorems": [
    "Verif.Sdk.C68_final_partial",
    "Verif.Sdk.C68_violated"
   ],
   "note": "Proved when disconnect() is called while a socket exists; false when it is called while the client waits before the next attempt (C68_violated)."
  },
  {
   "property": "C69",
   "status": "proved",
   "theorems": [
    "Verif.Sdk.C69_keeps_trying",
    "Verif.Sdk.C69_again"
   ],
   "note": ""
  },
  {
   "property": "C70",
   "status": "proved",
   "theorems": [
    "Verif.Sdk.QueueLoop.C70_once",
    "Verif.Sdk.QueueLoop.C70_order",
    "Verif.Sdk.QueueLoop.C70_ack",
    "Verif.Sdk.QueueLoop.C70_nack",
    "Verif.Sdk.QueueLoop.C70_bound",
    "Verif.Sdk.QueueLoop.C70_in_progress",
    "Verif.Sdk.QueueLoop.C70_settled",
    "Verif.Sdk.QueueLoop.C70_stop",
    "Verif.Sdk.QueueLoop.C70_stop_ends"
   ],
   "note": ""
  },
  {
   "property": "C71",
   "status": "partial",
   "theorems": [
    "Verif.Sdk.StreamLoop.C71_once",
    "Verif.Sdk.StreamLoop.C71_order",
    "Verif.Sdk.StreamLoop.C71_ack",
    "Verif.Sdk.StreamLoop.C71_bound",
    "Verif.Sdk.StreamLoop.C71_stop",
    "Verif.Sdk.StreamLoop.C71_stop_ends",
    "Verif.Sdk.StreamLoop.C71_leave_partial",
    "Verif.Sdk.StreamLoop.C71_violated"
   ],
   "note": "Everything but the last clause is proved without restriction. stop() leaves the group unless it is called while the consumer joins it again (C71_leave_partial, C71_violated)."
  },
  {
   "property": "C72",
   "status": "partial",
   "theorems": [
    "Verif.PubSub.Sdk.C72_restored_partial",
    "Verif.PubSub.Sdk.C72_kept",
    "Verif.PubSub.Sdk.C72_violated",
    "Verif.PubSub.Sdk.C72_violated_twice",
    "Verif.PubSub.Sdk.C72_violated_late"
   ],
   "note": "Proved for histories in which no request times out and unsubscribe is not called for a topic while a request for the same topic is outstanding (resubscriptions included); false otherwise (the violated theorems). C72_kept holds without restriction."
  },
  {
   "property": "C73",
   "status": "proved",
   "theorems": [
    "Verif.PubSub.Race.C73_reaches",
    "Verif.PubSub.Race.C73_once",
    "Verif.PubSub.Race.C73_not",
    "Verif.PubSub.Race.C73_gone",
    "Verif.PubSub.Race.C73_ends"
   ],
   "note": "Every use of the client table or the tree is a step of its own; requests interleave freely. Patterns with an inner # (which alias each other) are excluded by `Proper`."
  },
  {
   "property": "C74",
   "status": "partial",
   "theorems": [
    "Verif.PubSub.Race.C74_counts_partial",
    "Verif.PubSub.Race.C74_listed_partial",
    "Verif.PubSub.Race.C74_violated",
    "Verif.PubSub.Race.C74_violated_overlap"
   ],
   "note": "False in general: a disconnection between the two sections of a subscription leaves it in the tree for ever (C74_violated), an unsubscribe that overtakes a subscribe is lost (C74_violated_overlap). Proved for clients that await the answer before the opposite request and are not removed while they subscribe."
  },
  {
   "property": "C75",
   "status": "partial",
   "theorems": [
    "Verif.PubSub.Race.C75_last_partial",
    "Verif.PubSub.Race.C75_greeting",
    "Verif.PubSub.Race.C75_violated"
   ],
   "note": "False for overlapping retained publishes on one topic (C75_violated). Proved when the last publish on the topic does not overlap another one; which value a new subscriber gets is proved without restriction on overlaps."
  },
  {
   "property": "C76",
   "status": "partial",
   "theorems": [
    "Verif.PubSub.C76_right_partial",
    "Verif.PubSub.C76_listed_partial",
    "Verif.PubSub.C76_once_partial",
    "Verif.PubSub.C76_pages",
    "Verif.PubSub.C76_search",
    "Verif.PubSub.C76_clients",
    "Verif.PubSub.C76_violated",
    "Verif.PubSub.C76_violated_twice"
   ],
   "note": "Names with a leading / are shown without it and the empty name is not shown (C76_violated); a retained value under a name with wildcard levels gives a second line (C76_violated_twice). For all other names the listing is exact. Pages, search and client lists hold without that restriction."
  },
  {
   "property": "C77",
   "status": "partial",
   "theorems": [
    "Verif.Queue.C77_refines_partial",
    "Verif.Queue.C77_durable_partial",
    "Verif.Queue.C77_acked_partial",
    "Verif.Queue.C77_pushed_partial",
    "Verif.Queue.C77_violated",
    "Verif.Queue.C77_violated_acked",
    "Verif.Queue.C77_violated_move"
   ],
   "note": "Proved for every batch size and schedule of the storage task, with transactions failing to start any number of times. False when a commit or the second statement of a move fails: the batch is dropped, respectively the message is in neither table (C77_violated, C77_violated_acked, C77_violated_move)."
  },
  {
   "property": "C78",
   "status": "proved",
   "theorems": [
    "Verif.Queue.C78_sound",
    "Verif.Queue.C78_delivered"
   ],
   "note": "Whatever fails: transactions, statements, commits, process."
  },
  {
   "property": "C79",
   "status": "partial",
   "theorems": [
    "Verif.Queue.C79_alone_partial",
    "Verif.Queue.C79_deleted_partial",
    "Verif.Queue.C79_created_partial",
    "Verif.Queue.C79_violated",
    "Verif.Queue.C79_violated_old",
    "Verif.Queue.C79_violated_two"
   ],
   "note": "Proved for histories in which no create begins, and the process does not end, while a delete of the queue is unanswered; deletes may overlap each other and everything else. False otherwise (C79_violated: the rest of the delete removes the new queue's files; C79_violated_old: the new queue holds the old messages; C79_violated_two: also for a client whose own delete was answered)."
  },
  {
   "property": "C80",
   "status": "partial",
   "theorems": [
    "Verif.StreamLife.C80_deleted_partial",
    "Verif.StreamLife.C80_violated"
   ],
   "note": "Proved when the delete begins while no publish or create of the topic is unanswered and no group progress is on its way. False when a publish overlaps the delete (C80_violated)."
  },
  {
   "property": "C81",
   "status": "partial",
   "theorems": [
    "Verif.StreamLife.C81_created_partial",
    "Verif.StreamLife.C81_restart_partial",
    "Verif.StreamLife.C81_durable_partial",
    "Verif.StreamLife.C81_violated_creates",
    "Verif.StreamLife.C81_violated_delete",
    "Verif.StreamLife.C81_violated_config",
    "Verif.StreamLife.C81_violated_groups"
   ],
   "note": "Proved when creates and deletes of the topic do not overlap each other, publishes or the saving of groups; publishes may overlap each other. False for two overlapping creates (C81_violated_creates), a create overlapping a delete (C81_violated_delete, C81_violated_config) and group progress saved late (C81_violated_groups)."
  },
  {
   "property": "C82",
   "status": "partial",
   "theorems": [
    "Verif.Stream.C82_fetch_partial",
    "Verif.Stream.C82_read_partial",
    "Verif.Stream.C82_flush_partial",
    "Verif.Stream.C82_violated",
    "Verif.Stream.C82_violated_stuck",
    "Verif.Stream.C82_violated_read",
    "Verif.Stream.C82_violated_forged",
    "Verif.Stream.C82_violated_torn"
   ],
   "note": "False as stated: an open that fails once loses an answered message without a crash, and every group that has not had it gets nothing any more; an unreadable segment is left out of read answers; after a torn record the reader can deliver a message nobody published (also after a plain crash). Proved: whatever fails, as long as no file is left with part of a record, everything fetched or read has been published unchanged; if only flushes of open writers, saves and reads fail, nothing is lost after the next successful flush. Not modelled: failures of remove_file, metadata and read_dir."
  },
  {
   "property": "C83",
   "status": "partial",
   "theorems": [
    "Verif.Store.C83_once",
    "Verif.Store.C83_sound",
    "Verif.Store.C83_complete",
    "Verif.Store.C83_total",
    "Verif.Store.C83_violated_total",
    "Verif.Store.C83_violated_page"
   ],
   "note": "All clauses but two are proved without restriction. False: the total ignores the filter and counts expired keys (C83_violated_total); expired keys take places of a page, so that a page can be short or empty before the end (C83_violated_page). Assumes DashMap's iterator reads each shard under its lock, once."
  },
  {
   "property": "C84",
   "status": "proved",
   "theorems": [
    "Verif.QueueE2E.C84_not_lost",
    "Verif.QueueE2E.C84_stored"
   ],
   "note": "Requests execute one after the other at the server; C34 is about storage operations of overlapping requests."
  },
  {
   "property": "C85",
   "status": "partial",
   "theorems": [
    "Verif.QueueE2E.C85_faithful_partial",
    "Verif.QueueE2E.C85_bounded_partial",
    "Verif.QueueE2E.C85_violated",
    "Verif.QueueE2E.C85_violated_neighbour"
   ],
   "note": "Contents and bound proved; that a message is dead-lettered only after a call is refuted."
  },
  {
   "property": "C86",
   "status": "proved",
   "theorems": [
    "Verif.StreamE2E.C86_acked",
    "Verif.StreamE2E.C86_progress",
    "Verif.StreamE2E.C86_new_topic"
   ],
   "note": "One run of the server; restarts are the subject of C58 and C59."
  },
  {
   "property": "C87",
   "status": "partial",
   "theorems": [
    "Verif.StreamE2E.C87_faithful_partial",
    "Verif.StreamE2E.C87_bounded_partial",
    "Verif.StreamE2E.C87_violated"
   ],
   "note": "Contents and bound proved; that a message is given up only after a call is refuted."
  },
  {
   "property": "C88",
   "status": "proved",
   "theorems": [
    "Verif.StreamE2E.C88_order",
    "Verif.StreamE2E.C88_strict"
   ],
   "note": "One run of the server; the group is not sought."
  },
  {
   "property": "C89",
   "status": "partial",
   "theorems": [
    "Verif.Dashboard.C89_pending",
    "Verif.Dashboard.C89_inflight",
    "Verif.Dashboard.C89_dead_partial",
    "Verif.Dashboard.C89_not_found",
    "Verif.Dashboard.C89_violated_search",
    "Verif.Dashboard.C89_violated_state"
   ],
   "note": "Exact for waiting messages and messages in flight. For dead letters only without a search (the search is ignored); an unknown state gives an empty list."
  },
  {
   "property": "C90",
   "status": "partial",
   "theorems": [
    "Verif.Dashboard.C90_shown",
    "Verif.Dashboard.C90_distinct_partial",
    "Verif.Dashboard.C90_violated",
    "Verif.Dashboard.C90_violated_foreign"
   ],
   "note": "Values a client writes are shown as themselves. Values of different kinds can look alike, and payloads with an unknown type byte are shown differently from what clients read. from_utf8_lossy is assumed to be the identity on UTF-8, serde_json is a parameter."
  },
  {
   "property": "C91",
   "status": "partial",
   "theorems": [
    "Verif.Dashboard.C91_last",
    "Verif.Dashboard.C91_page_partial",
    "Verif.Dashboard.C91_newest_partial",
    "Verif.Dashboard.C91_groups",
    "Verif.Dashboard.C91_violated"
   ],
   "note": "Last number and groups proved. Pages proved when they are answered from memory (from files: C39_from_files_partial); the first page can miss unflushed messages."
  },
  {
   "property": "C92",
   "status": "partial",
   "theorems": [
    "Verif.PubSub.E2E.C92_delivered_partial",
    "Verif.PubSub.E2E.C92_subscribed",
    "Verif.PubSub.E2E.C92_only",
    "Verif.PubSub.E2E.C92_stopped",
    "Verif.PubSub.E2E.C92_greeted_partial",
    "Verif.PubSub.E2E.C92_violated"
   ],
   "note": "Exactly once and in order for what is sent because it was published; retained values can reach a callback again when the client makes further subscriptions. Retained topics must not begin with a separator (C18). The server's requests are atomic here (C73 has them overlap)."
  },
  {
   "property": "C93",
   "status": "proved",
   "theorems": [
    "Verif.Rpc.C93_once",
    "Verif.Rpc.C93_asked",
    "Verif.Rpc.C93_answered",
    "Verif.Rpc.C93_state",
    "Verif.Rpc.C93_real_time",
    "Verif.Rpc.C93_settled"
   ],
   "note": "The engine is arbitrary: one request's work on it is one atomic step. C94's example meets the hypotheses."
  },
  {
   "property": "C94",
   "status": "partial",
   "theorems": [
    "Verif.Rpc.C94_get_partial",
    "Verif.Rpc.C94_fresh"
   ],
   "note": "Not at the very instant at which a value expires (C09_violated)."
  },
  {
   "property": "C95",
   "status": "partial",
   "theorems": [
    "Verif.Rpc.C95_answered_first_partial",
    "Verif.Rpc.C95_violated"
   ],
   "note": "Holds when each request is made after the answer to the one before; false for pipelined requests."
  },
  {
   "property": "C96",
   "status": "proved",
   "theorems": [
    "Verif.Rpc.C96_carried_out",
    "Verif.Rpc.C96_settled",
    "Verif.Rpc.C96_connection_lost",
    "Verif.Rpc.C96_progress"
   ],
   "note": "disconnect() drops pending requests without settling them (C67_violated), so C96_connection_lost excludes it. A panicked task's promise ends by timeout only (C67)."
  },
  {
   "property": "C97",
   "status": "partial",
   "theorems": [
    "Verif.Queue.C97_same",
    "Verif.Queue.C97_exclusive_partial",
    "Verif.Queue.C97_wrapped",
    "Verif.Queue.C97_violated"
   ],
   "note": "Holds whenever clock + timeout fits 64 bits. Missing: larger timeouts, for which it is false of the release build."
  },
  {
   "property": "C98",
   "status": "proved",
   "theorems": [
    "Verif.Wire.C98_progress",
    "Verif.Wire.C98_terminates",
    "Verif.Wire.C98_complete",
    "Verif.Wire.C98_only_delays"
   ],
   "note": "The network counts frames, not bytes."
  },
  {
   "property": "C99",
   "status": "partial",
   "theorems": [
    "Verif.Wire.C99_not_blocked_partial",
    "Verif.Wire.C99_violated"
   ],
   "note": "Holds when all answers and pushes fit into the network buffer; false beyond."
  }
 ]
}
