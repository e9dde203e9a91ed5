# Formal model of mozilla/neqo in Lean 4 — design

## Method

Each area of `/repo` is transcribed into a small total Lean function or state
machine (`lean/Verif/<Area>/Model.lean` or `Verif/<Area>.lean`), each
definition citing file and lines. A separate `…Spec`/`…Props` part states the
property in terms of an independent specification (an abstract byte stream, a
per-byte map, a set of packet numbers, a multiset of packets …), and helper
lemmas live in their own files. `&mut self` becomes a returned new value;
panics, `debug_assert!`s and `Result` errors become explicit `Option`/`Except`
values. Integers are `Nat` where the code cannot overflow, and explicit bounds
are proved or checked where it can.

## Trusted base

* Lean 4.33.0 kernel; axioms `propext`, `Classical.choice`, `Quot.sound` only.
* The transcription from Rust to Lean (done by hand, cited line by line).
* Not modelled: TLS/NSS cryptography, sockets, qlog, logging, stats counters
  that have no observable protocol effect, wall clock (times are `Nat`s given
  as arguments), memory allocation.

## Plan per property

| id | model | proof |
|----|-------|-------|
| C01, C02 | `codec.rs` encoder/decoder on byte lists | case split on size class, arithmetic on base-256 digits |
| C03 | vector writers incl. the rotate trick | list algebra + C01 |
| C04 | incremental decoders as state machines | induction on chunks, simulation by buffered prefix |
| C05, C06 | `RxStreamOrderer` with a sorted association list for the `BTreeMap` | refinement to `Nat → Option UInt8` + read cursor; invariant by induction over operations |
| C07 | same model with `check_gap_limit` | invariant |
| C08, C09, C10, C11 | `RecvStream` state machine with both flow controllers | invariant by induction over operations |
| C12 | `ReceiverFlowControl` | invariant; negation with witness if application can shrink the window |
| C13, C14 | `SenderFlowControl`, multi-stream composition | invariant with ghost history |
| C15, C16 | `RangeTracker` with sorted association list | refinement to `Nat → {unsent, sent, acked}` |
| C17, C18 | `TxBuffer` | refinement, ghost of everything written |
| C19, C20, C21 | `SendStream` state machine | invariant with ghost history |
| C22–C24, C26 | `RecvdPackets` | refinement to the set of received packet numbers |
| C25 | ACK frame writer + `decode_ack_frame` | round trip by induction over ranges |
| C27 | `decode_pn` and length choice | modular arithmetic |
| C28, C31, C32 | `sent::Packets`, `LossRecoverySpace`, `PtoState` | invariant by induction over operations |
| C29, C30 | `ClassicCongestionController` | invariant with ghost multiset of outstanding packets |
| C33 | `Path` byte counters | invariant |
| C34 | CID store and manager | invariant |
| C35 | `Frame::decode` against the writers | round trip per frame type |
| C36 | `TransportParameters` | round trip |
| C37 | `LocalStreamLimits`, `RemoteStreamLimit`, `Streams` creation paths | invariant |
| C38, C39 | prefix integers, Huffman table and coder | round trip by induction; finite table facts by kernel `decide` |
| C40–C42 | `HeaderTable`, encoder/decoder instruction streams, header block | invariant / refinement |
| C43 | `FrameReader` | chunk-independence by simulation |
| C44 | `OrderGroup` | permutation proof |
| C45 | `PushController` | invariant with ghost history |
| C46 | `IdleTimeout` | decision logic |
| C47 | `ReceiverFlowControl` with lost updates | invariant: an update is pending, sent or not due |
| C48, C49 | `SendStream` statistics; STREAM frame writer | invariant with ghost history; arithmetic on the space left |
| C50 | writable events of send streams | comparison of the space before and after |
| C51 | ACK deadlines of `AckTracker` | invariant linking deadline and pending ranges |
| C52 | whole of loss recovery with congestion control | every step of a well-formed state succeeds |
| C53, C54 | `CryptoStates`: keys, phases, packet numbers, limits | invariants of reader and writer, coupling of two endpoints |
| C55, C56 | `Path`, `Paths`, migration in `connection/mod.rs` | invariant over histories of operations |
| C57, C58, C44 | `SendStreams`, `OrderGroup`, `write_frames` | invariant; the regular streams are visited in rotation |
| C59 | `zero_rtt_rejected`, `set_initial_limits` over `Streams` | comparison with a fresh connection |
| C60, C61 | frame writers; `Frame::is_allowed` and friends | decode what was written; table against RFC 9000 |
| C62 | QPACK literals with Huffman | round trip |
| C63, C64, C65 | QPACK encoder and decoder as two communicating systems | invariant over runs of the pair; robustness against any peer |
| C66, C67 | HTTP/3 settings, 0-RTT settings check | round trip; comparison of all stored values |
| C68 | HTTP/3, WebTransport and capsule frames | round trip per frame |
| C69, C71 | `SendMessage`, `RecvMessage` | refinement to the message as a list of parts |
| C70 | `NewStreamHeadReader` | chunk-independence; table against RFC 9114 |
| C72 | `headers_valid` | equivalence with a declarative description of valid sections |
| C73, C74, C75 | `packet::Builder`, `Public::decode`, `decrypt`; Retry and Version Negotiation | round trip at the byte level; soundness given an ideal AEAD |
| C76 | client and server handshake logic for versions, Retry and connection IDs | invariant of each side, agreement when both complete |
| C77, C78 | `AddressValidation`, `NewTokenState`, `NewTokenSender`, `Server` | invariant; case analysis of every datagram |
| C79 | `QuicDatagrams` | invariant with ghost history |
| C80, C81, C82, C83 | `Pmtud`, `ecn::Info`, `Pacer`, `ackrate` | invariants by induction over operations |
| C84 | `ConnectionEvents` | refinement to a queue with removals |
| C85, C86 | `CryptoStreams`, `write_frame` with SNI slicing, `find_sni` | invariant with ghost history; parsing lemma |
| C87, C88 | `output_dgram_on_path`, `write_frames`, `pad_initial`, batches | sizes only, arbitrary frame writers; invariant over the loop |
| C89, C90 | `State`, `StateSignaling` and every function of `connection/mod.rs` that changes the state | all other parts are inputs; preservation lemma over all steps, induction over histories |
| C91, C92, C93 | `Http3Connection` with the event loops of `Http3Client` and `Http3ServerHandler`, and sessions | tables of handlers; what a read comes to is an input; invariant and tracking lemmas over all steps, induction over histories |
| C94, C95, C96 | both ends of streams and the network between them | the models of C05–C21 joined: a frame that was sent may arrive any number of times, in any order, or not at all; invariant that relates the two histories of each stream, induction over events |
| C97 | receive windows of streams and of the connection, both ends | on the model of C94: invariant that a window is three quarters open or an update is pending, kept by every operation; then what the next packet announces and what the writer goes by after it arrives |
| C98 | timers: loss recovery, keys, idle, paths, and the delay asked for | on the models of C20 to C33: invariant that the time of the first out-of-order packet is recorded whenever one is outstanding; then composition of `process_timer` and `next_delay` from the parts; two counterexamples for the missing cases |
| C99 | HyStart++, and the controller that calls it | invariant on the trace of calls: what the minima of the rounds are of, and the round trips made since the delay went up; then the controller's calls are projected to HyStart++'s |
| C100 | SEARCH | refinement of the two circular arrays by a list of all measurements; then theorems about the list |
| C101 | HTTP datagrams | the writing of a datagram inverted by the reading of it; the capsule reader by the pump of C43 |
| C102 | reports of a session | invariant of the state against what was told; counterexamples by runs |
| C103 | packets before their keys | count of every packet over all places; invariant of keys, store and the note of what is available, within and between calls |
| C104 | forged packets | forged input changes only the store and the record of dropped packets; the exception as an invariant that no later packet leaves |
| C105 | a message from one application to the other | what is written is read by the specification of C71 as what was accepted (invariant over the calls); the rest by C71 and C94 |
| C106 | a server passes on the data of a request as they arrive | `prepare_data` and the events of `Http3Server` over the receiving side of a stream. Invariant: between calls nothing is left to be read; an arrival keeps that or reports the stream readable; a read that returns less than asked for establishes it. Then C71 and C105. |
| C107 | streams of WebTransport sessions | `H3/WtStream`: sender of a stream with the handler's bookkeeping and the transport's answers as input; invariant over all calls; joined to the reader of stream heads (C70) and to the transport (C94); the stream without data is a counterexample |
| C108 | byte counts of WebTransport streams | from C107: the counted bytes are those after the preface |
| C109 | priorities of requests | `H3/Priority`: the handlers of the streams, the queue of changes and the control stream; invariant over all calls relating what was written to what the application set; joined to the reader of frames (C68) |
| C110 | header sections of requests | `H3/Request`: the fields that are built; equivalence with the rules of C72 |
| C111 | announced size of datagrams | `Assemble/DatagramSize`: `max_datagram_size` over the model of packet assembly (C87), joined to the writer of datagrams (C79) |
| C112 | reports of the HTTP/3 server | `H3Server`: connections and handlers under everything the transport may do. One connection at a time (`View`); invariant over all steps: what was told and what waits make up what was queued, as long as the connection is open; an end is waiting or told. `States`: an induction principle for one connection (`Keeps`); the states that wait come in order after the one the handler is in. |
| C113 | taking batches apart | `Assemble/BatchSplit`: `Batch::iter` and `num_datagrams` over the batches of C88; induction over the datagrams |
| C114 | settings and the parameters told | `Tparams/Create`: the setters of `ConnectionParameters` as a sequence of settings, and `create_transport_parameter`; induction over the settings: each field is the value set last and keeps the bound that its setter checks; then the round trip of C36; witnesses for the two setters without a check |
| C115 | HTTP/3 features offered | `H3/Configured`: the setters of `Http3Parameters` as a sequence of calls, `webtransport_enabled`; induction over the calls, then C66 and C114 |
| C116 | acknowledgement delays | `Recovery/AckDelay`: the delay as written and as read, with the parameters of C114 and C36; induction over histories of `RttEstimate::update` |
| C117 | advised bitrates (SCONE) | `Path/Scone`: the rate of each path, reports of the path in use; induction over histories. |
| C118 | preferred addresses | `Path/Preferred`: the checks on addresses and what HANDSHAKE_DONE does, on top of the model of paths; the invariant of `Path` and case analysis. |
| C119 | send groups of WebTransport | `H3/SendGroups`: the groups that the HTTP/3 layer keeps, on top of the model of the transport's scheduler; an invariant over every history of both layers. |
| C120 | order of frames in a packet | `Assemble/Order`: the sources of frames asked in turn, abstract but for a contract; induction over the order and over packets. |
| C121 | resolution of timers | `Common/HrTime`: handles with their ring buffers, counts and calls to the operating system; invariant over all histories. |
| C122 | datagrams through sockets | `Common/Udp`: the iterator over buffers of the kernel, whose reports are assumed to be whole; induction over buffers and calls. |
| C123 | closing without leaks | `Frames/Closing`: `write_closing_frames` over the frame writer of C60, for any writer of ACK frames; noninterference by the replaced frame. |
| C124 | hexadecimal text | `Common/Hex`: the buffer with its indices, and the pieces; induction over bytes and pieces. |
| C125 | atomic writes | `SendStream/Atomic`: `send_internal` on the streams of C13; from what C13 shows is accepted, and the flags for blocked limits. |
| C126 | MTU from the kernel | `Common/Mtu`: the netlink parser and requests of the crate `mtu` on Linux, against a description of netlink messages; induction over messages, datagrams and attributes. |
| C127 | Data of the programs | `Common/SendData`: the sender of `neqo-bin` with any replies of the stream; an invariant over calls. |
| C128 | HTTP/0.9 server | `Common/Http09`: the server of `neqo-bin` as a function of events of connections; invariants for the time before and after the end of a request, with C127 for the response. |
| C129 | Files served | `Common/WwwPath`: the path that is read, against a walk along its segments from the root; induction over characters and segments. |

The status of each claim is in `MANIFEST.json`.

## What is modelled

| directory in `lean/Verif` | code in `/repo` |
|---|---|
| `Lib` | sorted association lists standing for `BTreeMap`/`IndexMap`; `Except` lemmas |
| `Codec` | `neqo-common/src/codec.rs`, `incrdecoder.rs` |
| `RecvStream` | `neqo-transport/src/recv_stream.rs` |
| `SendStream` | `send_stream.rs`: `RangeTracker`, `TxBuffer`, `SendStream` |
| `Flow` | `fc.rs` |
| `Sched` | `send_stream.rs`: `SendStreams`, `OrderGroup` |
| `Streams` | `streams.rs`, `stream_id.rs`, stream functions of `connection/mod.rs` |
| `Acks` | `tracking.rs` |
| `Recovery` | `recovery/*`, `rtt.rs`, `cc/classic_cc.rs` with NewReno and Cubic as given functions |
| `Sender` | `pmtud.rs`, `ecn.rs`, `pace.rs`, `ackrate.rs`, `quic_datagrams.rs`, `events.rs` |
| `Assemble` | `connection/mod.rs` 2483-2988 and `SendProfile`, at the level of sizes |
| `Life` | `connection/state.rs`; `set_state`, `capture_error`, `close`, `process_timer`, `input_path`, `input_frame`, `output` and others of `connection/mod.rs` as far as they concern the state; frames, TLS, timers and writers are inputs |
| `Keys` | `crypto.rs`: `CryptoDxState`, `CryptoStates` |
| `Crypto` | `crypto.rs`: `CryptoStreams`; `sni.rs` |
| `Packet` | `packet/mod.rs`, `packet/retry.rs` |
| `Frames` | `frame.rs` and all writers of frames |
| `Tparams` | `tparams.rs` |
| `Idle` | `idle.rs`, `connection/idle.rs` |
| `Path` | `path.rs` and migration in `connection/mod.rs` |
| `Cid` | `cid.rs` |
| `Hs` | version negotiation, Retry and connection IDs in `connection/mod.rs`, `version.rs` |
| `Token`, `Server` | `addr_valid.rs`, `server.rs` |
| `Qpack` | `neqo-qpack/src/*` except statistics |
| `H3` | `neqo-http3/src`: frames, readers, settings, messages, header checks, push controller |
| `H3Conn` | `neqo-http3/src/connection.rs`, `connection_client.rs`, `connection_server.rs`, `features/extended_connect/*` except datagrams and capsules (see `Session`); the handlers of messages and streams only by what a read comes to |
| `E2E` | no further code: `SendStream` and `RecvStream` joined by a network (`Streams::input_frame`, `acked` and `lost` of `streams.rs` by what they call) |
| `Timer` | `connection/mod.rs`: the timers of `process_timer` and `next_delay`, composed from `Idle`, `Keys`, `Recovery` and `Path` |
| `SlowStart` | `cc/classic_slow_start.rs`, `cc/hystart.rs`, `cc/search.rs` and their use by `ClassicCongestionController` |
| `Session` | `features/extended_connect/session.rs`, `webtransport_session.rs`, `connect_udp_session.rs`: control stream, capsules and datagrams; the message reader of the control stream by what it delivers; no streams inside a session |
| `Saved` | `saved.rs`; `process_saved`, `save_datagram`, `input_path` and the keys of `connection/mod.rs`, packets by the keys they need |
| `H3/ServerData` | `neqo-http3/src/server.rs` (`prepare_data`, the events of a request in `process_events`), `server_events.rs`; one request stream, without the map of handlers, resets and sessions |
| `H3/WtStream` | `WebTransportSendStream`, its part in `Http3Connection`, `stats` of both directions; the session's set of streams is in `H3Conn` |
| `H3/Priority` | `PriorityHandler`, `ControlStreamLocal`, atomic sends of `BufferedStream`, `queue_update_priority` |
| `H3/Request` | `create_request_headers`, `fetch`, `connect`, the request of an extended CONNECT |
| `Assemble/DatagramSize` | `max_datagram_size`, and the room for application frames in a packet |
| `H3Server` | `Http3Server`: its handlers, `process_multiple`, `process_http3`, `process_events`, `send_goaway`; `Http3ServerHandler` as far as it reports, fails or closes |
| `Assemble/BatchSplit` | `datagram::Batch`: `iter`, `num_datagrams` |
| `Tparams/Create` | connection/params.rs: the fields that reach the peer, their setters and `create_transport_parameter`; tparams.rs: `PreferredAddress::new` |
| `H3/Configured` | conn_params.rs of neqo-http3: what reaches the settings |
| `Recovery/AckDelay` | `decode_ack_delay`, the delay in `RecvdPackets::write_frame`, histories of `RttEstimate::update` |
| `Path/Scone` | scone.rs:12-51, path.rs:690-706, connection/mod.rs:1790-1794; not the conversion to bits per second |
| `Path/Preferred` | connection/mod.rs:2135-2252, 3543-3551; addresses are a family, a number and a port |
| `H3/SendGroups` | neqo-http3/src/connection.rs:752-769, 1090-1142, 1395-1406, 1529-1653, webtransport.rs:218-253, webtransport_session.rs:70-80, send_group.rs; what the streams carry is abstract |
| `Assemble/Order` | connection/mod.rs:2392-2480, streams.rs:276-317, packet/mod.rs:334-342; the writers themselves are abstract |
| `Common/HrTime` | neqo-common/src/hrtime.rs:15-78, 214-381; the calls to the operating system are recorded, not modelled |
| `Common/Udp` | neqo-udp/src/lib.rs:60-105, 146-238, neqo-common/src/tos.rs; `quinn-udp` and the kernel are not modelled |
| `Common/Mtu` | mtu/src/linux.rs, mtu/src/lib.rs:89-108; little-endian; sockets, other systems and the kernel are not modelled |
| `Common/SendData` | neqo-bin/src/send_data.rs, all of it |
| `Common/Http09` | neqo-bin/src/server/http09.rs:31-43, 72-83, 102-189, 217-238; paths and their responses are a parameter |
| `Common/WwwPath` | neqo-bin/src/server/mod.rs:284-293; Unix, without symbolic links |
| `Common/Hex` | neqo-common/src/hex.rs:78-140, without the formatter |
| `Frames/Closing` | connection/mod.rs:2635-2667, connection/state.rs:78-154 without the path; the writer of ACK frames is any function that keeps to its space |

Cryptography appears only through stated properties (an ideal AEAD that opens
what was sealed and nothing else; key derivation that gives different keys).
Not modelled: NSS itself and the TLS handshake, `quinn-udp`, `neqo-bin` (but for `SendData`, the HTTP/0.9 server and the paths of files), the
inner arithmetic of Cubic, qlog, statistics.

## How theorems are tested

`seeded/LOG.jsonl` has one line per edit of a model definition that a realistic
bug would make. An edit counts as caught if a theorem of the claim, or a lemma
that only says what the claim needs, no longer proves. Where the build broke in
a helper lemma only because of its form, the claim was checked by hand. An edit
that survives is either equivalent (the note says why) or the theorem was
tightened and the edit run again.

## Findings

Where the code does not have a property, the negation is proved with a concrete
witness and the property is kept as far as it holds. Theorem names are given.

Transport, streams and flow control:

* `encode_vec_with` on a non-empty encoder writes a wrong length: `C03_vec_with_nonempty_false`.
* A stream waiting for its final bytes accepts a second final size: `C09_waiting_stream_accepts_second_size`.
* Shrinking a receive window lowers an advertised limit: `C12_shrinking_window_lowers_limit`.
* Losing a range also marks later bytes, not lost, to be sent again: `C16_lost_too_much`.
* A stream is passed over: `C32_passed_over`, `C44_starved_behind_unfair`, `C44_passed_over_after_removal`, `C58_null_order_starves`.
* Streams that are never removed: `C37_abandoned_stream_stays`, `C57_ended_stream_stays`.
* Setting limits twice panics: `C37_second_limits_panics`.
* Raised initial limits do not produce a writable event: `C50_initial_limit_silent`.
* Rejected 0-RTT loses or exceeds connection credit: `C59_credit_lost`, `C59_limit_exceeded`.
* CRYPTO data that overlaps is counted more than once and closes the connection: `C85_overlap_closes`; data over the send buffer is dropped silently: `C85_excess_dropped`.
* Datagram frames may exceed the peer's limit, and longer ones are accepted: `C79_frame_exceeds_limit`, `C79_longer_frame_accepted`.
* Events: `C84_last_path_wrong`, `C84_draining_keeps`, `C84_datagrams_unbounded`.

Acknowledgments, loss and congestion:

* ACK ranges below zero are accepted: `C25_accepts_below_zero`.
* Packet numbers that are recovered wrongly, during a key update and with too many packets outstanding: `C27_stale_during_key_update`, `C27_too_many_unacknowledged`.
* Bytes in flight are inexact after a migration of the peer: `C29_inexact_after_peer_migration`; discarding then panics: `C52_discard_panics`.
* Window below the minimum, reduced twice, or growing in recovery: `C30_below_minimum_after_mtu_raise`, `C30_reduced_twice_across_spaces`, `C30_growth_in_recovery`.
* Amplification limit exceeded by probe timeouts, acknowledgments and MTU probes: `C33_exceeded_by_probe_timeout`, `C33_exceeded_by_acknowledgment`, `C33_exceeded_by_pmtud`.
* An ACK deadline that never clears: `C51_deadline_stuck`.
* Path MTU discovery: `C80_unprobed_after_late_ack`, `C80_unprobed_after_restart`, `C80_base_exceeds_peer_limit`.
* ECN: `C81_capable_without_marked`, `C81_black_hole_stays`, `C81_removed_marks_missed`, `C81_reordered_ack_fails`.
* Pacing: `C82_disabled_delays`, `C82_burst_of_three`.
* A peer's `min_ack_delay` over 50 ms panics: `C83_min_delay_panics`; also `C83_delay_too_short`, `C83_number_reused`, `C83_stuck_after_migration`.
* Datagrams: padding that makes a short-header packet unreadable: `C87_padding_joins_short`, `C87_padding_joins_data`; Initial packets in small datagrams: `C87_small_initial`, `C87_small_server_initial`; datagrams over the path MTU that are not probes: `C87_oversized`, `C87_oversized_limited`; `C87_path_frames_not_recorded`, `C87_long_token_silent`; ordinary frames after a close: `C88_frames_after_close`.

Keys, paths, connection IDs and handshake:

* `C53_numbers_restart_after_rejection`, `C53_forgery_limit_exceeded`.
* Key updates: `C54_reordering_blocks`, `C54_update_with_0rtt_keys_panics`, `C54_order_two_apart`.
* Idle timeout: `C46_cached_packet_closes_early`, `C46_zero_timeout_closes`.
* Paths: `C55_slow_path_abandoned`, `C55_challenge_without_cid_closes`.
* Connection IDs: `C34_shared`, `C34_retired_twice`, `C34_below_retire_prior_used`, `C34_reused_number_accepted`, `C34_retired_advertised_again`, `C34_exhausted_generator_hangs`.
* Frames: `C60_close_does_not_fit`, `C61_type_of_datagram`, `C61_type_of_ack`, `C61_close_refused_in_0rtt`, `C35_long_padding_refused`.
* Transport parameters remembered for 0-RTT: `C36_0rtt_cid_limit_reduced`, `C36_0rtt_packet_size_reduced`.
* Versions and Retry: `C76_second_negotiation_acted_on`, `C76_retry_after_negotiation_wrong_keys`, `C76_other_source_accepted`.
* Tokens and server: `C77_no_tokens_after_50_days`, `C77_short_token_dropped`, `C78_bogus_initial_stays`, `C78_retry_cid_replaced`.
* A ClientHello with two names: `C86_two_names`.
* Closing: the handshake completes on a closed connection and an assertion fails: `C89_completion_panics`, `C89_completion_after_own_close_panics`, `C89_completion_after_close_panics`; `C89_stream_after_close`, `C89_close_while_draining_sends`, `C89_close_after_idle_sends`, `C89_reason_replaced`, `C89_close_puts_off_end`, `C89_idle_replaces_reason`, `C89_short_closing_time`, `C89_any_packet_answered`.

QPACK and HTTP/3:

* `C42_max_entries_mismatch`, `C42_mismatch_deadlock`, `C64_limit_exceeded`, `C62_short_string_refused`, `C63_pinned`.
* Settings: `C66_large_settings_close`, `C67_raised_capacity_closes`, `C67_connect_forgotten`.
* Frames and heads: `C68_large_headers_refused`, `C68_long_reason_refused`, `C69_empty_body`, `C70_end_with_head_closes`, `C70_end_in_head_closes`.
* Messages: `C71_blocked_promise_panics`, `C71_blocked_promise_lost`, `C72_connect_with_path_accepted`, `C72_odd_status_accepted`, `C72_odd_name_accepted`.
* Push: `C45_finished_before_promise_panics`, `C45_finished_before_promise_lost`, `C45_single_never_allowed`, `C45_unasked_promise_accepted`, `C45_unknown_push_canceled`, `C45_read_makes_room`, `C45_unannounced_after_request_closed`.
* HTTP/3 connections: an extended CONNECT for an unknown protocol stops a server: `C92_not_unknown_protocol`; settings after 0-RTT: `C91_not_connect_setting`; `C91_not_server_closed_again`, `C91_not_enough_streams`; GOAWAY: `C92_not_session_streams`, `C92_not_client_goaway`, `C92_not_server_limit`; requests: `C92_not_failed_request`, `C92_not_connect_halves`.
* Sessions: an end reported more than once: `C93_not_end_once`, `C93_not_refused_once`; a stream that outlives its session: `C93_not_late_stream`; `C93_not_connect_as_session`, `C93_not_failed_session`, `C93_not_pending_reset`.
* WebTransport streams: `C107_empty_stream_closes_connection`. Priorities: `C109_first_priority_not_told`, `C109_push_update_names_stream`. Requests: `C110_connect_can_be_bent`.
* Datagrams dropped although they fit the announced size: `C111_dropped_for_little_window`, `C111_dropped_behind_handshake`, `C111_dropped_beside_path_response`.
* HTTP/3 server: the end of a connection not told and its handler kept: `C112_timeout_not_told`; closing told after closed: `C112_closing_after_closed`; `C112_priority_without_connection`; `C112_goaway_not_for_new`.
* Settings: a limit on the data of the connection, or a size of datagrams, of 2^62 or more is accepted and panics when the parameters are written (C114); an idle timeout below a millisecond is told as none (C114).
* Round-trip times: the smallest one is lowered by the delay reported with the first sample: `C116_min_not_measured`.
* Advised bitrates: nothing told when the path changes: `C117_move_not_told`; advice forgotten before its time: `C117_forgotten_early`.
* Preferred addresses: not used if migration is disabled: `C118_ignored`; a repeated HANDSHAKE_DONE moves the client again and makes paths share a connection ID: `C118_repeated_moves_back`, `C118_repeated_shares_id`.
* Send groups: a stream that is made unfair and fair again has lost its group though HTTP/3 records it: `C119_lost_by_fairness`, `C119_unfair_recorded`; WebTransport streams asked for on another kind of session stay open: `C119_leaks_streams`.
* Order of frames: a stream that always has data starves datagrams, session tickets and streams of low priority: `C120_datagrams_starve`; a large datagram blocks its queue as long as packets carry something else: `C120_datagrams_stuck`.
* Timer resolution: the first update of a handle forgets the period that it was made for: `C121_update_forgets`.
* Closing: an ACK frame may leave so little that a CONNECTION_CLOSE frame is written beyond the space left: `C123_ack_squeezes`.
* Atomic writes: with no credit at all the peer is not told, and a stream with just enough credit is reported as blocked: `C125_silent`, `C125_spurious`.
* MTU: a message of the kernel that is longer than the buffer makes the program panic: `C126_long_message_panics`.
* HTTP/0.9 server: requests and responses are kept by stream ID only, for all connections together, so that a client can be answered for the bytes of another: `C128_mixed_connections`.
* Two endpoints: a smaller receive window makes an honest peer break the limit: `C95_smaller_window_breaks_connection`.

Seen while reading, not proved: `Server::set_ciphers` has no effect
(`server.rs:109,160,185-186`); a late or duplicated Initial after
`remove_odcid` makes a new server connection (`connection/mod.rs:3730`);
long-header packets of 16384 bytes or more get a truncated length
(`packet/mod.rs:427-431`); PUSH_PROMISE fields and trailers are not validated on
receipt; `MAX_STREAMS` may be advertised above 2^60.
