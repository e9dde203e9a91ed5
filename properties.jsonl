{"id": "C01", "title": "Varint round trip", "statement": "Writing any integer below 2^62 as a QUIC varint and decoding the result from the front of a buffer returns exactly that integer and leaves exactly the bytes that followed it; values of 2^62 and above are refused by the encoder.", "quantifier": "every value below 2^62, every buffer content after it", "why_tests_cant": "2^62 values and unbounded suffixes; tests check boundary samples", "anchors": ["neqo-common/src/codec.rs: Encoder::encode_varint, Decoder::decode_varint, Encoder::varint_len"]}
{"id": "C02", "title": "Varint decoding is total, bounded and canonical in length", "statement": "Decoding a varint from any byte string either fails, exactly when the string is shorter than the length announced by its first byte, or consumes exactly that length and yields a value below 2^62; the encoder always picks the shortest form and varint_len predicts it.", "quantifier": "every byte string, every value", "why_tests_cant": "all byte strings", "anchors": ["neqo-common/src/codec.rs: Decoder::decode_varint, Decoder::decode_n, Encoder::varint_len"]}
{"id": "C03", "title": "Length-prefixed vectors round trip", "statement": "A byte vector written with a fixed-width or varint length prefix is decoded back unchanged with the suffix intact, and writing it through the in-place closure form produces the same bytes as writing it directly.", "quantifier": "every vector, every prefix width 1..8 that can hold the length, every prior buffer contents and suffix", "why_tests_cant": "all contents and lengths", "anchors": ["neqo-common/src/codec.rs: Encoder::encode_vec, encode_vvec, encode_vec_with, encode_vvec_with, Decoder::decode_vec, decode_vvec"]}
{"id": "C04", "title": "Incremental decoding does not depend on chunking", "statement": "Feeding a varint or fixed-length blob to the incremental decoders in any division into non-empty chunks yields the same value as one-shot decoding, at the same byte position, never earlier, and never consumes bytes beyond it.", "quantifier": "every byte string and every division of it into chunks", "why_tests_cant": "exponentially many splits", "anchors": ["neqo-common/src/incrdecoder.rs: IncrementalDecoderUint::consume, IncrementalDecoderBuffer::consume, IncrementalDecoderIgnore::consume"]}
{"id": "C05", "title": "Stream reassembly delivers the right bytes in order", "statement": "For any sequence of incoming stream segments taken from one underlying byte stream (in any order, duplicated, overlapping, re-split) interleaved with reads of any sizes, the concatenation of everything the application reads is a prefix of that byte stream: no byte lost, repeated, reordered or corrupted.", "quantifier": "every sequence of segments and reads", "why_tests_cant": "unbounded interleavings and overlap patterns", "anchors": ["neqo-transport/src/recv_stream.rs: RxStreamOrderer::inbound_frame, RxStreamOrderer::read"]}
{"id": "C06", "title": "Stream reassembly delivers everything it can", "statement": "After any history of segments and reads, a read with enough space returns exactly the bytes up to the first offset that was never received; data-ready is reported exactly when a byte can be read; the advertised number of readable bytes is what a read returns.", "quantifier": "every sequence of segments and reads", "why_tests_cant": "unbounded interleavings", "anchors": ["neqo-transport/src/recv_stream.rs: RxStreamOrderer::read, bytes_ready, data_ready, read_to_end"]}
{"id": "C07", "title": "Reassembly memory is bounded against fragmentation", "statement": "With a receive window of W bytes, the number of separately buffered ranges never exceeds 4096 + W/4096, however the peer fragments, overlaps or reorders its data and however the application reads; each frame that adds a range is refused if the count would exceed 4096 plus one per 4096 bytes of span, and no frame is refused while fewer than 4096 ranges are held.", "quantifier": "every peer behaviour", "why_tests_cant": "adversarial fragmentation", "anchors": ["neqo-transport/src/recv_stream.rs: RxStreamOrderer::check_gap_limit, insert_range, inbound_frame"]}
{"id": "C08", "title": "End of stream is reported exactly once and only at the end", "statement": "A read reports fin only when all bytes up to the final size have been returned, at most once per stream, and every later read fails with no-more-data.", "quantifier": "every sequence of frames, resets, stop-sending and reads", "why_tests_cant": "histories", "anchors": ["neqo-transport/src/recv_stream.rs: RecvStream::inbound_stream_frame, read, stop_sending"]}
{"id": "C09", "title": "Final size cannot change", "statement": "Once a stream's final size is known (from fin or reset), any frame implying a different final size or data beyond it is rejected with a final-size error and no data is delivered from it.", "quantifier": "every sequence of frames", "why_tests_cant": "histories", "anchors": ["neqo-transport/src/recv_stream.rs: RecvStreamState::flow_control_consume_data, RecvStream::reset"]}
{"id": "C10", "title": "Receive limits are enforced", "statement": "Stream data is accepted only if the highest offset is within the stream limit last advertised and the total over all streams is within the connection limit last advertised; otherwise a flow-control error is reported.", "quantifier": "every frame sequence over any set of streams", "why_tests_cant": "histories over many streams", "anchors": ["neqo-transport/src/fc.rs: ReceiverFlowControl::set_consumed, consume", "neqo-transport/src/recv_stream.rs: flow_control_consume_data"]}
{"id": "C11", "title": "Receive-side credit accounting is exact", "statement": "At every point: bytes retired <= bytes received (by highest offset) <= limit, for each stream and for the connection; the connection's totals equal the sums over streams, whether data was read, abandoned or reset; when a stream ends by being read, reset or abandoned all its connection credit has been returned.", "quantifier": "every history over any set of streams", "why_tests_cant": "histories", "anchors": ["neqo-transport/src/fc.rs: ReceiverFlowControl", "neqo-transport/src/recv_stream.rs: RecvStream::flow_control_retire_data, retire_undeliverable, finish_reset, stop_sending"]}
{"id": "C12", "title": "Advertised receive limits never go backwards", "statement": "The sequence of limits carried by MAX_DATA / MAX_STREAM_DATA / MAX_STREAMS frames for one subject never decreases and never exceeds the largest varint, including after loss, window auto-tuning and application window changes.", "quantifier": "every history of receive, retire, auto-tune, loss, window change", "why_tests_cant": "histories and timing", "anchors": ["neqo-transport/src/fc.rs: ReceiverFlowControl::write_frames, frame_lost, set_max_active, auto_tune_inner, next_limit"]}
{"id": "C13", "title": "A sender never exceeds the limits it was given", "statement": "The number of bytes accepted from the application on a stream never exceeds the largest stream limit received and the sum over streams never exceeds the largest connection limit received; a smaller limit received later has no effect.", "quantifier": "every history of sends and limit updates over any set of streams", "why_tests_cant": "histories", "anchors": ["neqo-transport/src/fc.rs: SenderFlowControl", "neqo-transport/src/send_stream.rs: SendStream::send_internal, avail"]}
{"id": "C14", "title": "Blocked signals are sent once per limit", "statement": "A blocked frame is offered for sending only when blocking was reported at the current limit, at most once per limit unless that very frame was lost, and never after the limit has been raised.", "quantifier": "every history of blocked/limit/sent/lost events", "why_tests_cant": "histories", "anchors": ["neqo-transport/src/fc.rs: SenderFlowControl::blocked, blocked_needed, blocked_sent, frame_lost, update"]}
{"id": "C15", "title": "Sent-byte tracking is exact", "statement": "The tracker behaves as a per-byte map unsent/sent/acked: acknowledging marks exactly the range acked and is irrevocable, sending marks exactly the non-acked bytes of the range sent, the contiguous acked prefix it reports is exact and the first unsent range it reports is exact.", "quantifier": "every sequence of sent, acked, lost range operations with arbitrary overlaps", "why_tests_cant": "overlap patterns are unbounded", "anchors": ["neqo-transport/src/send_stream.rs: RangeTracker::mark_acked, mark_sent, coalesce_acked, first_unmarked_range, unmark_range"]}
{"id": "C16", "title": "Declaring a range lost affects only that range", "statement": "Marking bytes lost makes exactly the non-acked bytes of that range unsent and leaves every other byte as it was.", "quantifier": "every tracker state and range", "why_tests_cant": "overlap patterns", "anchors": ["neqo-transport/src/send_stream.rs: RangeTracker::unmark_range"]}
{"id": "C17", "title": "Data is never lost or altered before it is acknowledged", "statement": "Whatever the order of writes, sends, losses and acknowledgments, any data offered for (re)transmission at an offset is exactly what the application wrote at that offset, and every written byte that has not been acknowledged is still available for retransmission.", "quantifier": "every history", "why_tests_cant": "histories", "anchors": ["neqo-transport/src/send_stream.rs: TxBuffer::send, next_bytes, mark_as_acked, mark_as_lost"]}
{"id": "C18", "title": "Nothing is forgotten: unsent or lost data is always offered", "statement": "If some buffered byte is neither in flight nor acknowledged then the sender has something to send and offers the lowest such byte; if it offers nothing then every written byte is in flight or acknowledged.", "quantifier": "every history", "why_tests_cant": "histories", "anchors": ["neqo-transport/src/send_stream.rs: TxBuffer::next_bytes, is_empty, first_unmarked_range"]}
{"id": "C19", "title": "Send stream completes exactly when fully acknowledged", "statement": "The completion event for a send stream is emitted at most once, and only after the stream was closed and every byte and the fin were acknowledged.", "quantifier": "every history of writes, sends, losses, acks, resets", "why_tests_cant": "histories", "anchors": ["neqo-transport/src/send_stream.rs: SendStream::mark_as_acked, close"]}
{"id": "C20", "title": "Final size on the sending side never changes", "statement": "Once a send stream is closed or reset, the final size it announces equals the number of bytes the application wrote, no later operation changes it and no stream frame carries data beyond it; fin is set exactly on a frame ending at it.", "quantifier": "every history", "why_tests_cant": "histories", "anchors": ["neqo-transport/src/send_stream.rs: SendStream::final_size, close, reset, write_stream_frame"]}
{"id": "C21", "title": "Committed data survives a reliable reset", "statement": "After commit then reset, exactly the committed prefix stays deliverable: it remains buffered until acknowledged, nothing at or beyond the reliable size is sent, no fin is sent, and the stream ends only when both the reset and the prefix are acknowledged.", "quantifier": "every history", "why_tests_cant": "histories", "anchors": ["neqo-transport/src/send_stream.rs: SendStream::commit, reset, next_bytes, reset_acked, mark_as_acked"]}
{"id": "C22", "title": "Only received packets are acknowledged", "statement": "Every packet number covered by a generated ACK frame was received earlier in that space. Every number received and still tracked whose acknowledgement is not known to have arrived is in the frame, or is older than everything in the frame and the frame is full; the largest number received is always in the frame unless its acknowledgement arrived. A range known to have been acknowledged is not reported again unless it grew.", "quantifier": "every receive/ack/ack-of-ack history", "why_tests_cant": "histories", "anchors": ["neqo-transport/src/tracking.rs: RecvdPackets::add, write_frame, acknowledged"]}
{"id": "C23", "title": "A packet number is processed at most once", "statement": "After a packet number has been received it is reported as a duplicate forever; a number never received is reported as duplicate only if it is below a number whose range was dropped by the range limit.", "quantifier": "every history", "why_tests_cant": "unbounded histories including range trimming", "anchors": ["neqo-transport/src/tracking.rs: RecvdPackets::is_duplicate, set_received, trim_ranges"]}
{"id": "C24", "title": "ACK ranges stay well formed and bounded", "statement": "Tracked ranges are always in descending order, disjoint, separated by at least one missing number, at most 32; so generating an ACK never underflows and gaps are always legal.", "quantifier": "every history", "why_tests_cant": "histories", "anchors": ["neqo-transport/src/tracking.rs: RecvdPackets::add, trim_ranges, write_frame"]}
{"id": "C25", "title": "ACK frame encoding round trip", "statement": "Expanding a received ACK frame produces exactly the set of ranges the peer's tracker put in it, largest first; malformed ACK frames whose ranges go below zero are rejected.", "quantifier": "every list of well-formed ranges; every received frame", "why_tests_cant": "unbounded lists", "anchors": ["neqo-transport/src/tracking.rs: RecvdPackets::write_frame", "neqo-transport/src/frame.rs: Frame::decode_ack_frame"]}
{"id": "C26", "title": "ACK deadlines are honoured", "statement": "After an ack-eliciting packet is received an ACK is scheduled no later than the configured maximum delay after it, immediately when more than the tolerated number of packets are unacknowledged or when out of order (unless ignored), and sending an ACK clears the schedule.", "quantifier": "every history and timing", "why_tests_cant": "histories and times", "anchors": ["neqo-transport/src/tracking.rs: RecvdPackets::set_received, ack_now, write_frame"]}
{"id": "C27", "title": "Packet numbers survive truncation", "statement": "A receiver whose expected packet number is within the window implied by the encoded length recovers the sender's full packet number from the truncated one, and the sender always picks a length for which this holds if the receiver has seen the largest acknowledged packet.", "quantifier": "every full packet number, expected number and length", "why_tests_cant": "2^62 x lengths", "anchors": ["neqo-transport/src/packet/mod.rs: decode_pn, Builder::pn"]}
{"id": "C28", "title": "Each sent packet is resolved exactly once", "statement": "Every tracked packet is returned by acknowledgment at most once, is declared lost at most once, and never declared lost unless a later packet was acknowledged and it is at least three packets or the time threshold older; acknowledged packets are exactly the tracked ones inside the acknowledged ranges.", "quantifier": "every history of sends, acks, timeouts", "why_tests_cant": "histories", "anchors": ["neqo-transport/src/recovery/sent.rs: Packets::take_ranges, remove_expired", "neqo-transport/src/recovery/mod.rs: LossRecoverySpace::detect_lost_packets, remove_acked"]}
{"id": "C29", "title": "Bytes in flight are exact", "statement": "The congestion controller's bytes in flight always equals the sum of sizes of ack-eliciting packets sent on the current path that are neither acknowledged, lost nor discarded; it never underflows.", "quantifier": "every history", "why_tests_cant": "histories", "anchors": ["neqo-transport/src/cc/classic_cc.rs: on_packet_sent, on_packets_acked, on_packets_lost, discard", "neqo-transport/src/recovery/mod.rs"]}
{"id": "C30", "title": "Congestion window stays within bounds", "statement": "The congestion window never falls below the minimum window, is reduced at most once per recovery episode, grows only when packets are acknowledged while not application limited and not in recovery.", "quantifier": "every history", "why_tests_cant": "histories", "anchors": ["neqo-transport/src/cc/classic_cc.rs: ClassicCongestionController"]}
{"id": "C31", "title": "Probe timeout backs off exponentially and probes are bounded", "statement": "Each consecutive timeout doubles the probe period up to a cap, at most two probe packets are allowed per timeout, and any acknowledgment resets the backoff.", "quantifier": "every history", "why_tests_cant": "histories and time", "anchors": ["neqo-transport/src/recovery/mod.rs: Loss::pto_period_inner, PtoState, fire_pto, maybe_fire_pto"]}
{"id": "C32", "title": "Every outstanding packet is eventually probed", "statement": "On probe timeouts, the contents of every unacknowledged, not lost packet are handed back for retransmission exactly once.", "quantifier": "every set of outstanding packets and sequence of timeouts", "why_tests_cant": "unbounded histories", "anchors": ["neqo-transport/src/recovery/mod.rs: LossRecoverySpace::pto_packets, Loss::maybe_fire_pto", "neqo-transport/src/recovery/sent.rs: Packet::pto"]}
{"id": "C33", "title": "Anti-amplification limit", "statement": "On a path whose address is not validated, a server never sends more than three times the bytes it received on it.", "quantifier": "every send/receive history", "why_tests_cant": "histories", "anchors": ["neqo-transport/src/path.rs: Path::amplification_limit, add_received, add_sent"]}
{"id": "C34", "title": "Connection ID bookkeeping", "statement": "Every locally issued connection ID has a distinct sequence number; at most the peer's limit of IDs is active; an ID retired by the peer is replaced; a retransmitted NEW_CONNECTION_ID with a reused sequence number but different contents is rejected; every ID below retire-prior-to is retired exactly once.", "quantifier": "every history", "why_tests_cant": "histories", "anchors": ["neqo-transport/src/cid.rs: ConnectionIdStore, ConnectionIdManager", "neqo-transport/src/path.rs: Paths::retire_cids"]}
{"id": "C35", "title": "Frames round trip", "statement": "Decoding the encoding of any well-formed QUIC frame yields the same frame and consumes exactly its bytes; every byte string either decodes or is rejected.", "quantifier": "every frame value, every byte string", "why_tests_cant": "unbounded", "anchors": ["neqo-transport/src/frame.rs: Frame::decode", "neqo-transport/src/packet/mod.rs: write_varint_frame"]}
{"id": "C36", "title": "Transport parameters round trip and are validated", "statement": "Encoding then decoding a transport parameter set gives the same set; duplicates and out-of-range values are rejected; absent parameters read as their defaults.", "quantifier": "every parameter set, every byte string", "why_tests_cant": "unbounded", "anchors": ["neqo-transport/src/tparams.rs: TransportParameter, TransportParameters"]}
{"id": "C37", "title": "Stream IDs are unique, typed and limited", "statement": "Locally opened streams get strictly increasing IDs of the right type and initiator, at most as many as the peer's limit; a peer stream is accepted only below the advertised limit and opening one implicitly opens all lower-numbered ones of that type exactly once.", "quantifier": "every history of opens, limit updates and peer streams", "why_tests_cant": "histories", "anchors": ["neqo-transport/src/fc.rs: LocalStreamLimits::take_stream_id, RemoteStreamLimit", "neqo-transport/src/streams.rs: Streams::stream_create, obtain_stream", "neqo-transport/src/stream_id.rs"]}
{"id": "C38", "title": "QPACK integers round trip", "statement": "Any 64-bit integer written with any prefix size decodes to the same value consuming exactly its bytes, in any chunking; encodings that exceed 64 bits are rejected.", "quantifier": "every value, prefix length, chunking", "why_tests_cant": "unbounded", "anchors": ["neqo-qpack/src/qpack_send_buf.rs: encode_prefixed_encoded_int", "neqo-qpack/src/reader.rs: IntReader"]}
{"id": "C39", "title": "Huffman coding round trip", "statement": "Decoding the Huffman encoding of any byte string returns it; padding longer than 7 bits or not all ones, and any encoding of EOS, is rejected.", "quantifier": "every byte string", "why_tests_cant": "unbounded", "anchors": ["neqo-qpack/src/huffman.rs: encode, decode", "neqo-qpack/src/huffman_table.rs", "neqo-qpack/src/huffman_decode_helper.rs"]}
{"id": "C40", "title": "QPACK dynamic table respects its capacity and references", "statement": "The sum of entry sizes never exceeds the capacity, absolute indices are never reused and always map to the entry inserted with them, and an entry that is still referenced or not yet acknowledged is never evicted by the encoder.", "quantifier": "every history of inserts, capacity changes, references and acknowledgments", "why_tests_cant": "histories", "anchors": ["neqo-qpack/src/table.rs: HeaderTable"]}
{"id": "C41", "title": "QPACK encoder and decoder tables stay synchronised", "statement": "If the decoder processes the encoder's instruction stream, in any chunking, its table equals the encoder's table as of the same insert count, so every indexed reference resolves to the same field on both sides.", "quantifier": "every sequence of encoder operations and delays", "why_tests_cant": "histories", "anchors": ["neqo-qpack/src/encoder.rs: Encoder", "neqo-qpack/src/decoder.rs: Decoder", "neqo-qpack/src/table.rs: HeaderTable"]}
{"id": "C42", "title": "QPACK header blocks round trip", "statement": "Decoding a header block produced by the encoder against a synchronised table returns exactly the headers that were encoded, or reports blocked exactly when the required inserts have not arrived.", "quantifier": "every header list, table state", "why_tests_cant": "unbounded", "anchors": ["neqo-qpack/src/header_block.rs: HeaderEncoder, HeaderDecoder", "neqo-qpack/src/encoder.rs: encode_header_block"]}
{"id": "C43", "title": "HTTP/3 frame reading does not depend on chunking", "statement": "Feeding a byte stream of HTTP/3 frames to the frame reader in any chunking yields the same sequence of frames or the same error.", "quantifier": "every byte stream and chunking", "why_tests_cant": "exponentially many splits", "anchors": ["neqo-http3/src/frames/reader.rs: FrameReader"]}
{"id": "C44", "title": "Round-robin stream scheduling is fair", "statement": "One full pass over a group of equal-priority streams visits each stream exactly once and the next pass resumes where the last stopped, under any insertions and removals.", "quantifier": "every group and history", "why_tests_cant": "histories", "anchors": ["neqo-transport/src/send_stream.rs: OrderGroup, OrderGroupIter"]}
{"id": "C45", "title": "Push streams are handled at most once", "statement": "A push ID is delivered to the application at most once, never above the advertised maximum; after cancellation or completion it is never reported again; the maximum only increases.", "quantifier": "every history of promises, streams, cancels", "why_tests_cant": "histories", "anchors": ["neqo-http3/src/push_controller.rs: PushController, ActivePushStreams"]}
{"id": "C46", "title": "Idle timeout", "statement": "The connection is closed for idleness exactly when the timer runs a full period after the timer was last restarted; it is restarted when a packet is processed, and when an ack-eliciting packet is sent and none was since a packet was last processed. The period is the smaller idle timeout of those the two endpoints set, and at least three probe timeouts. At most one keep-alive is outstanding, and it is due before the connection closes.", "quantifier": "every event history", "why_tests_cant": "histories and time", "anchors": ["neqo-transport/src/connection/idle.rs: IdleTimeout"]}
{"id": "C47", "title": "Freed receive window is always re-advertised", "statement": "At every point either a window update frame is pending for sending, or the peer still has at least three quarters of the receive window available (or the limit is the largest encodable value); so a peer that used up its credit is never left without an update once the data has been read.", "quantifier": "every history of receive, read, loss, tuning and window growth", "why_tests_cant": "depends on all interleavings of consumption, loss and updates", "anchors": ["neqo-transport/src/fc.rs: ReceiverFlowControl::add_retired, should_send_update, frame_lost, write_frames"]}
{"id": "C48", "title": "Stream statistics are exact", "statement": "For a send stream, the number of bytes reported as written equals what the application was told was accepted; the number reported as sent is the highest offset any STREAM frame reached; everything below the number reported as acknowledged was acknowledged, and while the stream is not reset no larger number has that property. acked <= sent <= written always; written and sent never decrease, and acked does not decrease while the stream is not reset.", "quantifier": "all histories of writes, packets, losses, acknowledgements, closes and resets", "why_tests_cant": "Acknowledgements arrive for any subset of frames in any order, interleaved with losses and resets; a test fixes one order.", "anchors": ["neqo-transport/src/send_stream.rs: SendStream::bytes_written, bytes_acked, bytes_sent, mark_as_acked"]}
{"id": "C49", "title": "Stream frames fit the packet and are predicted", "statement": "The frames a send stream writes into a packet never take more room than the packet has; if the stream says it has nothing to send at a priority it writes nothing, and if it says it has something it writes at least one frame whenever the packet has room for one.", "quantifier": "all stream histories, all priorities, all remaining packet sizes", "why_tests_cant": "Depends on the combination of stream state, varint sizes of id/offset/length and remaining space; the bad cases are at exact boundaries.", "anchors": ["neqo-transport/src/send_stream.rs: has_data_at, write_frames, write_stream_frame, length_and_fill"]}
{"id": "C50", "title": "Applications are told when they can write again", "statement": "Whenever the room for writing on an open stream rises from below the application's mark to the mark or above (because the peer raised the stream's or the connection's limit or acknowledged data), a writable event for that stream is emitted.", "quantifier": "all histories over any number of streams", "why_tests_cant": "Room is the minimum of three quantities changed by different events; a lost wakeup needs a particular interleaving.", "anchors": ["neqo-transport/src/send_stream.rs: maybe_emit_writable_event, set_max_stream_data, mark_as_acked", "neqo-transport/src/streams.rs: handle_max_data, set_initial_limits"]}
{"id": "C51", "title": "A due acknowledgement can be sent", "statement": "Whenever an acknowledgement deadline has passed and there is room in a packet, an ACK frame is written, so that the deadline never stays in the past and the application is not woken again and again with nothing to do.", "quantifier": "every history and timing", "why_tests_cant": "Needs the range limit, acknowledged ACK frames and late packets to meet in one history.", "anchors": ["neqo-transport/src/tracking.rs: RecvdPackets::set_received, trim_ranges, write_frame, AckTracker::ack_time", "neqo-transport/src/connection/mod.rs: next_delay"]}
{"id": "C52", "title": "Loss recovery never panics and its loss statistics never underflow", "statement": "Whatever is sent, acknowledged, timed out, migrated or discarded, no call into loss recovery hits an assertion, and the counts of lost and late-acknowledged packets and of bytes in flight never go below zero.", "quantifier": "every history of calls the connection can make", "why_tests_cant": "histories", "anchors": ["neqo-transport/src/recovery/mod.rs: Loss", "neqo-transport/src/cc/classic_cc.rs: ClassicCongestionController", "neqo-transport/src/recovery/sent.rs: Packets"]}
{"id": "C53", "title": "Packet protection stays within its limits", "statement": "An endpoint never protects two packets with the same key and packet number, packet numbers only increase, no key protects more packets than its AEAD allows, and no more packets fail authentication over the connection than the AEAD allows.", "quantifier": "every history of key installation, 0-RTT acceptance or rejection, sending, receiving, key updates and timers, for each AEAD", "why_tests_cant": "limits are 2^28 to 2^64; all interleavings of key updates and sending", "anchors": ["neqo-transport/src/crypto.rs: CryptoDxState, CryptoStates", "neqo-transport/src/packet/mod.rs: Public::decrypt", "neqo-transport/src/connection/mod.rs: output_dgram_on_path"]}
{"id": "C54", "title": "Key updates are orderly", "statement": "Write keys are of the same generation as read keys or one ahead; everything sent after opening a packet of some generation uses that generation or a newer one; keys are updated again only when the peer has been seen to use every earlier generation, and by the application only after a packet of the present generation is acknowledged; packets of newer generations have higher numbers; an update by the peer is accepted, packets it overtook are too, and none of this hits an assertion.", "quantifier": "every history of sending, receiving (any packets, in any order), key updates on both sides and timers", "why_tests_cant": "reordering across key updates and timers", "anchors": ["neqo-transport/src/crypto.rs: CryptoStates::initiate_key_update, key_update_received, check_key_update, check_pn_overlap", "neqo-transport/src/packet/mod.rs: Public::decrypt"]}
{"id": "C55", "title": "Path validation", "statement": "A path counts as valid only because the answer to the last challenge sent on it arrived, the handshake proved the address, or the client's own application chose it; every PATH_RESPONSE sent repeats a PATH_CHALLENGE received on the same path; validation of a path goes on until it succeeds or fails and takes at most six challenges; when the path in use fails a valid one replaces it or the connection closes.", "quantifier": "every history of datagrams, migrations, timers and packets, for both roles", "why_tests_cant": "interleavings of probing, loss, migration and timers", "anchors": ["neqo-transport/src/path.rs: Path, Paths", "neqo-transport/src/connection/mod.rs: migrate, handle_migration, ensure_permanent"]}
{"id": "C56", "title": "The set of network paths stays consistent", "statement": "At most 15 paths are in use, with distinct address pairs, each with a connection ID of the peer; from the first path on exactly one is primary and there is a path to send on; no event makes an assertion fail.", "quantifier": "every history of datagrams, migrations, connection ID changes, timers and packets, for both roles", "why_tests_cant": "interleavings of eviction, retirement, migration and timers", "anchors": ["neqo-transport/src/path.rs: Paths", "neqo-transport/src/connection/mod.rs: ensure_permanent, setup_handshake_path"]}
{"id": "C57", "title": "Scheduler bookkeeping of send streams", "statement": "Whatever the application asks for (creating streams, switching fairness, setting send orders and send groups) and whatever is sent, acknowledged or reset, each fair stream is queued exactly once, in the group and with the order last set for it, streams that are not fair are not queued, ended streams and only those are removed, and no call panics: a call that cannot be honoured reports an error and changes nothing.", "quantifier": "all histories of calls on the send stream table, all stream contents and packet sizes", "why_tests_cant": "The queues are changed from several entry points in any order; a stale or missing entry appears only after particular interleavings of settings, sending and removal.", "anchors": ["neqo-transport/src/send_stream.rs: SendStreams", "neqo-transport/src/send_stream.rs: OrderGroup", "neqo-transport/src/connection/mod.rs: stream_sendorder, stream_sendgroup, stream_fairness"]}
{"id": "C58", "title": "Send order and filling of packets", "statement": "When a packet is filled, streams without fairness are offered it first in order of creation. Within a group, a fair stream is offered the packet only if every fair stream of the group with a higher order has just declined it; a packet is left with room only when every fair stream has been offered the room; and filling a packet always ends.", "quantifier": "all reachable states of the send stream table, all packet sizes, all stream contents", "why_tests_cant": "Depends on the order in which many streams with different settings run dry within one packet; tests only sample a few layouts.", "anchors": ["neqo-transport/src/send_stream.rs: SendStreams::write_frames", "neqo-transport/src/send_stream.rs: OrderGroup::iter"]}
{"id": "C59", "title": "Rejected early data leaves no trace", "statement": "When the server rejects 0-RTT, the client behaves as if it had sent no early data: its streams are gone, stream numbers start again, the limits on streams and the credit of streams and of the connection are those of the server's new transport parameters, and nothing that was counted for the rejected data counts any more.", "quantifier": "every history of a client before the server's first frames, every old and new set of transport parameters", "why_tests_cant": "Depends on what was created, written, blocked and lost in the early data and on how the remembered and the new limits compare; a leftover shows only later, as lost credit or as an exceeded limit.", "anchors": ["neqo-transport/src/streams.rs: Streams::zero_rtt_rejected, Streams::set_initial_limits", "neqo-transport/src/connection/mod.rs: Connection::client_0rtt_rejected"]}
{"id": "C60", "title": "Frames written are the frames meant and fit", "statement": "Each frame that is added to a packet is a well-formed encoding of the frame that was meant, with the values that were meant, and takes no more than the space left in the packet. Frames that cannot be split are added whenever they fit; CRYPTO and STREAM take a beginning of the data, with the end-of-stream mark exactly when it is reached; nothing is added to a packet that a frame has filled.", "quantifier": "all values of all fields, all amounts of data, all amounts of space left", "why_tests_cant": "The space left depends on everything before the frame, and lengths of integers change at boundaries; only a proof covers every combination.", "anchors": ["neqo-transport/src/packet/mod.rs: write_varint_frame", "neqo-transport/src/send_stream.rs: SendStream::write_stream_frame", "neqo-transport/src/send_stream.rs: length_and_fill", "neqo-transport/src/crypto.rs: CryptoStreams::write_frame", "neqo-transport/src/quic_datagrams.rs: write_frames", "neqo-transport/src/tracking.rs: write_frame", "neqo-transport/src/cid.rs: write", "neqo-transport/src/connection/state.rs: ClosingFrame::write_frame"]}
{"id": "C61", "title": "Frames only where they belong", "statement": "A packet is processed only if it consists of valid frames, at least one, each allowed in packets of that type, and a frame that is allowed is accepted. The packet counts as asking for an acknowledgment, or as only probing a path, exactly if the RFC says so for its frames. An error reported for a frame names the type of that frame.", "quantifier": "all payloads, all packet types", "why_tests_cant": "There are too many combinations of frames and packet types, and payloads are unbounded.", "anchors": ["neqo-transport/src/frame.rs: Frame::is_allowed", "neqo-transport/src/frame.rs: Frame::ack_eliciting", "neqo-transport/src/frame.rs: Frame::path_probing", "neqo-transport/src/frame.rs: Frame::get_type", "neqo-transport/src/connection/mod.rs: Connection::process_packet"]}
{"id": "C62", "title": "QPACK strings round trip", "statement": "A string that is written on a QPACK stream or in a header block, with or without Huffman coding, is read as the same string, in any pieces, and exactly its bytes are taken. A string of more than 384 KiB is refused as soon as its length is known.", "quantifier": "all strings, prefixes and ways of cutting the bytes in pieces", "why_tests_cant": "Strings and the ways of cutting them are unbounded.", "anchors": ["neqo-qpack/src/qpack_send_buf.rs: encode_literal", "neqo-qpack/src/reader.rs: LiteralReader", "neqo-qpack/src/reader.rs: ReceiverBufferWrapper::read_literal_from_buffer"]}
{"id": "C63", "title": "QPACK references are given back", "statement": "Once the decoder's instructions have arrived, the encoder holds on to table entries only for field sections that were not decoded yet: a section that was decoded, or whose stream was given up, no longer keeps entries from being evicted. The encoder keeps track of no more streams than it was told to.", "quantifier": "every history of field sections, losses of streams and delays", "why_tests_cant": "Whether an entry stays referenced depends on the order of cancellations, acknowledgments and instructions under way.", "anchors": ["neqo-qpack/src/encoder.rs: header_ack, stream_cancellation", "neqo-qpack/src/decoder.rs: cancel_stream, header_ack"]}
{"id": "C64", "title": "QPACK blocked streams stay within the limit", "statement": "The number of streams with a field section that the decoder cannot decode yet never exceeds the limit that the decoder announced, so an honest encoder never makes the decoder fail.", "quantifier": "every history of field sections and every order and delay in which streams and instructions arrive", "why_tests_cant": "The encoder must count streams whose state at the decoder it cannot see.", "anchors": ["neqo-qpack/src/encoder.rs: encode_header_block, recalculate_blocked_streams", "neqo-qpack/src/decoder.rs: decode_header_block"]}
{"id": "C65", "title": "A QPACK peer cannot crash an endpoint", "statement": "No bytes that a peer sends on its QPACK encoder or decoder stream, no field section that it sends, and no settings, in whatever order and pieces they arrive, make the QPACK encoder or decoder panic: the input is used, waits for more, or is answered with a connection error. That includes integers and lengths that overflow, references to entries that never existed or were evicted, acknowledgments and cancellations of sections that were never sent, and required insert counts out of range.", "quantifier": "all histories of an encoder or a decoder, with arbitrary bytes from the peer at every step", "why_tests_cant": "Fuzzing samples the inputs; the state in which a bad input arrives is a product of all that came before, and only an invariant covers all of them.", "anchors": ["neqo-qpack/src/decoder.rs:Decoder::receive", "neqo-qpack/src/decoder.rs:decode_header_block", "neqo-qpack/src/encoder.rs:Encoder::receive", "neqo-qpack/src/reader.rs:IntReader::read", "neqo-qpack/src/header_block.rs:HeaderDecoder", "neqo-qpack/src/table.rs:HeaderTable"]}
{"id": "C66", "title": "HTTP/3 settings are understood as they were sent", "statement": "Whatever settings an application configures are read by the peer with exactly those values, including switches that are not written because they are off; a SETTINGS payload is accepted exactly if it consists of complete pairs, has no reserved identifier and no switch other than 0 or 1, and each setting then has the value sent first for it or its default; a second SETTINGS frame is refused; and a valid first SETTINGS frame does not close the connection.", "quantifier": "all configurations and all byte strings a peer may send as settings", "why_tests_cant": "the payload is an arbitrary sequence of varint pairs in any order, with unknown identifiers and repetitions", "anchors": ["neqo-http3/src/settings.rs: HSettings::encode_frame_contents", "neqo-http3/src/settings.rs: HSettings::decode_frame_contents", "neqo-http3/src/settings.rs: HSettings::get", "neqo-http3/src/connection.rs: Http3Connection::handle_settings"]}
{"id": "C67", "title": "0-RTT is used only with HTTP/3 settings that still hold", "statement": "A server accepts early data for a ticket it issued exactly if no setting it had promised has been reduced since; a client that sent early data with remembered settings continues only if the server's new settings reduce none of them; and whenever the server accepts early data the client accepts the server's settings.", "quantifier": "all pairs of configurations, before and after, of a server, and all tickets", "why_tests_cant": "it relates two runs of a server with arbitrary configurations and the client's memory of the first", "anchors": ["neqo-http3/src/settings.rs: HttpZeroRttChecker::save", "neqo-http3/src/settings.rs: HttpZeroRttChecker::check", "neqo-http3/src/connection.rs: Http3Connection::handle_settings"]}
{"id": "C68", "title": "HTTP/3 frames are read as they were written", "statement": "Whatever sequence of frames an endpoint writes to an HTTP/3 stream, a WebTransport session stream or a stream of capsules, the peer reads the same frames with the same contents in the same order, and the same DATA payload, however the bytes are divided on the way; frames of random reserved types have no effect.", "quantifier": "all sequences of frames, all contents, all divisions of the bytes", "why_tests_cant": "unbounded sequences and contents, and every division into pieces", "anchors": ["neqo-http3/src/frames/hframe.rs: HFrame::encode", "neqo-http3/src/frames/wtframe.rs: WebTransportFrame::encode", "neqo-http3/src/frames/capsule.rs: Capsule::encode", "neqo-http3/src/frames/reader.rs: FrameReader::receive"]}
{"id": "C69", "title": "A request or response is sent as it was given", "statement": "Whatever calls an application makes to send headers, body, trailers and the end of a message, and however little room the stream has at each of them, no call panics, the peer reads exactly the field sections and body bytes that the calls reported as accepted, in order, the accepted parts always have the order of a message, body is accepted whenever the stream has room for at least a frame of one byte, and the stream is ended exactly when the message has ended and all of it was handed over.", "quantifier": "all sequences of calls, all contents, all amounts of available space at every call", "why_tests_cant": "the frame size chosen depends on the space available, the buffered rest and the length of the body, over all sequences of calls", "anchors": ["neqo-http3/src/send_message.rs: SendMessage::send_data", "neqo-http3/src/send_message.rs: SendMessage::send_headers", "neqo-http3/src/send_message.rs: SendMessage::close", "neqo-http3/src/buffered_send_stream.rs: BufferedStream::send_buffer"]}
{"id": "C70", "title": "The kind of a stream is recognised from its head", "statement": "However the first bytes of a stream opened by the peer are divided into pieces, the stream is recognised as the control, QPACK, push, WebTransport, request or unknown stream that its type (and the push or session ID after it) says, the bytes after the head are left on the stream, a type not allowed for the role is refused with the error for it, nothing is decided before the head is complete, and the end of the stream after the head changes nothing.", "quantifier": "all byte sequences, all divisions into pieces, both roles, unidirectional and bidirectional streams, with or without the end of the stream", "why_tests_cant": "every division of every head, with the end arriving with or after any piece", "anchors": ["neqo-http3/src/stream_type_reader.rs: NewStreamHeadReader::get_type", "neqo-http3/src/stream_type_reader.rs: NewStreamHeadReader::read", "neqo-http3/src/stream_type_reader.rs: NewStreamType::final_stream_type"]}
{"id": "C71", "title": "A request or response is received as it was sent", "statement": "However the bytes of a request or response stream are divided, whenever insertions into the QPACK table arrive, and whatever sizes the application reads with, the application gets the header sections and the bytes of the body that were sent, in order, nothing changed, repeated or left out; when it is told of the end it has the whole message; whatever can be passed on is passed on by the next read; a stream is refused only for what is wrong with its contents; promises are passed on in order with the fields that were sent; and no input makes it panic.", "quantifier": "all byte sequences, all divisions, all interleavings of arrivals, table insertions and reads, all buffer sizes, both roles", "why_tests_cant": "every interleaving of stream pieces, QPACK insertions and reads of every size", "anchors": ["neqo-http3/src/recv_message.rs: RecvMessage::receive_internal", "neqo-http3/src/recv_message.rs: RecvMessage::read_data", "neqo-http3/src/recv_message.rs: RecvMessage::header_unblocked"]}
{"id": "C72", "title": "Malformed header sections are refused and others passed on", "statement": "A header section received in a request or response is accepted exactly when it keeps the rules for messages: pseudo-header fields first, each defined for the message and present at most once, the required ones present, no forbidden characters in names or values, no fields that belong to an HTTP/1.1 connection. What is accepted is passed on unchanged (without host and te in a response), and a response counts as interim exactly when its status is between 100 and 199.", "quantifier": "all lists of fields with any bytes in names and values, requests and responses", "why_tests_cant": "all combinations, orders and repetitions of fields and contents", "anchors": ["neqo-http3/src/headers_checks.rs: headers_valid", "neqo-http3/src/headers_checks.rs: track_pseudo", "neqo-http3/src/headers_checks.rs: is_interim", "neqo-http3/src/recv_message.rs: RecvMessage::add_headers"]}
{"id": "C73", "title": "Packets are read as they were written", "statement": "Writing a packet into a datagram never fails unexpectedly: either there is no room, and giving up leaves the datagram as it was, or the result is what was there before followed by the packet in the format of RFC 9000, 9001 and 9369 (header with version-specific type bits, connection IDs, token and length, payload sealed with the header as associated data, first byte and packet number masked), padded so that there is enough for the header protection sample, and within the limit plus the tag. Reading any packet in that format, whichever encoding its lengths use and also behind a SCONE packet, and opening it with the matching keys gives back its type, version, packet number (when it is near the expected one), connection IDs, token, key phase and payload, and leaves exactly what follows it. All packets coalesced in a datagram with the same connection ID are read, also behind packets that cannot be opened. Reading arbitrary bytes never panics and only gives pieces of what arrived.", "quantifier": "all packet types, versions, connection IDs, tokens, packet numbers and lengths, payloads, limits, ciphers with a 16-byte tag; all byte strings for the reader", "why_tests_cant": "all combinations of header fields, random bits, length encodings and payload sizes, coalesced in any number", "anchors": ["neqo-transport/src/packet/mod.rs: Builder", "neqo-transport/src/packet/mod.rs: Public::decode", "neqo-transport/src/packet/mod.rs: Public::decrypt", "neqo-transport/src/connection/mod.rs: build_packet_header", "neqo-transport/src/connection/mod.rs: input_path"]}
{"id": "C74", "title": "Accepted packets are the ones the peer protected", "statement": "If a key opens only what was sealed with it, then every packet a connection accepts from whatever bytes arrive was sent by the holder of that key: its type, version, packet number, connection IDs, token, key phase and payload are those of one packet that was sealed; none of these can be changed on the way or mixed from several packets.", "quantifier": "all received byte strings, all sets of packets that were protected, all keys", "why_tests_cant": "all modifications, truncations and recombinations of datagrams", "anchors": ["neqo-transport/src/packet/mod.rs: Public::decode_inner", "neqo-transport/src/packet/mod.rs: Public::decrypt_header", "neqo-transport/src/packet/mod.rs: Public::decrypt"]}
{"id": "C76", "title": "Client and server agree on the version and on connection IDs", "statement": "Whatever packets an attacker drops, reorders or forges before keys exist, a client that reports being connected has checked that the connection IDs and the version in use are the ones that the server authenticated. If TLS delivers to each side the transport parameters the other sent, then both have the same version, the client sends to the server's connection ID, both agree whether a Retry was used and with which connection ID, and the version is the server's favourite among those compatible with the client's first choice, or, after Version Negotiation, with the client's own favourite among all versions of the server: no downgrade is possible. If they have a version in common, the two can connect. No packet makes either side panic.", "quantifier": "all client and server version configurations, all sequences of Version Negotiation, Retry, Initial and Handshake packets at each side, all connection IDs", "why_tests_cant": "all interleavings of forged, replayed and genuine packets in all version configurations", "anchors": ["neqo-transport/src/connection/mod.rs: version_negotiation", "neqo-transport/src/connection/mod.rs: handle_retry", "neqo-transport/src/connection/mod.rs: validate_versions", "neqo-transport/src/connection/mod.rs: validate_cids", "neqo-transport/src/connection/mod.rs: compatible_upgrade", "neqo-transport/src/tparams.rs: TransportParametersHandler::compatible_upgrade", "neqo-transport/src/version.rs: Config"]}
{"id": "C75", "title": "Retry and Version Negotiation packets say what the server means", "statement": "Retry and Version Negotiation packets are written in the format of RFC 9000, 9001 and 9369 and are read back exactly: connection IDs, token, version list. A Version Negotiation packet lists the server's versions plus one reserved version that is neither the client's nor any known one. A client takes a Retry as valid exactly if its integrity tag is the one for all its fields and the connection ID the client sent to; the token is then not empty. Reading arbitrary bytes as such packets never panics.", "quantifier": "all versions, connection IDs, tokens, tags, version lists and random bytes; all byte strings for the reader", "why_tests_cant": "all field values and all corruptions of packets", "anchors": ["neqo-transport/src/packet/mod.rs: Builder::retry", "neqo-transport/src/packet/mod.rs: Builder::version_negotiation", "neqo-transport/src/packet/mod.rs: Public::is_valid_retry", "neqo-transport/src/packet/mod.rs: Public::supported_versions"]}
{"id": "C77", "title": "Address validation tokens are genuine, fresh and passed on", "statement": "A server takes an address as validated by a Retry token only if it made this token itself, for this very address and port, not more than five seconds ago, and then gets back the connection ID that the client first sent to; it takes one as validated by a NEW_TOKEN token only if it made the token for this IP address not more than a day ago and it does not ask for validation of every address. Genuine tokens that come back in time are accepted. No token makes the server panic. A client only uses tokens that it got, newest first, and none again while it is among the last eight used. A server keeps each token it wants to send until it is acknowledged, sends it again each time it is lost, and only in frames that fit.", "quantifier": "all tokens, addresses, times and histories of issued tokens; all sequences of saving and taking at the client; all sequences of sending, loss and acknowledgment at the server", "why_tests_cant": "all forged, stale or misused tokens and all loss patterns", "anchors": ["neqo-transport/src/addr_valid.rs: AddressValidation", "neqo-transport/src/addr_valid.rs: NewTokenState", "neqo-transport/src/addr_valid.rs: NewTokenSender"]}
{"id": "C78", "title": "A server passes datagrams to the right connections and answers the others", "statement": "Whatever datagram arrives at a server, exactly one of these happens: it is ignored; it is passed to one connection that has its connection ID; a Version Negotiation packet or a Retry packet goes back to its sender; or there is one new connection. No other connection is touched. A datagram for a known connection always reaches it. Only datagrams of at least 1200 bytes are answered or open a connection, and only an Initial packet of an enabled version opens one; if every address is to be validated, only one with a fresh token for its address. Datagrams are handled in order of arrival, each once, also when some of them have to wait for the next call. No sequence of calls makes the server panic. With nothing left to read, the server sends what the first willing connection wants to send, or asks to be called at the first time at which one of its connections wants that, and only forgets closed connections.", "quantifier": "all sequences of calls, with all datagrams and times, for all behaviours of the connections", "why_tests_cant": "all datagrams, all interleavings of connections", "anchors": ["neqo-transport/src/server.rs: Server::process_multiple", "neqo-transport/src/server.rs: Server::process_input", "neqo-transport/src/server.rs: Server::handle_initial", "neqo-transport/src/server.rs: Server::accept_connection", "neqo-transport/src/server.rs: Server::process_next_output"]}
{"id": "C79", "title": "Datagrams are sent in order, whole and once, or their loss is reported", "statement": "An application that sends datagrams has each of them written to exactly one packet, in the order in which they were handed over, with exactly its bytes, or is told (if it gave an identifier) that it was dropped: because the queue was full, in which case the oldest is dropped, or because it does not fit into an otherwise empty packet. A datagram longer than the peer accepts is refused when it is handed over. A datagram that the peer sends is delivered with exactly its bytes if it is not longer than what was announced, and the connection is closed otherwise.", "quantifier": "all sequences of sends, packets with any room, and arrivals", "why_tests_cant": "all mixes of datagram sizes, packet sizes and queue lengths", "anchors": ["neqo-transport/src/quic_datagrams.rs: QuicDatagrams::write_frames", "neqo-transport/src/quic_datagrams.rs: QuicDatagrams::add_datagram", "neqo-transport/src/quic_datagrams.rs: QuicDatagrams::handle_datagram"]}
{"id": "C80", "title": "Path MTU discovery never exceeds its limits and finds the largest size that works", "statement": "While a connection searches for the largest packet size that a path can carry, the size it uses and the sizes it probes are entries of its table and, above the starting size, within the limits of the interface and of the peer; a larger size than the starting one is used only if a probe of that size was acknowledged; at most three probes of each size are sent in a search; and on a path that carries exactly the packets up to some size, a finished search gives the largest size of the table that fits.", "quantifier": "all histories of probes sent, acknowledged and lost, timers and restarts", "why_tests_cant": "all orders of losses, acknowledgments and restarts", "anchors": ["neqo-transport/src/pmtud.rs: Pmtud::on_packets_acked", "neqo-transport/src/pmtud.rs: Pmtud::on_packets_lost", "neqo-transport/src/pmtud.rs: Pmtud::next", "neqo-transport/src/pmtud.rs: Pmtud::start", "neqo-transport/src/pmtud.rs: Pmtud::send_probe", "neqo-transport/src/pmtud.rs: Pmtud::maybe_fire_raise_timer"]}
{"id": "C81", "title": "ECN marks are used only on paths that pass them on, and congestion is reported", "statement": "A path on which validation of explicit congestion notification failed never marks packets again; before validation succeeds, at most nine packets and one batch are marked; after the test phase, an acknowledgment that raises the largest acknowledged number decides validation by exactly the rules for the counts, and others change nothing; a congestion signal is given exactly if the counts are valid and the congestion count grew; and with a path that keeps the marks and a peer that counts correctly, whose acknowledgments arrive in order, validation fails only because marked packets of the test were lost.", "quantifier": "all histories of packets sent, acknowledged and lost, with any counts reported by the peer", "why_tests_cant": "all combinations of counts, losses and orders of acknowledgment", "anchors": ["neqo-transport/src/ecn.rs: Info::validate_ack_ecn_and_update", "neqo-transport/src/ecn.rs: Info::on_packet_sent", "neqo-transport/src/ecn.rs: Info::lost_ecn", "neqo-transport/src/ecn.rs: Info::on_packets_acked", "neqo-transport/src/ecn.rs: Info::is_marking"]}
{"id": "C82", "title": "Pacing limits the rate and the burst", "statement": "With pacing, the bytes sent in any interval are at most a burst and what the paced rate allows for that interval, where the rate is twice the congestion window per round-trip time; and a sender that has to wait is told a time at which it may send.", "quantifier": "all sequences of packets and times", "why_tests_cant": "all schedules of sending, of any length", "anchors": ["neqo-transport/src/pace.rs: Pacer::next", "neqo-transport/src/pace.rs: Pacer::spend", "neqo-transport/src/pace.rs: Pacer::set_mtu"]}
{"id": "C83", "title": "Requests for fewer acknowledgments are sane, ordered and reflected in timeouts", "statement": "With a peer that supports ACK_FREQUENCY, every request asks for an acknowledgment of at least every 256th packet, within 50 ms and not sooner than the peer said it can; requests on a path have increasing sequence numbers and at most one is on its way; one is sent exactly if what the peer does differs enough from what is wanted; and the delay that probe timeouts allow for is at least the one that the peer uses.", "quantifier": "all transport parameters of the peer and all histories of window changes, packets, acknowledgments and losses", "why_tests_cant": "all parameters, and all orders of window changes, acknowledgments and losses", "anchors": ["neqo-transport/src/ackrate.rs: AckRate::new", "neqo-transport/src/ackrate.rs: AckRate::needs_update", "neqo-transport/src/ackrate.rs: FlexibleAckRate::write_frames", "neqo-transport/src/ackrate.rs: FlexibleAckRate::update", "neqo-transport/src/ackrate.rs: FlexibleAckRate::peer_ack_delay"]}
{"id": "C84", "title": "Events reach the application in order, once, and not when they no longer apply", "statement": "The events of a connection are delivered in the order in which they happened, none more often than it happened, and no two alike wait at the same time (except datagrams and their outcomes, which are all delivered, each once). An event that happened is delivered unless something made it irrelevant: a reset or completed stream, a stopped stream, newer rate advice, a rejection of 0-RTT or the closing of the connection; and what was made irrelevant is not delivered. When a connection is closing, that is what the application is told next.", "quantifier": "all sequences of events and of polls by the application", "why_tests_cant": "all interleavings of events and polls", "anchors": ["neqo-transport/src/events.rs: ConnectionEvents::insert", "neqo-transport/src/events.rs: ConnectionEvents::remove", "neqo-transport/src/events.rs: ConnectionEvents::connection_state_change", "neqo-transport/src/events.rs: ConnectionEvents::client_0rtt_rejected", "neqo-transport/src/events.rs: ConnectionEvents::send_stream_complete"]}
{"id": "C85", "title": "Handshake messages are delivered in order and in full, within bounded memory", "statement": "The messages that TLS hands over in an encryption level are sent in CRYPTO frames that carry its bytes at their offsets and fit in the packet; no acknowledged byte is sent again, without loss no byte is sent twice, and nothing is forgotten: each byte is acknowledged, on its way, or going to be sent, and a packet with room takes more of it. What the peer's TLS receives is a prefix of what was written, and all of it once it has arrived. At most 65536 bytes are stored while they wait for earlier ones, the levels do not affect each other, and no sequence of calls panics. Not guaranteed: frames that overlap are counted once per copy, so that a peer may be refused although little has to be stored (RFC 9000, section 7.5 asks for 4096 bytes); messages beyond 10 MiB are dropped silently.", "quantifier": "all sequences of messages, packets of any size, acknowledgments, losses, probe timeouts and received frames in any order and with any overlap, in three levels", "why_tests_cant": "loss, reordering and overlapping retransmission give unboundedly many histories; the tests try a few", "anchors": ["neqo-transport/src/crypto.rs: CryptoStreams", "neqo-transport/src/crypto.rs: write_frame", "neqo-transport/src/connection/mod.rs: input_frame"]}
{"id": "C86", "title": "The server name is found in the ClientHello, or nothing is", "statement": "The search for the server name in the first bytes of a handshake never panics and returns a range inside the message; for every well-formed ClientHello with a server_name extension it returns exactly the bytes of the host name, and for one without the extension, or for another kind of message, it returns nothing.", "quantifier": "all byte strings; all well-formed ClientHello messages with any other extensions", "why_tests_cant": "the tests use a few captured messages; the parser runs on untrusted lengths in every position", "anchors": ["neqo-transport/src/sni.rs: find_sni"]}
{"id": "C87", "title": "Packets are put together into datagrams as the protocol asks", "statement": "A datagram produced by the connection is never larger than the limit of the send profile (which is at most the path MTU), or than the size of the path MTU probe while one is wanted. It holds at least one packet, in the order Initial, Handshake, application data with at most one of each, a packet with a short header only at the end, and every byte of it is reported to loss recovery. A client's datagram with an Initial packet, and a server's with an ack-eliciting one, is padded at least to the limit of the send profile. If all packets have long headers, or the short one is ack-eliciting and a full-size datagram is allowed, the receiver finds exactly the packets that were sent. A packet tagged as a path MTU probe is alone in a datagram of exactly the size probed for. With SCONE, a client's datagram that holds only an Initial packet ends with the indication. Initial and Handshake keys are discarded exactly when the packet that ends their use is sent. If the frame writers keep to the space they are given, no error arises and something is sent when there is something to send in 1-RTT packets.", "quantifier": "all roles, states of the handshake, keys, header lengths, send profiles, path MTUs and probe sizes, and whatever the frame writers put into the space they are given", "why_tests_cant": "Sizes of packets in the three spaces, the limits of congestion control, pacing and amplification, padding, probes and coalescing interact; tests cover a few combinations with particular contents.", "anchors": ["neqo-transport/src/connection/mod.rs: output_dgram_on_path, write_frames, maybe_probe, pad_initial, build_packet_header", "neqo-transport/src/packet/mod.rs: Builder", "neqo-transport/src/recovery/mod.rs: SendProfile, Loss::send_profile"]}
{"id": "C88", "title": "Batches of datagrams suit segmentation offload", "statement": "A batch of datagrams that the connection hands out has at least one datagram and at most as many as the caller allows. All its datagrams have the same size, except that the last may be smaller. The whole is not larger than the largest MTU of the address family, and, if no path MTU probe is wanted, not larger than the largest UDP payload. Only the first datagram can be larger than the path MTU or carry a closing frame. Making a batch never underflows and never fails its checks.", "quantifier": "all sequences of connection states between datagrams, all path MTUs, numbers of datagrams and contents", "why_tests_cant": "The batch depends on the size of every datagram made so far and on probes becoming due between datagrams; a batch with unequal sizes is cut at wrong places by the kernel and all its packets are lost.", "anchors": ["neqo-transport/src/connection/mod.rs: output_dgram_batch_on_path", "neqo-transport/src/pmtud.rs: address_family_max_mtu, MTU_SIZES_V4, MTU_SIZES_V6"]}
{"id": "C89", "title": "A connection closes once, says why, and stays closed", "statement": "Whatever datagrams arrive, whatever the application calls and whichever timers expire, in any order: the state that the application sees only moves forward (except for a new start after Version Negotiation), each announcement tells of a later state and the last tells the present one. A connection that is closing, draining or closed never works again, opens no streams in later steps and sends nothing but CONNECTION_CLOSE: at most one, and one more for each datagram that arrives while closing and for each further call to close; they all have the same reason unless the application closes again. Closing by the application, by an error in a packet or by the peer leads to the state with the right reason and the right end; the state ends then, and the connection asks to be called at that time. A datagram ending in the stateless reset token of the peer, of which no packet can be handled, ends a connection that is up, nothing else does, and nothing is sent after it. Desired and not true: that no step fails an assertion, that a draining connection sends nothing after the application closes, and that the reason stays the first; these hold in the cases stated.", "quantifier": "all sequences of datagrams (any packets and frames), calls, timers and answers of TLS, loss recovery and the frame writers", "why_tests_cant": "Tests close a connection at a few moments; here every moment, every order of frames in a packet and every combination of timers counts.", "anchors": ["neqo-transport/src/connection/state.rs: State, StateSignaling", "neqo-transport/src/connection/mod.rs: set_state, capture_error, close, process_timer, preprocess_packet, check_stateless_reset, output, next_delay"]}
{"id": "C90", "title": "A connection is up only after its handshake", "statement": "A connection is announced as connected only in a step in which TLS completes the handshake. A server confirms the handshake and owes HANDSHAKE_DONE from then on; the next 1-RTT packet carries it, and again after a loss. A client confirms only on HANDSHAKE_DONE from the server on a connection that is connected. HANDSHAKE_DONE is sent only by a server and only after completion; received by a server, or by a client before completion, it is an error of the peer; a second one changes nothing. A client without 0-RTT cannot make a stream before completion.", "quantifier": "all histories of datagrams, calls, timers, losses and answers of TLS", "why_tests_cant": "The order of certificate decisions, late packets, losses and closing is arbitrary; a test runs a few orders.", "anchors": ["neqo-transport/src/connection/mod.rs: handshake, set_connected, set_confirmed, input_frame, handle_keys_discarded, stream_create", "neqo-transport/src/connection/state.rs: StateSignaling"]}
{"id": "C91", "title": "HTTP/3 has one of each critical stream, SETTINGS come first and once, states go forward", "statement": "Whatever the peer sends and whatever the application calls, in any order: the peer has at most one control stream and at most one QPACK stream of each kind, and they are unidirectional; a second one closes the connection. They stay until the connection closes or 0-RTT is rejected; the peer closing one, or stopping one of ours, closes the connection with H3_CLOSED_CRITICAL_STREAM, and the application cannot reset or stop them. The first frame of the control stream must be SETTINGS, a second SETTINGS closes the connection, and settings once taken stay. After 0-RTT the new settings are compared with the remembered ones and smaller ones close the connection. A bidirectional stream of a server and a push stream of a client close the connection. After 0-RTT is rejected nothing of the attempt is left. The state the application sees only goes forward. Desired and not true: that the setting which allows extended CONNECT is compared as well; that a server closes only once.", "quantifier": "all histories of streams opened, read, reset and stopped by the peer, transport states, and calls of the application, on clients and servers", "why_tests_cant": "The order of streams, frames, resets and calls is chosen by the peer and the application; tests run a few orders.", "anchors": ["neqo-http3/src/connection.rs: handle_new_stream, check_stream_exists, handle_control_frame, handle_settings, handle_state_change, handle_stream_reset, handle_stream_stop_sending", "neqo-http3/src/connection_client.rs: check_connection_events, handle_stream_readable, close", "neqo-http3/src/connection_server.rs: check_connection_events, handle_stream_readable, close"]}
{"id": "C92", "title": "Requests are made on new streams, and GOAWAY draws a line", "statement": "A client can make a request or ask for a session only while the connection is up or in 0-RTT; otherwise nothing changes. A request is made on the stream that the transport gives, both halves of it are handled, and no other stream is touched. A GOAWAY must name a bidirectional stream of the client (otherwise H3_ID_ERROR) and must not be above the one before. After a GOAWAY the application is told, no bidirectional stream from the one it names on is left, requests among them are reported as rejected, requests below it and the critical streams are untouched; and as long as the connection goes on there is never a request at or above the limit. Desired and not true: that streams of a session below the limit survive, that both halves of a CONNECT end on their own, that a request with bad headers leaves no stream behind, that a server accepts the GOAWAY of a client and keeps to its own, and that no request of a client stops a server.", "quantifier": "all histories of streams, frames and calls on a client; for the refuted parts, concrete histories", "why_tests_cant": "The streams at hand when a GOAWAY arrives, and everything that can happen after it, are unbounded.", "anchors": ["neqo-http3/src/connection_client.rs: handle_goaway, fetch, connect", "neqo-http3/src/connection.rs: request, create_bidi_transport_stream, handle_stream_stop_sending, close_recv", "neqo-http3/src/connection_server.rs: handle_stream_readable", "neqo-http3/src/server_connection_events.rs: extended_connect_new_session"]}
{"id": "C93", "title": "A session and its streams live and end together", "statement": "Every stream of a session that is handled belongs to a session that is there, on both halves of the session's stream. A session is reported to have started at most once, and only on a stream this end opened. When a session ends, because the peer ends or resets its stream or stops ours, or the application ends it at once or gives up a half of it, every stream of the session goes with it: the peer is asked to stop sending, and what this end sends is reset. The application is told the code with which the peer closed a WebTransport session. Streams can be opened only in an active session, and streams of the peer that name no session are refused without harm to the connection. Desired and not true: that the end is reported once, that no stream outlives its session, that a stream which names a CONNECT is refused likewise, and that a session that could not be asked for is not there.", "quantifier": "all histories of streams, frames, capsules and calls, on clients and servers, in which no stream of the peer names a session whose end has been seen but which is still there", "why_tests_cant": "Sessions and streams can interleave in any way; the tests have one session with few streams.", "anchors": ["neqo-http3/src/connection.rs: remove_extended_connect, remove_recv_stream, remove_send_stream, webtransport_create_stream_internal, extended_connect_close_session", "neqo-http3/src/features/extended_connect/session.rs: Session", "neqo-http3/src/features/extended_connect/webtransport_session.rs: add_stream, remove_recv_stream, read_control_stream"]}
{"id": "C94", "title": "What is read from a stream is what was written to it", "statement": "For two endpoints joined by a network that loses, repeats, delays and reorders: at every moment the bytes the reading application has got from a stream are the first bytes the writing application wrote to that stream, in order and without gaps, repetitions or changes. When the reader is told that the stream is at its end, the writer has closed it and the reader has read exactly what was written.", "quantifier": "all histories of two endpoints: any number of streams, writes, closes, resets, packets of any size, losses declared rightly or wrongly, arrivals in any order and number, acknowledgements, limits raised, reads of any size, in which no receive window is made smaller", "why_tests_cant": "The orders in which frames are cut, lost, repeated, sent again and read are unbounded; tests run a few.", "anchors": ["neqo-transport/src/send_stream.rs: SendStream::send, write_frames, TxBuffer", "neqo-transport/src/recv_stream.rs: RecvStream::inbound_stream_frame, read, RxStreamOrderer", "neqo-transport/src/streams.rs: input_frame, acked, lost"]}
{"id": "C95", "title": "Two endpoints that follow the code never break each other's rules", "statement": "As long as no application makes a receive window smaller, nothing that the applications and the network do makes an endpoint fail or close the connection because of a stream: frames are never beyond the limits the other end gave, final sizes never change, resets agree, and no internal assertion fails. The only exception is the receiver's limit on separate pieces of a stream that wait to be read, which refuses a frame only when at least 4096 pieces wait. Desired and not true: the same when an application makes a receive window smaller.", "quantifier": "all reachable states of two endpoints and the network between them, and every event in them", "why_tests_cant": "Agreement of the two ends has to hold for every interleaving of both applications and the network.", "anchors": ["neqo-transport/src/fc.rs: SenderFlowControl, ReceiverFlowControl", "neqo-transport/src/send_stream.rs: SendStream", "neqo-transport/src/recv_stream.rs: RecvStream::inbound_stream_frame, reset, set_stream_max_data, check_gap_limit"]}
{"id": "C96", "title": "Nothing that was written is lost for good", "statement": "When the writer is told that a stream is complete, the reader (unless it is done with the stream) has every byte and the end of it, and one read that is large enough returns the rest with the end. When the sender has nothing of a stream to put into a packet with room, and every STREAM frame that it does not consider lost has arrived, then the reader has every byte that was written, and the end if the stream was closed, whatever was lost on the way.", "quantifier": "all reachable states of two endpoints and the network between them, every stream that was not reset", "why_tests_cant": "A byte that is forgotten shows only under particular orders of losses, late acknowledgements and new writes.", "anchors": ["neqo-transport/src/send_stream.rs: SendStream::write_frames, mark_as_acked, mark_as_lost, TxBuffer::next_bytes", "neqo-transport/src/recv_stream.rs: RecvStream::read"]}
{"id": "C97", "title": "Flow control does not strand a writer", "statement": "A reader's latest limit for a stream always leaves at least three quarters of the window beyond what has been read, or its next packet with room announces a limit a whole window beyond what has been read (up to the largest limit there is); likewise for the connection, counting what is used and not waiting to be read. A writer that says it is blocked is answered with a larger limit unless a whole window has been announced beyond what was read. A limit that is lost on its way is announced again, or a larger one. So when everything that was written has been read and the windows are not empty, one packet from the reader lets the writer go on, on the stream and on the connection.", "quantifier": "all reachable states of two endpoints and the network between them, every stream that is still being received and whose size is not known, every time and round-trip time", "why_tests_cant": "A limit that is not raised shows only when reads, window changes, automatic tuning and lost updates meet in a particular order.", "anchors": ["neqo-transport/src/fc.rs: ReceiverFlowControl::add_retired, should_send_update, send_flowc_update, write_frames, frame_lost, set_max_active", "neqo-transport/src/recv_stream.rs: RecvStream::read, write_frame, max_stream_data_lost", "neqo-transport/src/streams.rs: input_frame, write_maintenance_frames"]}
{"id": "C98", "title": "An endpoint asks to be called in time, and only when something is due", "statement": "While a connection is open it always asks to be called after some delay. The delay does not pass the time at which an outstanding packet that is older than an acknowledged one must be considered lost, nor the time at which the probe timeout since the last ack-eliciting packet ends (Initial and Handshake packets until the handshake is confirmed, application packets after that, if the path can take a probe), nor any other timer of the connection. Until the handshake is confirmed there is such a time even if nothing is outstanding. A call before the time declares nothing lost and sends no probe. After a call has processed the timers, every time that is waited for is in the future, apart from that of a delayed acknowledgement and that of the pacer, or the probe timer has just fired and a full datagram may be sent at once: an endpoint does not ask to be called again without delay when it has nothing to send.", "quantifier": "all reachable states of loss recovery, keys, idle timer and paths, every time of the call, every outcome of the earlier calls", "why_tests_cant": "A timer that is forgotten or that stays in the past shows only as a hang or as a busy loop after a rare order of losses, acknowledgements and calls.", "anchors": ["neqo-transport/src/connection/mod.rs: Connection::process_timer, next_delay", "neqo-transport/src/recovery/mod.rs: Loss::next_timeout, earliest_loss_time, earliest_pto, timeout", "neqo-transport/src/path.rs: Paths::process_timeout, next_timeout", "neqo-transport/src/crypto.rs: CryptoStates::check_key_update", "neqo-transport/src/connection/idle.rs: IdleTimeout::expiry, next_keep_alive"]}
{"id": "C99", "title": "HyStart++ leaves slow start after the delay has gone up and stayed up", "statement": "With HyStart++, slow start becomes conservative only when at least eight round-trip times measured in one round are all longer than the shortest of the round before, by an eighth of that or at least 4 ms and at most 16 ms. It is left only if that has happened and four round trips have been made after it, one after the other; round-trip times that vary by less than 4 ms never slow it down. If the delay stays at or above the level at which the conservative phase began, slow start is left within five rounds; if it goes down again, and eight round-trip times of a round are known, slow start goes on as before. In the conservative phase the window grows by at most a quarter of what is acknowledged. After persistent congestion it starts again, and is not left before something was sent.", "quantifier": "every sequence of packets sent (with increasing numbers), acknowledgements of packets that were sent with any round-trip times, and persistent congestion; every history of the controller", "why_tests_cant": "Rounds are cut by packet numbers and by what happened to be acknowledged together; a round that is cut wrongly or a sample that is kept too long matters only for rare orders.", "anchors": ["neqo-transport/src/cc/hystart.rs: HyStart::on_packets_acked, on_packet_sent, calc_cwnd_increase, reset", "neqo-transport/src/cc/classic_cc.rs: ClassicCongestionController::on_packets_acked, on_packet_sent, detect_persistent_congestion"]}
{"id": "C100", "title": "SEARCH leaves slow start when delivery no longer follows what was sent", "statement": "With SEARCH, slow start is left on an acknowledgement only if more than ten bins of time (each 35% of the first round-trip time) and the latest round-trip time have passed since it started, the round-trip time is less than fifteen bins, and in the last ten bins at most 74% was delivered of what was sent in the ten bins a round-trip time before; and it is left then, at the first acknowledgement in a new bin. It is not left while all that was sent is delivered a round-trip time later, nor before anything was sent. Its two circular arrays answer as if all measurements were kept: no entry is overwritten while it is needed, or read before it is written, also after pauses and restarts.", "quantifier": "every sequence of sent and delivered bytes, acknowledgements at any times with any round-trip times of at least 3 ns, and restarts", "why_tests_cant": "Which entries of the two arrays are live depends on how many bins pass between acknowledgements, on the round-trip time of the moment and on earlier restarts.", "anchors": ["neqo-transport/src/cc/search.rs: Search::on_packets_acked, update_bins, compute_delv, compute_sent, evaluate, reset, record_target_cwnd_estimates"]}
{"id": "C101", "title": "HTTP datagrams reach the session they were sent on, unchanged", "statement": "A datagram that is accepted on a session and goes out in a QUIC datagram is reported, byte for byte, on the session of the same number at the peer and on no other, as often as that QUIC datagram arrives, in the order of arrival; a datagram that belongs to no active session, or for CONNECT-UDP has another context, is reported nowhere. Datagrams are accepted only on active sessions, and a WebTransport datagram no longer than the maximum that was announced is not refused for its size. Where QUIC datagrams are not available, datagrams of a CONNECT-UDP session go as capsules on its stream: each that was accepted and not dropped for lack of room arrives, in order, whole, however the stream is cut into pieces.", "quantifier": "every set of sessions of both kinds, every content, every pattern of loss, repetition and reordering of datagrams, every way to cut the stream", "why_tests_cant": "Contents, session numbers of every length, lossy orders of arrival and cuts of the stream cannot be enumerated.", "anchors": ["neqo-http3/src/connection.rs: Http3Connection::handle_datagram", "neqo-http3/src/features/extended_connect/session.rs: Session::send_datagram, datagram", "neqo-http3/src/features/extended_connect/connect_udp_session.rs: write_datagram_prefix, dgram_context_id, write_datagram_capsule, read_control_stream", "neqo-http3/src/features/extended_connect/webtransport_session.rs: write_datagram_prefix, dgram_context_id"]}
{"id": "C102", "title": "A session is reported in order, and its end is not missed", "statement": "For each WebTransport or CONNECT-UDP session the application is told first that it started, then its datagrams, and last, once, how it ended; a session the peer refuses is only reported as ended. A session does not end without that report unless the application ended it. The application's own actions are not reported back to it. The error and the message the peer's application closes a WebTransport session with are those that are reported.", "quantifier": "every sequence of responses, pieces of content, resets, datagrams and actions of the application, on client and server", "why_tests_cant": "The order in which headers, capsules, the end of the stream and datagrams arrive, and how they are cut, is the peer's and the network's choice.", "anchors": ["neqo-http3/src/features/extended_connect/session.rs: Session::receive, maybe_check_headers, read_control_stream, close, reset, close_session", "neqo-http3/src/features/extended_connect/webtransport_session.rs: read_control_stream, close_frame", "neqo-http3/src/features/extended_connect/connect_udp_session.rs: read_control_stream"]}
{"id": "C103", "title": "Packets that arrive before their keys are kept and taken up", "statement": "A Handshake or 1-RTT packet that arrives before the keys to open it is kept, with the rest of its datagram and the time at which it arrived, as long as fewer than four datagrams wait for these keys; when a call that brings the keys is over, what waited for them has been processed, once, as having arrived when it did. No packet is processed that did not arrive or more often than it arrived.", "quantifier": "every sequence of calls with any number of datagrams of any packets, every effect of packets on the handshake, client and server", "why_tests_cant": "Which packets come before their keys, and which calls bring which keys, depends on reordering by the network and on how the application groups datagrams.", "anchors": ["neqo-transport/src/saved.rs: SavedDatagrams", "neqo-transport/src/connection/mod.rs: Connection::process_saved, save_datagram, input_path, process_multiple_input, authenticated, handshake, set_connected", "neqo-transport/src/crypto.rs: CryptoStates::rx_hp, rx_pending, Crypto::install_keys"]}
{"id": "C104", "title": "Forged packets do not affect the handshake", "statement": "Packets that the keys of the connection do not open are not processed, change no keys, do not stop a handshake, and do not keep the peer's packets from being processed.", "quantifier": "every state of a handshake, every datagrams of forged packets, client and server", "why_tests_cant": "Forged packets may come at any point of a handshake and in any number.", "anchors": ["neqo-transport/src/connection/mod.rs: Connection::preprocess_packet, input_path, discard_keys, save_datagram"]}
{"id": "C105", "title": "A request or response goes from one application to the other", "statement": "If the sections that open a message are ones that the receiver's QPACK decoder and checks take for what the sender takes them for, then, whatever the sending application does and whatever the network does, the receiving application gets a beginning of the message that was accepted from the sender: the fields of interim responses and of the message, and the body, in order, without gaps, repetitions or changes; the receiver does not refuse the message or panic. When it is told of the end, the sender has ended the message and it has got all of it. When the whole stream has arrived and the QPACK decoder does not hold it up, the application has all of it or can read more.", "quantifier": "every sequence of calls of the sending application with any room in the stream, every history of two connected endpoints, every division of the stream, every order of insertions in the QPACK table and of reads with buffers of any size", "why_tests_cant": "Writes, frames, packets, insertions and reads divide and interleave in more ways than can be tried.", "anchors": ["neqo-http3/src/send_message.rs: SendMessage", "neqo-http3/src/buffered_send_stream.rs: BufferedStream", "neqo-http3/src/recv_message.rs: RecvMessage", "neqo-http3/src/frames/reader.rs: FrameReader", "neqo-transport/src/send_stream.rs: SendStream", "neqo-transport/src/recv_stream.rs: RecvStream"]}
{"id": "C106", "title": "A server passes on the data of a request as they arrive", "statement": "After every call of the HTTP/3 server in which a request was not refused and does not wait for the QPACK table, the events have told the application everything that has arrived of the message on the stream: its fields, every byte of its body, and its end, once and in order. No event carries more than 1024 bytes and none is empty. A call ends, and no request makes it panic. If the peer's application made the request, what is told is a beginning of what it sent, and all of it when the whole stream has arrived. The same holds of any reader that, for each report that a stream is readable, reads until a read returns less than was asked for or the end: no report is missing.", "quantifier": "every division of the stream and of the QPACK insertions into arrivals and of the arrivals into calls, every message, every size of the buffer", "why_tests_cant": "A missing report or an early stop shows only when the end of a frame, of a packet and of a buffer fall together in a certain way.", "anchors": ["neqo-http3/src/server.rs: Http3Server::process_events, prepare_data", "neqo-http3/src/recv_message.rs: RecvMessage::receive, read_data, header_unblocked", "neqo-http3/src/server_events.rs: Http3ServerEvents"]}
{"id": "C107", "title": "A stream of a WebTransport session carries its session and exactly the accepted data", "statement": "On a stream that an application opens in a WebTransport session, the peer learns the session and gets a prefix of the bytes that writes reported as accepted; nothing is accepted after the application has closed the stream; closing it takes effect, with everything accepted before it, without further calls even if nothing could be sent when it was closed; if the peer gets the end of the stream, it has all that was accepted; a reset of a stream on which data were accepted leaves the peer, if it supports reliable resets, with the session, and a commitment covers all that was accepted before it.", "quantifier": "every session, kind of stream and end that opens it; every sequence of writes, closings, commitments, rounds of sending and resets; every way in which the transport takes less than it is given, or fails; every division of the stream into pieces on arrival, over any network", "why_tests_cant": "The transport can stop taking data at any byte of the preface, and the application can call in any order in that state; tests try a few.", "anchors": ["neqo-http3/src/features/extended_connect/webtransport_streams.rs: WebTransportSendStream", "neqo-http3/src/connection.rs: send_non_control_streams, stream_close_send, stream_commit, webtransport_create_stream_local", "neqo-http3/src/connection_client.rs: send_data", "neqo-http3/src/connection_server.rs: send_data", "neqo-http3/src/stream_type_reader.rs"]}
{"id": "C108", "title": "Byte counts of WebTransport streams count the application's bytes", "statement": "The counts that a client reports for a WebTransport stream (written, sent, acknowledged; received, read) count the application's bytes and not the bytes that name the session.", "quantifier": "every session, kind of stream, end that opened it, sequence of calls and count of the transport", "why_tests_cant": "The length of the preface depends on the session and the kind of stream, and the subtraction on who opened the stream; tests try the first session.", "anchors": ["neqo-http3/src/features/extended_connect/webtransport_streams.rs: WebTransportSendStream::stats, WebTransportRecvStream::stats", "neqo-http3/src/webtransport.rs: ClientSession"]}
{"id": "C109", "title": "Changed priorities reach the server, the latest one, once", "statement": "When an application changes the priority of a stream, the answer says whether the stream is open and whether the priority is a new one; when the transport has room, the server is told the priority that the application wants at that time, at most once for each stream and only if it was told something else before; no change is forgotten, however little the transport takes at a time; the control stream stays a sequence of whole frames, which the server reads as written.", "quantifier": "every sequence of requests, pushed streams, changes of priorities, other control frames and ends of streams; every amount of room in the transport at every call; every division of the control stream into pieces on arrival", "why_tests_cant": "Changes can pile up for several streams while the control stream is blocked at any byte, and streams can end meanwhile; tests try one change on an unblocked stream.", "anchors": ["neqo-http3/src/priority.rs: PriorityHandler", "neqo-http3/src/control_stream_local.rs: ControlStreamLocal", "neqo-http3/src/buffered_send_stream.rs: BufferedStream::send_atomic_with", "neqo-http3/src/connection.rs: queue_update_priority", "neqo-http3/src/connection_client.rs: Http3Client::priority_update"]}
{"id": "C110", "title": "Requests of the API keep the rules for header sections", "statement": "A request made with fetch, connect or for an extended CONNECT carries method and target in the pseudo-header fields that belong to its kind, each once, and then the fields of the application in their order, and nothing else; a server accepts it if method, target and the application's fields keep the rules (for fetch and extended CONNECT exactly then), and takes it for the kind of request it is; fetch refuses the method CONNECT.", "quantifier": "every method, target and list of fields", "why_tests_cant": "Which fields make a section invalid depends on all of them and their order; tests send a few well-formed requests.", "anchors": ["neqo-http3/src/connection.rs: create_request_headers", "neqo-http3/src/connection_client.rs: Http3Client::fetch, Http3Client::connect", "neqo-http3/src/request_target.rs", "neqo-http3/src/headers_checks.rs: headers_valid"]}
{"id": "C111", "title": "A datagram of the announced size is sent", "statement": "A datagram that is not longer than the size that the connection announces for datagrams is accepted, and is not dropped for its size as long as that size stands.", "quantifier": "every state of the connection and its path, every queue of datagrams, everything else that is to be sent", "why_tests_cant": "Whether a datagram fits depends on the congestion window, on other packets in the same UDP datagram and on other frames in the packet; tests send one on an idle connection.", "anchors": ["neqo-transport/src/connection/mod.rs: Connection::max_datagram_size, write_frames, output_dgram_on_path", "neqo-transport/src/quic_datagrams.rs: QuicDatagrams::write_frames, add_datagram", "neqo-transport/src/recovery/mod.rs: send_profile"]}
{"id": "C112", "title": "A server is told what happens on each of its connections", "statement": "What a client sends on a connection is reported by the HTTP/3 server with that connection, in order, once, and by the end of the call that took it; the end of a connection is reported as closed, last of all, and nothing is kept for it after that; GOAWAY reaches every client.", "quantifier": "every number of connections, every interleaving of what the transport does with them, every sequence of calls", "why_tests_cant": "Tests run a server with one or two connections and stop soon after a connection ends; what is kept or never told shows only in long histories with every order of timers, output and events.", "anchors": ["neqo-http3/src/server.rs: Http3Server::process_multiple, process_http3, process_events, send_goaway", "neqo-http3/src/connection_server.rs: Http3ServerHandler::process_http3, check_connection_events, should_be_processed, queue_goaway", "neqo-transport/src/server.rs: Server::process_multiple, active_connections"]}
{"id": "C113", "title": "A batch falls apart into the datagrams that were made", "statement": "Cutting a batch at the datagram size that comes with it gives exactly the datagrams that the connection made, in order and with their bytes, and the number of datagrams that the batch reports is theirs. Any batch can be cut so that nothing is lost and no part is empty or too long.", "quantifier": "all batches the connection can make, all contents", "why_tests_cant": "A cut at a wrong place destroys every packet after it; whether that can happen depends on the sizes of all datagrams of a batch, which depend on everything that is sent.", "anchors": ["neqo-common/src/datagram.rs: Batch::iter, num_datagrams", "neqo-transport/src/connection/mod.rs: output_dgram_batch_on_path", "neqo-transport/src/path.rs: Path::datagram_batch"]}
{"id": "C114", "title": "The limits an application sets are the limits its peer is told", "statement": "Whatever sequence of settings an application makes on the parameters of a connection without a panic: the transport parameters can be made and written, and the peer reads from them exactly the value set last (or the default) of each limit: data of the connection, data of streams of each kind, numbers of streams, size of datagrams, the idle timeout in whole milliseconds, and the switches for migration, greasing, SCONE and reliable resets. A preferred address is told by a server that set one, and by no client; without a connection id for it the server fails to start. Limits on streams and idle timeouts that cannot be told are rejected when they are set. Not so: a limit on the data of the connection, or a size of datagrams, of 2^62 or more is accepted when set, and writing the parameters panics; and an idle timeout below a millisecond is kept, but the peer is told that there is none.", "quantifier": "every sequence of settings, either role, all versions and connection ids", "why_tests_cant": "all sequences of settings and all values", "anchors": ["neqo-transport/src/connection/params.rs: ConnectionParameters, create_transport_parameter", "neqo-transport/src/tparams.rs: TransportParameters, PreferredAddress::new"]}
{"id": "C115", "title": "The HTTP/3 features an application switches on are the features its peer is offered", "statement": "Whatever sequence of calls an application makes on the parameters of an HTTP/3 connection without a panic: the settings can be written, no assertion fails, and the peer reads from them the size of the QPACK table and the number of blocked streams set last, and extended CONNECT and HTTP datagrams as switched last (extended CONNECT is also switched on with WebTransport, WebTransport is also switched off with extended CONNECT). WebTransport is offered exactly if it was switched on and HTTP datagrams, datagrams of the transport and reliable resets are on; who offers it also offers extended CONNECT and HTTP datagrams, and announces datagrams and reliable resets in the transport parameters. A table larger than QPACK allows is rejected when it is set. Switching WebTransport on and off again leaves extended CONNECT on.", "quantifier": "every sequence of calls", "why_tests_cant": "all sequences of calls and combinations of switches", "anchors": ["neqo-http3/src/conn_params.rs: Http3Parameters", "neqo-http3/src/settings.rs: HSettings::from", "neqo-transport/src/connection/params.rs: create_transport_parameter"]}
{"id": "C116", "title": "Reported acknowledgement delays are understood, and cannot distort round-trip times", "statement": "The delay that an endpoint reports with an acknowledgement is read by its peer rounded down to 8 microseconds, whatever the settings. Reading the delay of any peer with any exponent does not fail, and is saturated rather than wrapped around; before the transport parameters are known it is zero. Whatever delays a peer reports, in every history, the latest, the smallest and the smoothed round-trip time stay between the smallest and the largest measured sample (or the initial value, if that is below the smallest sample), and once the handshake is confirmed no more than the announced maximum is taken away from a sample. The variation stays below half of the largest sample or the spread of the samples, which bounds the probe timeout. Each sample changes the estimates as the formulas of RFC 9002 say, rounded down to nanoseconds. If the first acknowledgement reports no delay, the smallest round-trip time is exactly the smallest sample. Not so otherwise: the delay reported with the first sample is taken away from the smallest round-trip time too, down to the initial value.", "quantifier": "all delays, exponents, settings and histories of samples", "why_tests_cant": "all histories, adversarial reports", "anchors": ["neqo-transport/src/connection/mod.rs: decode_ack_delay", "neqo-transport/src/tracking.rs: RecvdPackets::write_frame", "neqo-transport/src/rtt.rs: RttEstimate::update"]}
{"id": "C117", "title": "An application knows the bitrate that the network advises", "statement": "When network elements advise a bitrate (SCONE), the application is told; what it was told last is the lowest rate advised for the path in use during the last 67 seconds; when no advice comes any more, it is told that there is none, once a later packet arrives.", "quantifier": "every sequence of packets with and without advice, on any number of paths, at any times, with moves between paths", "why_tests_cant": "Tests use one or two signals on one path; the claim is about every interleaving of signals, expiry and migration.", "anchors": ["neqo-transport/src/scone.rs: Scone::update, Scone::expired", "neqo-transport/src/path.rs: Path::update_scone", "neqo-transport/src/connection/mod.rs: Connection::postprocess_packet", "neqo-transport/src/events.rs: ConnectionEvents::scone_updated"]}
{"id": "C118", "title": "A client follows its server to the address it prefers, and nowhere else", "statement": "When the handshake is confirmed, a client that has not opted out probes the server's preferred address from its current local address, moves there once the probe succeeds, and does this once; it opens no other path, ignores addresses of another family, unspecified ones and loopback addresses of remote servers, and a bad preferred address does not end the connection.", "quantifier": "every state of the paths and connection IDs, every preferred address, every setting of both sides", "why_tests_cant": "Tests check single addresses in a fresh connection; the claim is about every combination of addresses, families, known connection IDs and existing paths, and about frames that come again.", "anchors": ["neqo-transport/src/connection/mod.rs: Connection::migrate_to_preferred_address, Connection::migrate, Frame::HandshakeDone", "neqo-transport/src/cid.rs: ConnectionIdStore::add_remote", "neqo-transport/src/path.rs: Paths::migrate"]}
{"id": "C119", "title": "WebTransport streams are scheduled in send groups of their own session, as asked", "statement": "A WebTransport stream is only ever scheduled in a send group that was made for its own session; no group belongs to two sessions; a group given at creation or set later is in force and other streams are not moved; only setting the group or fairness of a stream changes its group; a refused request leaves the schedule as it was; and the HTTP/3 layer and the transport agree on the group of each stream.", "quantifier": "every history of requests, sessions, groups, local and remote streams, settings of group, fairness and order, packets written and streams ended, on one connection", "why_tests_cant": "Tests set one or two groups on fresh streams; the claim is about two layers that each keep the group, over every order of calls, errors and stream ends.", "anchors": ["neqo-http3/src/webtransport.rs: webtransport_set_sendgroup, webtransport_clear_sendgroup, webtransport_set_fairness", "neqo-http3/src/connection.rs: Http3Connection::webtransport_create_send_group, Http3Connection::webtransport_create_stream_local_with_send_group, Http3Connection::webtransport_create_stream_internal", "neqo-http3/src/features/extended_connect/webtransport_session.rs: Session::register_send_group", "neqo-transport/src/send_stream.rs: SendStreams::set_sendgroup, SendStreams::set_fairness"]}
{"id": "C120", "title": "Frames of higher priority are not held up by those of lower priority", "statement": "In a packet, critical streams, flow control, important streams, connection IDs, high and normal streams, datagrams, session tickets, tokens and low streams are served in this order; no room goes to a later kind that a waiting frame of an earlier kind could have used; a packet is only sent with room to spare if no waiting frame fits; and what waits in the first kinds is sent within as many packets as they have frames, whatever comes to the later ones.", "quantifier": "every state of all sources of frames, every size of the packets, every history of packets and arrivals", "why_tests_cant": "Tests check one pair of priorities with a few frames; the claim is about every combination of waiting frames, packet sizes and arrivals, and about any number of packets.", "anchors": ["neqo-transport/src/connection/mod.rs: Connection::write_appdata_frames", "neqo-transport/src/streams.rs: Streams::write_maintenance_frames", "neqo-transport/src/packet/mod.rs: Builder::is_full, Builder::mark_full", "neqo-transport/src/quic_datagrams.rs: QuicDatagrams::write_frames"]}
{"id": "C121", "title": "The timer resolution in force is the finest that any holder wants, and is given back", "statement": "In every history of getting, updating and dropping handles for high-resolution timers nothing panics, and the resolution in force is always the finest that a handle wants which is still there, in whole milliseconds below 16, and none if there is no such handle. A handle wants what it was made for; after updates, what at least two of the last eight asked for. On Windows each period begun is ended with the same value before the next is begun; on macOS the policy set last is that of the resolution in force, or the standard one. When all handles are dropped, nothing is left in force. An update is however not the same as dropping the handle and getting another one, as the documentation says: the period a handle was made for is forgotten at the first update, so that a handle for one millisecond, updated with one millisecond, has no high resolution until the next update.", "quantifier": "all histories of get, update and drop with any durations and any number of handles, on Windows and macOS", "why_tests_cant": "all interleavings of handles, ring buffer of any age", "anchors": ["neqo-common/src/hrtime.rs: Time::get", "neqo-common/src/hrtime.rs: Handle::update", "neqo-common/src/hrtime.rs: Time::update", "neqo-common/src/hrtime.rs: PeriodSet"]}
{"id": "C122", "title": "The socket hands over every datagram once, in order, with its ECN mark", "statement": "However the kernel groups the datagrams that arrived into buffers (equal sizes, the last shorter), reading from the socket gives all of them, in order, each once, with the sender's address and the mark that it came with, and then nothing; empty datagrams are left out. Whatever sizes are reported within the buffers, nothing panics and no datagram is empty. A batch that is sent and not lost arrives as exactly the datagrams of the batch, with their ECN mark; the other bits of the type of service are not sent. Setting the ECN bits of a type of service leaves the others alone, and the other way round. A datagram that is too large for the path or finds the queue full is lost without an error; other errors are told.", "quantifier": "all groupings of datagrams into buffers, all contents, sizes, marks, batches and numbers of calls", "why_tests_cant": "all groupings and sizes reported by the kernel", "anchors": ["neqo-udp/src/lib.rs: DatagramIter::next", "neqo-udp/src/lib.rs: recv_inner", "neqo-udp/src/lib.rs: send_inner", "neqo-common/src/tos.rs: Tos"]}
{"id": "C123", "title": "Closing a connection does not leak the application's code and reason in Initial and Handshake packets", "statement": "When an application closes a connection, the bytes that are written in Initial and Handshake packets are the same whatever its code and reason are: CONNECTION_CLOSE with the transport error APPLICATION_ERROR, no frame type and no reason. 1-RTT packets carry the application's code and a beginning of its reason, all of it if it has at most 200 bytes and 274 bytes are left. Transport errors are sent with their code and frame type in every space. The frame is one that the packet of its space (Initial, Handshake, 1-RTT) may carry. An ACK frame that is sent along never takes its place: it is written whenever 27 bytes are left at the start.", "quantifier": "all codes, frame types and reasons that can be encoded, all packet number spaces, sizes left and ACK frames", "why_tests_cant": "all codes, reasons, sizes left and ACK frames", "anchors": ["neqo-transport/src/connection/mod.rs: Connection::write_closing_frames", "neqo-transport/src/connection/state.rs: ClosingFrame::sanitize", "neqo-transport/src/connection/state.rs: ClosingFrame::write_frame"]}
{"id": "C124", "title": "Bytes are printed in hexadecimal exactly, and the text is valid", "statement": "Every sequence of bytes, of any length, is printed as two lower-case hexadecimal digits for each byte, in order, without a panic. Each piece of text that is passed on unchecked as UTF-8 consists of ASCII digits and letters, so that the unsafe conversion is sound. Different bytes have different texts. With the length, the text is the length and all digits. The abbreviated text shows all digits of up to 16 bytes, and of more the first and the last eight bytes with two dots between.", "quantifier": "all sequences of bytes, of all lengths", "why_tests_cant": "all lengths and contents, across pieces of 128 bytes that reuse a buffer", "anchors": ["neqo-common/src/hex.rs: chunk_hex", "neqo-common/src/hex.rs: Hex", "neqo-common/src/hex.rs: HexSnipMiddle", "neqo-common/src/hex.rs: HexWithLen"]}
{"id": "C125", "title": "Atomic writes are all or nothing", "statement": "A write to a stream that is to be accepted as a whole is accepted in full if the stream's limit, the connection's limit and the buffer allow that much, and else not at all, in which case it changes nothing of what is sent and uses up no credit; the result says which. If it is not accepted although a part would fit, the peer is told of each limit that is in the way, once for each limit. (Not so if nothing at all fits: then the peer is not told. It is also told of the limit of a stream that has just enough credit when the connection has too little.)", "quantifier": "all data, all histories of all streams of a connection, all limits", "why_tests_cant": "all histories of streams, limits and lengths", "anchors": ["neqo-transport/src/connection/mod.rs: Connection::stream_send_atomic", "neqo-transport/src/send_stream.rs: SendStream::send_internal", "neqo-transport/src/send_stream.rs: SendStream::send_blocked_if_space_needed"]}
{"id": "C126", "title": "The MTU of the interface is found among all that the kernel sends", "statement": "On Linux, asking for the interface and MTU towards an address sends well-formed netlink requests for exactly this address and then for the interface, without reading beyond the structures in memory. If the kernel answers with a route that names an interface and with that interface's name and MTU, these are returned, whatever other messages (of other requests, acknowledgments, other types) come before or in the same datagrams and whatever other attributes the answers have, in any order. An error of the kernel in answer to a request is told. (A message longer than 8192 bytes makes the program panic.)", "quantifier": "all addresses, sequence numbers, messages, attributes and divisions of messages into datagrams of at most 8192 bytes", "why_tests_cant": "all messages of the kernel, their order and division into datagrams; the tests see one machine", "anchors": ["mtu/src/linux.rs: interface_and_mtu_impl", "mtu/src/linux.rs: read_msg_with_seq", "mtu/src/linux.rs: RtAttrs::next", "mtu/src/linux.rs: IfIndexMsg::new", "mtu/src/lib.rs: aligned_by"]}
{"id": "C127", "title": "The programs' data reaches the stream in order and in full", "statement": "The data that the example client and server send on a stream (a given response, or any number of zeros) is handed to the stream in order, without gaps, repetitions or anything beyond it, however little the stream takes at a time and however often sending is resumed. Sending says it is done exactly when the stream took all; it says the stream is closed only after an error, and that there is more only when the stream took nothing. It never panics and never offers an empty piece.", "quantifier": "all data and numbers of zeros, all sequences of calls and all amounts that the stream takes in each", "why_tests_cant": "every way in which a stream takes pieces, over any number of calls; the buffer of zeros is used again in a circle", "anchors": ["neqo-bin/src/send_data.rs: SendData::send", "neqo-bin/src/send_data.rs: SendData::zeroes", "neqo-bin/src/send_data.rs: SendData::len"]}
{"id": "C128", "title": "A request to the HTTP/0.9 server gets the response for it", "statement": "A request to the example HTTP/0.9 server (of up to 4095 bytes before its last piece) gets the response for the whole request, however it is divided into pieces and whatever happens on other streams and connections in between: what is sent is the start of that response, and the end of the stream is sent only after all of it; unless the client stops the stream, whenever there is room more is sent, until the end. A request that is no good is answered by a reset and nothing else.", "quantifier": "all requests, divisions into pieces, interleavings with events on other streams and connections, and amounts of room to send", "why_tests_cant": "requires all interleavings of pieces and events of several clients; the tests only parse complete requests", "anchors": ["neqo-bin/src/server/http09.rs: HttpServer::stream_readable", "neqo-bin/src/server/http09.rs: HttpServer::stream_writable", "neqo-bin/src/server/http09.rs: HttpServer::save_partial"]}
{"id": "C129", "title": "Only files under /www are served", "statement": "In tests of interoperability the example servers refuse exactly the paths with a segment \"..\"; for every other path, the file that is read lies under /www and is the one that the path names there, whatever slashes and \".\" it has.", "quantifier": "all paths in requests", "why_tests_cant": "all strings that a client may send; the tests try one path with \"..\"", "anchors": ["neqo-bin/src/server/mod.rs: response_for_path"]}
