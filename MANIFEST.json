{
 "claims": [
  {
   "property": "C01",
   "status": "proved",
   "theorems": [
    "Neqo.Codec.C01_varint_roundtrip",
    "Neqo.Codec.C01_varint_too_large"
   ],
   "note": ""
  },
  {
   "property": "C02",
   "status": "proved",
   "theorems": [
    "Neqo.Codec.C02_decode_nil",
    "Neqo.Codec.C02_decode_fails_iff",
    "Neqo.Codec.C02_decode_value",
    "Neqo.Codec.C02_varint_len",
    "Neqo.Codec.C02_encode_shortest"
   ],
   "note": ""
  },
  {
   "property": "C03",
   "status": "partial",
   "theorems": [
    "Neqo.Codec.C03_vec_roundtrip",
    "Neqo.Codec.C03_vvec_roundtrip",
    "Neqo.Codec.C03_vec_decode_sound",
    "Neqo.Codec.C03_vvec_decode_sound",
    "Neqo.Codec.C03_vvec_with_eq",
    "Neqo.Codec.C03_vec_with_eq_partial",
    "Neqo.Codec.C03_vec_with_nonempty_false"
   ],
   "note": "Holds for direct forms and the varint closure form; the fixed-width closure form (encode_vec_with) is refuted on non-empty encoders by C03_vec_with_nonempty_false and proved for empty ones (_partial)."
  },
  {
   "property": "C04",
   "status": "proved",
   "theorems": [
    "Neqo.Codec.C04_uint_chunking",
    "Neqo.Codec.C04_buffer_chunking",
    "Neqo.Codec.C04_ignore_chunking"
   ],
   "note": ""
  },
  {
   "property": "C05",
   "status": "proved",
   "theorems": [
    "Neqo.RecvS.C05_stream_reads_carried_bytes",
    "Neqo.Recv.C05_delivered_bytes_were_carried",
    "Neqo.Recv.C05_delivery_is_stream_prefix",
    "Neqo.Recv.C05_only_gap_limit_fails"
   ],
   "note": ""
  },
  {
   "property": "C06",
   "status": "proved",
   "theorems": [
    "Neqo.Recv.C06_short_read_means_gap",
    "Neqo.Recv.C06_bytes_ready_exact",
    "Neqo.Recv.C06_data_ready_exact",
    "Neqo.Recv.C06_read_to_end_drains"
   ],
   "note": ""
  },
  {
   "property": "C07",
   "status": "proved",
   "theorems": [
    "Neqo.Recv.C07_limit_checked_on_insert",
    "Neqo.Recv.C07_ranges_bounded_by_window",
    "Neqo.Recv.C07_accepts_below_limit"
   ],
   "note": ""
  },
  {
   "property": "C08",
   "status": "proved",
   "theorems": [
    "Neqo.RecvS.C08_fin_is_end_and_last",
    "Neqo.RecvS.C08_fin_at_most_once",
    "Neqo.RecvS.C08_fin_is_reported"
   ],
   "note": ""
  },
  {
   "property": "C09",
   "status": "partial",
   "theorems": [
    "Neqo.RecvS.C09_conflicting_frames_refused_partial",
    "Neqo.RecvS.C09_final_size_below_received_refused",
    "Neqo.RecvS.C09_ended_stream_ignores_frames",
    "Neqo.RecvS.C09_one_final_size_partial",
    "Neqo.RecvS.C09_waiting_stream_accepts_second_size"
   ],
   "note": "Holds on every stream except those waiting for a reset after the application abandoned them (refuted there by C09_waiting_stream_accepts_second_size)."
  },
  {
   "property": "C10",
   "status": "partial",
   "theorems": [
    "Neqo.RecvS.C10_usage_within_latest_limits_partial",
    "Neqo.RecvS.C10_excess_refused",
    "Neqo.RecvS.C10_flow_control_error_is_deserved"
   ],
   "note": "Partial: SaneRun assumes that initial limits fit a varint and that the application does not shrink a window (C12_shrinking_window_lowers_limit shows why)."
  },
  {
   "property": "C11",
   "status": "proved",
   "theorems": [
    "Neqo.RecvS.C11_connection_totals_are_sums",
    "Neqo.RecvS.C11_ended_streams_hold_no_credit",
    "Neqo.RecvS.C11_returned_used_limit",
    "Neqo.RecvS.C11_no_panic"
   ],
   "note": ""
  },
  {
   "property": "C12",
   "status": "partial",
   "theorems": [
    "Neqo.Flow.C12_limits_monotone_partial",
    "Neqo.Flow.C12_connection_limits_monotone",
    "Neqo.Flow.C12_stream_count_limits_monotone",
    "Neqo.Flow.C12_shrinking_window_lowers_limit",
    "Neqo.RecvS.C12_advertised_never_decrease"
   ],
   "note": "Proved for all histories in which the application never shrinks a stream's window; refuted otherwise by C12_shrinking_window_lowers_limit."
  },
  {
   "property": "C13",
   "status": "proved",
   "theorems": [
    "Neqo.Flow.C13_limit_is_largest",
    "Neqo.Flow.C13_used_within_largest_limit",
    "Neqo.Flow.C13_available_exact",
    "Neqo.Send.C13_stream_within_limit",
    "Neqo.Send.C13_connection_within_limit",
    "Neqo.Send.C13_smaller_limit_ignored",
    "Neqo.Send.C13_smaller_stream_limit_ignored",
    "Neqo.Send.C13_accepts_exactly"
   ],
   "note": ""
  },
  {
   "property": "C14",
   "status": "proved",
   "theorems": [
    "Neqo.Flow.C14_blocked_frame_is_current",
    "Neqo.Flow.C14_once_per_limit",
    "Neqo.Flow.C14_blocked_is_reported",
    "Neqo.Flow.C14_lost_frame_resent"
   ],
   "note": ""
  },
  {
   "property": "C15",
   "status": "proved",
   "theorems": [
    "Neqo.Send.C15_no_panic",
    "Neqo.Send.C15_ack_exact",
    "Neqo.Send.C15_sent_exact",
    "Neqo.Send.C15_acked_forever",
    "Neqo.Send.C15_acked_iff_acknowledged",
    "Neqo.Send.C15_acked_prefix_exact",
    "Neqo.Send.C15_first_unsent_exact"
   ],
   "note": ""
  },
  {
   "property": "C16",
   "status": "partial",
   "theorems": [
    "Neqo.Send.C16_lost_exact_partial",
    "Neqo.Send.C16_lost_exact_at_run_start",
    "Neqo.Send.C16_lost_all",
    "Neqo.Send.C16_lost_too_much"
   ],
   "note": "C16_lost_exact_partial: inside the range exactly the bytes that are not acknowledged become unsent and bytes before it keep their mark; bytes after it keep theirs unless everything from the byte before the range was sent. C16_lost_too_much shows that the full statement is false in that case: the rest of the run is marked unsent too and is sent again."
  },
  {
   "property": "C17",
   "status": "proved",
   "theorems": [
    "Neqo.Send.C17_no_panic",
    "Neqo.Send.C17_frames_carry_written",
    "Neqo.Send.C17_unacked_kept"
   ],
   "note": ""
  },
  {
   "property": "C18",
   "status": "proved",
   "theorems": [
    "Neqo.Send.C18_lowest_first",
    "Neqo.Send.C18_offered",
    "Neqo.Send.C18_nothing_offered",
    "Neqo.Send.C18_lost_offered"
   ],
   "note": ""
  },
  {
   "property": "C19",
   "status": "proved",
   "theorems": [
    "Neqo.Send.C19_complete_once",
    "Neqo.Send.C19_complete_means_acked",
    "Neqo.Send.C19_acked_means_complete"
   ],
   "note": ""
  },
  {
   "property": "C20",
   "status": "proved",
   "theorems": [
    "Neqo.Send.C20_final_size_fixed",
    "Neqo.Send.C20_final_size_exact",
    "Neqo.Send.C20_fin_at_final_size",
    "Neqo.Send.C20_fin_iff"
   ],
   "note": ""
  },
  {
   "property": "C21",
   "status": "proved",
   "theorems": [
    "Neqo.Send.C21_committed_kept",
    "Neqo.Send.C21_nothing_beyond_commitment",
    "Neqo.Send.C21_ends_iff"
   ],
   "note": ""
  },
  {
   "property": "C22",
   "status": "proved",
   "theorems": [
    "Neqo.Acks.C22_only_received",
    "Neqo.Acks.C22_unconfirmed_reported",
    "Neqo.Acks.C22_largest_reported",
    "Neqo.Acks.C22_confirmed_not_repeated"
   ],
   "note": ""
  },
  {
   "property": "C23",
   "status": "proved",
   "theorems": [
    "Neqo.Acks.C23_processed_once",
    "Neqo.Acks.C23_duplicate_dropped",
    "Neqo.Acks.C23_received_forever",
    "Neqo.Acks.C23_new_duplicate"
   ],
   "note": ""
  },
  {
   "property": "C24",
   "status": "proved",
   "theorems": [
    "Neqo.Acks.C24_never_fails",
    "Neqo.Acks.C24_well_formed",
    "Neqo.Acks.C24_ranges_exact",
    "Neqo.Acks.C24_frame_legal"
   ],
   "note": ""
  },
  {
   "property": "C25",
   "status": "partial",
   "theorems": [
    "Neqo.Acks.C25_legal_frames",
    "Neqo.Acks.C25_accepted_frames_partial",
    "Neqo.Acks.C25_accepts_below_zero",
    "Neqo.Acks.C25_round_trip"
   ],
   "note": "C25_accepts_below_zero shows that decode_ack_frame accepts a frame with a range below zero (after a range that starts at 1, a range with gap 0 and length 0 is taken to be number 0). C25_accepted_frames_partial shows this is the only deviation."
  },
  {
   "property": "C26",
   "status": "proved",
   "theorems": [
    "Neqo.Acks.C26_scheduled",
    "Neqo.Acks.C26_default_delay",
    "Neqo.Acks.C26_immediate",
    "Neqo.Acks.C26_not_postponed",
    "Neqo.Acks.C26_sending_clears",
    "Neqo.Acks.C26_not_early"
   ],
   "note": ""
  },
  {
   "property": "C27",
   "status": "partial",
   "theorems": [
    "Neqo.Keys.C27_in_window",
    "Neqo.Keys.C27_sender_length_partial",
    "Neqo.Keys.C27_too_many_unacknowledged",
    "Neqo.Keys.C27_history_partial",
    "Neqo.Keys.C27_stale_during_key_update"
   ],
   "note": "Proved for fewer than 2^31 packets in flight (C27_too_many_unacknowledged shows why) and for a receiver that is not waiting out a key update; C27_stale_during_key_update shows a receiver that recovers a wrong number while it is, because numbers are recovered against the old keys."
  },
  {
   "property": "C28",
   "status": "proved",
   "theorems": [
    "Neqo.Rec.C28_at_most_once",
    "Neqo.Rec.C28_acked_exactly",
    "Neqo.Rec.C28_only_sent",
    "Neqo.Rec.C28_lost_only_if",
    "Neqo.Rec.C28_lost_complete",
    "Neqo.Rec.C28_none_forgotten",
    "Neqo.Rec.C28_dropped_gone"
   ],
   "note": "Each packet sent is acknowledged at most once and declared lost at most once; what an ACK returns is exactly the tracked packets in its ranges; losses are declared if and only if overdue by number or time; every packet sent is acknowledged, lost, dropped with its keys or still pending."
  },
  {
   "property": "C29",
   "status": "partial",
   "theorems": [
    "Neqo.Rec.C29_exact_partial",
    "Neqo.Rec.C29_inexact_after_peer_migration"
   ],
   "note": "Exact as long as loss recovery is told of every change of the primary path. The full claim is false: it is not told when the peer changes address (C29_inexact_after_peer_migration)."
  },
  {
   "property": "C30",
   "status": "partial",
   "theorems": [
    "Neqo.Rec.C30_window_floor_partial",
    "Neqo.Rec.C30_reduction_floor",
    "Neqo.Rec.C30_ack_never_reduces",
    "Neqo.Rec.C30_below_minimum_after_mtu_raise",
    "Neqo.Rec.C30_reduced_once",
    "Neqo.Rec.C30_reduced_once_ce",
    "Neqo.Rec.C30_at_most_halved",
    "Neqo.Rec.C30_loss_reduces",
    "Neqo.Rec.C30_ce_reduces",
    "Neqo.Rec.C30_grows_by_ack",
    "Neqo.Rec.C30_grows_if_used",
    "Neqo.Rec.C30_no_growth_in_recovery_partial",
    "Neqo.Rec.C30_slow_start_growth",
    "Neqo.Rec.C30_avoidance_growth",
    "Neqo.Rec.C30_growth_in_recovery",
    "Neqo.Rec.C30_window_floor_system_partial",
    "Neqo.Rec.C30_reduced_twice_across_spaces",
    "Neqo.Ss.C30_with_slow_start",
    "Neqo.Ss.C30_restart_is_slow_start"
   ],
   "note": "For every history of one path's controller. C30_window_floor_partial bounds the window by twice the least MTU ever; against the current minimum it is refuted after an MTU raise (C30_below_minimum_after_mtu_raise). 'No growth in recovery' is proved up to one datagram and refuted exactly (C30_growth_in_recovery). 'Reduced once' holds for one packet number space (C30_reduced_once, C30_reduced_once_ce) and is refuted across spaces (C30_reduced_twice_across_spaces). The slow start algorithms are modelled (C30_with_slow_start: every history with one of them is among those considered here); CUBIC's arithmetic is an input."
  },
  {
   "property": "C31",
   "status": "proved",
   "theorems": [
    "Neqo.Rec.C31_period_doubles",
    "Neqo.Rec.C31_next_period",
    "Neqo.Rec.C31_period_cap",
    "Neqo.Rec.C31_not_early",
    "Neqo.Rec.C31_fires_when_due",
    "Neqo.Rec.C31_ack_resets",
    "Neqo.Rec.C31_only_timeouts",
    "Neqo.Rec.C31_at_most_two",
    "Neqo.Rec.C31_at_most_two_from_start"
   ],
   "note": "Period and its doubling, not early, fires when due, reset by acknowledgements, at most two probe datagrams per timeout."
  },
  {
   "property": "C32",
   "status": "partial",
   "theorems": [
    "Neqo.Rec.C32_at_most_once",
    "Neqo.Rec.C32_only_outstanding",
    "Neqo.Rec.C32_all_that_fit_partial",
    "Neqo.Rec.C32_passed_over"
   ],
   "note": "At most once holds always. That all are handed back holds if all that is tracked fits in two datagrams at each timeout; otherwise it is false: a packet that does not fit is marked and never handed back (C32_passed_over)."
  },
  {
   "property": "C33",
   "status": "partial",
   "theorems": [
    "Neqo.Amp.C33_bound_partial",
    "Neqo.Amp.C33_limit_partial",
    "Neqo.Amp.C33_exceeded_by_probe_timeout",
    "Neqo.Amp.C33_exceeded_again",
    "Neqo.Amp.C33_exceeded_by_acknowledgment",
    "Neqo.Amp.C33_exceeded_by_pmtud"
   ],
   "note": "C33_bound_partial: on an unvalidated path the bytes sent stay within three times those received, plus 255 bytes for each acknowledgment-only datagram, plus the datagrams for which the code does not look at the limit; C33_limit_partial: with none of these, the limit holds. The full property is false: C33_exceeded_by_probe_timeout, C33_exceeded_again (probe timeouts ignore the limit), C33_exceeded_by_acknowledgment (255-byte floor), C33_exceeded_by_pmtud (probe size replaces the limit). The profile computation and the sending of acknowledgment-only packets are modelled; frame writing inside a datagram is not."
  },
  {
   "property": "C34",
   "status": "partial",
   "theorems": [
    "Neqo.Cid.C34_issued_distinct",
    "Neqo.Cid.C34_frames_consistent",
    "Neqo.Cid.C34_accepts",
    "Neqo.Cid.C34_within_limit",
    "Neqo.Cid.C34_limit_is_peers",
    "Neqo.Cid.C34_replaced",
    "Neqo.Cid.C34_write_succeeds",
    "Neqo.Cid.C34_reliable",
    "Neqo.Cid.C34_retire_checked",
    "Neqo.Cid.C34_no_panic",
    "Neqo.Cid.C34_retired_advertised_again",
    "Neqo.Cid.C34_exhausted_generator_hangs",
    "Neqo.Path.C34_accounted",
    "Neqo.Path.C34_retirement_is_sent",
    "Neqo.Path.C34_store_bounded",
    "Neqo.Path.C34_distinct_partial",
    "Neqo.Path.C34_retire_prior",
    "Neqo.Path.C34_conflict_rejected_partial",
    "Neqo.Path.C34_shared",
    "Neqo.Path.C34_retired_twice",
    "Neqo.Path.C34_below_retire_prior_used",
    "Neqo.Path.C34_reused_number_accepted"
   ],
   "note": "Own IDs: distinct numbers, consistent frames, accepted exactly while not retired, within the peer's limit, replaced, reliably advertised. Peer's IDs: accounted for, retirement always sent, retire-prior-to obeyed. Partial: distinctness needs that the peer does not retransmit a NEW_CONNECTION_ID whose ID was taken up (C34_shared, C34_retired_twice show what happens), conflicts are detected only with IDs that wait (C34_reused_number_accepted), an ID below an earlier retire-prior-to is used (C34_below_retire_prior_used). C34_retired_advertised_again and C34_exhausted_generator_hangs are further findings."
  },
  {
   "property": "C35",
   "status": "proved",
   "theorems": [
    "Neqo.Frm.C35_decode",
    "Neqo.Frm.C35_round_trip",
    "Neqo.Frm.C35_unambiguous",
    "Neqo.Frm.C35_packet",
    "Neqo.Frm.C35_long_padding_refused"
   ],
   "note": "Reading is characterised exactly against a description of the bytes of every frame (Frames/Spec.lean): a frame is read if and only if the bytes are one of its forms, its values are valid and what follows may follow. Round trip and unambiguity are consequences. That writers produce such forms is C60."
  },
  {
   "property": "C36",
   "status": "partial",
   "theorems": [
    "Neqo.Tp.C36_decode",
    "Neqo.Tp.C36_round_trip",
    "Neqo.Tp.C36_unambiguous",
    "Neqo.Tp.C36_duplicate",
    "Neqo.Tp.C36_integer",
    "Neqo.Tp.C36_valid",
    "Neqo.Tp.C36_no_panic",
    "Neqo.Tp.C36_set_integer",
    "Neqo.Tp.C36_0rtt_partial",
    "Neqo.Tp.C36_0rtt_features",
    "Neqo.Tp.C36_0rtt_cid_limit_reduced",
    "Neqo.Tp.C36_0rtt_packet_size_reduced"
   ],
   "note": "Decoding accepts exactly the byte strings that describe a parameter set (Describes), encodings round trip, duplicates and invalid values are refused, integers read as sent or their defaults. 0-RTT comparison: proved for all limits of RFC 9000 7.4.1 except active_connection_id_limit, which the code skips (C36_0rtt_cid_limit_reduced shows the violation)."
  },
  {
   "property": "C37",
   "status": "partial",
   "theorems": [
    "Neqo.Strs.C37_own_streams",
    "Neqo.Strs.C37_create",
    "Neqo.Strs.C37_peer_streams",
    "Neqo.Strs.C37_frame_opens",
    "Neqo.Strs.C37_frame_own",
    "Neqo.Strs.C37_directions",
    "Neqo.Strs.C37_tables",
    "Neqo.Strs.C37_slots",
    "Neqo.Strs.C37_slots_returned",
    "Neqo.Strs.C37_limits_kept",
    "Neqo.Strs.C37_cleanup_partial",
    "Neqo.Strs.C37_abandoned_stream_stays",
    "Neqo.Strs.C37_abandoned_stream_waits",
    "Neqo.Strs.C37_no_panic_partial",
    "Neqo.Strs.C37_second_limits_panics"
   ],
   "note": "Over every history of the streams of a connection (frames, creation, reads, cleanup, limits, losses, 0-RTT rejection). Own and peer IDs are the first of their type in order without gaps; limits, implicit opening, directions, and giving back of slots are proved. Partial: C37_cleanup_partial assumes that STOP_SENDING did not end a stream at once; C37_no_panic_partial leaves one panic, which is real (C37_second_limits_panics). C37_abandoned_stream_stays: an abandoned stream whose end arrives after STOP_SENDING was acknowledged is never cleaned up."
  },
  {
   "property": "C38",
   "status": "proved",
   "theorems": [
    "Neqo.Qp.C38_read",
    "Neqo.Qp.C38_chunks",
    "Neqo.Qp.C38_bound",
    "Neqo.Qp.C38_error",
    "Neqo.Qp.C38_write",
    "Neqo.Qp.C38_round_trip",
    "Neqo.Qp.C38_unambiguous"
   ],
   "note": "Reading is characterised exactly; the end of the stream inside an integer is not modelled."
  },
  {
   "property": "C39",
   "status": "proved",
   "theorems": [
    "Neqo.Qp.C39_decode",
    "Neqo.Qp.C39_encode",
    "Neqo.Qp.C39_round_trip",
    "Neqo.Qp.C39_unambiguous",
    "Neqo.Qp.C39_error",
    "Neqo.Qp.C39_eos",
    "Neqo.Qp.C39_padding",
    "Neqo.Qp.C39_complete",
    "Neqo.Qp.C39_canonical"
   ],
   "note": "Decoding is characterised exactly against the codes of the table, and the table is shown to be the canonical complete code for its lengths."
  },
  {
   "property": "C40",
   "status": "proved",
   "theorems": [
    "Neqo.Qp.C40_capacity",
    "Neqo.Qp.C40_index",
    "Neqo.Qp.C40_never_reused",
    "Neqo.Qp.C40_kept",
    "Neqo.Qp.C40_insert",
    "Neqo.Qp.C40_get",
    "Neqo.Qp.C40_lookup",
    "Neqo.Qp.C40_lookup_complete",
    "Neqo.Qp.C40_no_panic"
   ],
   "note": "Histories of the operations of one table, with the list of all inserts as a ghost. Counters are natural numbers."
  },
  {
   "property": "C41",
   "status": "proved",
   "theorems": [
    "Neqo.Qp.C41_instruction",
    "Neqo.Qp.C41_instruction_form",
    "Neqo.Qp.C41_any_pieces",
    "Neqo.Qp.C41_synchronised",
    "Neqo.Qp.C41_same_inserts",
    "Neqo.Qp.C41_same_field"
   ],
   "note": "Every instruction is written and read as RFC 9204 lays it out, in whatever pieces it arrives. For every configuration and every history, what the decoder's table holds is what the encoder's table held after the same number of insertions, and an entry that both have is the same field. Histories send sections of fields with UTF-8 names (neqo's Header names are strings), of at most 384 KiB, with fewer than 2^62 insertions."
  },
  {
   "property": "C42",
   "status": "partial",
   "theorems": [
    "Neqo.Qp.C42_no_error_partial",
    "Neqo.Qp.C42_delivered_partial",
    "Neqo.Qp.C42_round_trip_partial",
    "Neqo.Qp.C42_complete_partial",
    "Neqo.Qp.C42_max_entries_mismatch",
    "Neqo.Qp.C42_mismatch_deadlock"
   ],
   "note": "Every block decodes to the fields it was made of, or waits exactly if it refers to an insert that has not arrived; nothing ever fails; sections are delivered in order. Proved for an encoder that may use at least what the decoder allows (own table size not below the peer's), for fields with names in UTF-8, sections of at most 384 KiB and fewer than 2^62 inserts. C42_max_entries_mismatch shows that it is false for a smaller encoder: max_entries is computed from its own capacity, and blocks wait forever."
  },
  {
   "property": "C43",
   "status": "proved",
   "theorems": [
    "Neqo.H3.C43_http3",
    "Neqo.H3.C43_webtransport",
    "Neqo.H3.C43_capsule",
    "Neqo.H3.C43_chunking",
    "Neqo.H3.C43_first_frame_type"
   ],
   "note": "Reading HTTP/3 frames, WebTransport frames and capsules from a stream gives the same frames, in the same order, as cutting the whole byte string, for every division into chunks, with the end of the stream in any place. Parameters: the parser of priority field values and the UTF-8 check."
  },
  {
   "property": "C44",
   "status": "partial",
   "theorems": [
    "Neqo.Sched.C44_pass_visits_each_once",
    "Neqo.Sched.C44_resumes",
    "Neqo.Sched.C44_buckets_distinct",
    "Neqo.Sched.C44_removal_partial",
    "Neqo.Sched.C44_insertion_partial",
    "Neqo.Sched.C44_passed_over_after_removal",
    "Neqo.Sched.C44_offered_within",
    "Neqo.Sched.C44_group_offered_within",
    "Neqo.Sched.C44_starved_behind_unfair"
   ],
   "note": "A pass over a bucket visits each stream once and the next resumes. Insertion and removal at or after the cursor keep the order; before the cursor they do not (C44_passed_over_after_removal). On the fast path every stream with data is offered a packet within as many packets as there are streams, on the slow path every group is; but behind an unfair stream that fills every other packet a fair stream can starve (C44_starved_behind_unfair)."
  },
  {
   "property": "C45",
   "status": "partial",
   "theorems": [
    "Neqo.H3.C45_one_stream",
    "Neqo.H3.C45_above_max_partial",
    "Neqo.H3.C45_disabled",
    "Neqo.H3.C45_unasked_promise_accepted",
    "Neqo.H3.C45_max_grows",
    "Neqo.H3.C45_concurrent",
    "Neqo.H3.C45_room_partial",
    "Neqo.H3.C45_single_never_allowed",
    "Neqo.H3.C45_promise_first_partial",
    "Neqo.H3.C45_unannounced_after_request_closed",
    "Neqo.H3.C45_same_fields",
    "Neqo.H3.C45_last",
    "Neqo.H3.C45_cancelled",
    "Neqo.H3.C45_delivered",
    "Neqo.H3.C45_no_panic_partial",
    "Neqo.H3.C45_finished_before_promise_panics",
    "Neqo.H3.C45_finished_before_promise_lost",
    "Neqo.H3.C45_unknown_push_canceled",
    "Neqo.H3.C45_read_makes_room"
   ],
   "note": "Proved for every history of promises, push streams, cancellations, resets and reads: a push ID gets at most one stream, IDs above the limit are refused (except 0 before any MAX_PUSH_ID), limits grow and bound the open pushes, the promise is reported first (unless the request's events were dropped), all promises have the same fields, nothing is reported after the end or after a cancellation, reports of an open push all arrive, and the only panic is a push stream finished before its promise. Negations are proved for each exception."
  },
  {
   "property": "C46",
   "status": "partial",
   "theorems": [
    "Neqo.Idle.C46_closed_iff_idle_partial",
    "Neqo.Idle.C46_period_partial",
    "Neqo.Idle.C46_activity_keeps_open",
    "Neqo.Idle.C46_deadline",
    "Neqo.Idle.C46_cached_packet_closes_early",
    "Neqo.Idle.C46_zero_timeout_closes",
    "Neqo.Idle.C46_one_keep_alive",
    "Neqo.Idle.C46_keep_alive_in_time"
   ],
   "note": "Packets processed after a later event (kept until their keys came) are excluded from the partial; C46_cached_packet_closes_early refutes the claim for them. A local timeout of 0 is excluded; C46_zero_timeout_closes refutes the claim for it."
  },
  {
   "property": "C47",
   "status": "proved",
   "theorems": [
    "Neqo.Flow.C47_update_pending_or_window_open"
   ],
   "note": ""
  },
  {
   "property": "C48",
   "status": "proved",
   "theorems": [
    "Neqo.Send.C48_written_sent_exact",
    "Neqo.Send.C48_acked_exact",
    "Neqo.Send.C48_ordered",
    "Neqo.Send.C48_monotone"
   ],
   "note": ""
  },
  {
   "property": "C49",
   "status": "proved",
   "theorems": [
    "Neqo.Send.C49_frames_fit",
    "Neqo.Send.C49_has_data_exact"
   ],
   "note": ""
  },
  {
   "property": "C50",
   "status": "partial",
   "theorems": [
    "Neqo.Send.C50_writable_when_room_partial",
    "Neqo.Send.C50_initial_limit_silent"
   ],
   "note": "Proved for every operation except raising the connection limit from the peer's transport parameters, where it is refuted by C50_initial_limit_silent."
  },
  {
   "property": "C51",
   "status": "partial",
   "theorems": [
    "Neqo.Acks.C51_due_is_written_partial",
    "Neqo.Acks.C51_deadline_stuck"
   ],
   "note": "C51_deadline_stuck: when all 32 tracked ranges are confirmed and a late packet arrives below them, its range is dropped at once but a deadline is set that no frame can clear."
  },
  {
   "property": "C52",
   "status": "partial",
   "theorems": [
    "Neqo.Rec.C52_no_panic_partial",
    "Neqo.Rec.C52_discard_panics"
   ],
   "note": "Holds for calls other than those that drop packets, and for all while loss recovery is told of path changes. The full claim is false: discarding Handshake keys after the peer changed address can panic (C52_discard_panics)."
  },
  {
   "property": "C53",
   "status": "partial",
   "theorems": [
    "Neqo.Keys.C53_nonce_unique",
    "Neqo.Keys.C53_numbers_increase",
    "Neqo.Keys.C53_numbers_increase_0rtt_partial",
    "Neqo.Keys.C53_use_limit",
    "Neqo.Keys.C53_numbers_restart_after_rejection",
    "Neqo.Keys.C53_forgery_limit_exceeded",
    "Neqo.Keys.C53_forgery_bound_partial"
   ],
   "note": "Nonces are unique and write limits hold for all histories. Packet numbers restart at 0 after 0-RTT is rejected (C53_numbers_restart_after_rejection). The integrity limit is counted per key, so the total is refuted (C53_forgery_limit_exceeded) and a weaker bound proved."
  },
  {
   "property": "C54",
   "status": "partial",
   "theorems": [
    "Neqo.Keys.C54_epochs_close",
    "Neqo.Keys.C54_update_answered",
    "Neqo.Keys.C54_updates_wait",
    "Neqo.Keys.C54_update_after_ack",
    "Neqo.Keys.C54_order_partial",
    "Neqo.Keys.C54_order_two_apart",
    "Neqo.Keys.C54_update_accepted_partial",
    "Neqo.Keys.C54_reordering_blocks",
    "Neqo.Keys.C54_old_packet_accepted_partial",
    "Neqo.Keys.C54_update_with_0rtt_keys_panics",
    "Neqo.Keys.C54_no_panic_partial"
   ],
   "note": "Order between keys two generations apart is refuted by C54_order_two_apart; acceptance of overtaken packets by C54_reordering_blocks (no packet is accepted until the old keys are dropped); absence of panics by C54_update_with_0rtt_keys_panics."
  },
  {
   "property": "C55",
   "status": "proved",
   "theorems": [
    "Neqo.Path.C55_validated_by",
    "Neqo.Path.C55_server_needs_response",
    "Neqo.Path.C55_stays_valid",
    "Neqo.Path.C55_client_primary_valid",
    "Neqo.Path.C55_echo",
    "Neqo.Path.C55_challenge_answered",
    "Neqo.Path.C55_validation_goes_on",
    "Neqo.Path.C55_at_most_six",
    "Neqo.Path.C55_gives_up",
    "Neqo.Path.C55_failed_path_replaced",
    "Neqo.Path.C55_slow_path_abandoned",
    "Neqo.Path.C55_challenge_without_cid_closes"
   ],
   "note": "C55_slow_path_abandoned and C55_challenge_without_cid_closes show where the code departs from RFC 9000."
  },
  {
   "property": "C56",
   "status": "proved",
   "theorems": [
    "Neqo.Path.C56_paths",
    "Neqo.Path.C56_one_primary",
    "Neqo.Path.C56_send_path",
    "Neqo.Path.C56_no_panic",
    "Neqo.Path.C56_path_remains"
   ],
   "note": ""
  },
  {
   "property": "C57",
   "status": "partial",
   "theorems": [
    "Neqo.Sched.C57_queued_where_set",
    "Neqo.Sched.C57_no_panic",
    "Neqo.Sched.C57_settings",
    "Neqo.Sched.C57_ended_removed_partial",
    "Neqo.Sched.C57_ended_stream_stays"
   ],
   "note": "Partial: removal of ended streams is proved when streams end by acknowledgment (C57_ended_removed_partial); C57_ended_stream_stays shows that a stream ended by STOP_SENDING after its reset was acknowledged stays in the table. Over every history of calls, for any behaviour of streams that obeys WriterOk and WriterEnds."
  },
  {
   "property": "C58",
   "status": "proved",
   "theorems": [
    "Neqo.Sched.C58_unfair_first",
    "Neqo.Sched.C58_send_order",
    "Neqo.Sched.C58_work_conserving",
    "Neqo.Sched.C58_passes_end",
    "Neqo.Sched.C58_laws_hold",
    "Neqo.Sched.C58_null_order_starves"
   ],
   "note": "For any behaviour of streams that obeys WriterOk (shown of the modelled send stream). C58_null_order_starves: a stream without an order can starve behind one of its group with an order, although the rule quoted in the code says it must not."
  },
  {
   "property": "C59",
   "status": "partial",
   "theorems": [
    "Neqo.Strs.C59_as_new_partial",
    "Neqo.Strs.C59_then_limits",
    "Neqo.Strs.C59_credit_lost",
    "Neqo.Strs.C59_limit_exceeded"
   ],
   "note": "Streams, stream numbers and stream limits are those of a new connection (C59_as_new_partial, C59_then_limits). False for the credit of the connection: C59_credit_lost (rejected bytes stay counted) and C59_limit_exceeded (a lower limit is ignored). Packet number spaces and keys after rejection are in C53."
  },
  {
   "property": "C60",
   "status": "partial",
   "theorems": [
    "Neqo.Frm.C60_reset",
    "Neqo.Frm.C60_stop_sending",
    "Neqo.Frm.C60_max_data",
    "Neqo.Frm.C60_max_stream_data",
    "Neqo.Frm.C60_max_streams",
    "Neqo.Frm.C60_data_blocked",
    "Neqo.Frm.C60_stream_data_blocked",
    "Neqo.Frm.C60_streams_blocked",
    "Neqo.Frm.C60_ack_frequency",
    "Neqo.Frm.C60_handshake_done",
    "Neqo.Frm.C60_retire_connection_id",
    "Neqo.Frm.C60_path_challenge",
    "Neqo.Frm.C60_path_response",
    "Neqo.Frm.C60_new_connection_id",
    "Neqo.Frm.C60_new_token",
    "Neqo.Frm.C60_ping",
    "Neqo.Frm.C60_crypto",
    "Neqo.Frm.C60_stream",
    "Neqo.Frm.C60_datagram",
    "Neqo.Frm.C60_ack",
    "Neqo.Frm.C60_nothing_after_full",
    "Neqo.Frm.C60_close_partial",
    "Neqo.Frm.C60_close_does_not_fit"
   ],
   "note": "All frame writers produce a form of the frame that is meant, within the space left, and add it if any form fits. For CONNECTION_CLOSE this holds with 274 bytes left; with at most 256 left and a reason that has to be shortened, C60_close_does_not_fit proves that it is written beyond the space left (the shortened reason ignores the bytes before it)."
  },
  {
   "property": "C61",
   "status": "partial",
   "theorems": [
    "Neqo.Frm.C61_allowed",
    "Neqo.Frm.C61_accepted_partial",
    "Neqo.Frm.C61_close_refused_in_0rtt",
    "Neqo.Frm.C61_packet",
    "Neqo.Frm.C61_eliciting",
    "Neqo.Frm.C61_probing",
    "Neqo.Frm.C61_type_partial",
    "Neqo.Frm.C61_type_of_datagram",
    "Neqo.Frm.C61_type_of_ack"
   ],
   "note": "Accepted frames are allowed by RFC 9000, table 3. The converse fails for CONNECTION_CLOSE in 0-RTT packets (C61_close_refused_in_0rtt). The reported type is right except for DATAGRAM, whose two types are exchanged, and ACK with ECN counts (C61_type_of_datagram, C61_type_of_ack)."
  },
  {
   "property": "C62",
   "status": "partial",
   "theorems": [
    "Neqo.Qp.C62_read",
    "Neqo.Qp.C62_chunks",
    "Neqo.Qp.C62_read_block",
    "Neqo.Qp.C62_round_trip_partial",
    "Neqo.Qp.C62_too_long",
    "Neqo.Qp.C62_short_string_refused"
   ],
   "note": "Partial: round trip only if at most 384 KiB are on the wire; C62_short_string_refused shows that the encoder writes Huffman coded strings that grow beyond the limit that the reader enforces."
  },
  {
   "property": "C63",
   "status": "partial",
   "theorems": [
    "Neqo.Qp.C63_given_back_partial",
    "Neqo.Qp.C63_all_free_partial",
    "Neqo.Qp.C63_cancelled_partial",
    "Neqo.Qp.C63_pinned",
    "Neqo.Qp.C63_tracked_partial"
   ],
   "note": "Encoder and decoder together, any delays. Proved for an encoder that may use at least what the decoder allows (own table size not below the peer's), for fields with names in UTF-8, sections of at most 384 KiB and fewer than 2^62 inserts. C63_pinned shows that a stream cancelled before the capacity instruction arrives keeps its entries for good."
  },
  {
   "property": "C64",
   "status": "partial",
   "theorems": [
    "Neqo.Qp.C64_limit_partial",
    "Neqo.Qp.C64_list_partial",
    "Neqo.Qp.C64_limit_exceeded"
   ],
   "note": "Encoder and decoder together, any delays. Proved for an encoder that may use at least what the decoder allows (own table size not below the peer's), for fields with names in UTF-8, sections of at most 384 KiB and fewer than 2^62 inserts. C64_limit_exceeded shows that it is false for a smaller encoder."
  },
  {
   "property": "C65",
   "status": "proved",
   "theorems": [
    "Neqo.Qp.C65_decoder",
    "Neqo.Qp.C65_encoder",
    "Neqo.Qp.C65_encoder_error"
   ],
   "note": "For any bytes from the peer, at any point of any history. The encoder's own side keeps to its interface: one send stream, sections of at most 384 KiB with UTF-8 names, fewer than 2^62 insertions."
  },
  {
   "property": "C66",
   "status": "partial",
   "theorems": [
    "Neqo.H3.C66_decoded",
    "Neqo.H3.C66_accepted",
    "Neqo.H3.C66_refused",
    "Neqo.H3.C66_roundtrip",
    "Neqo.H3.C66_configured",
    "Neqo.H3.C66_first_settings_partial",
    "Neqo.H3.C66_large_settings_close",
    "Neqo.H3.C66_second_refused"
   ],
   "note": "Decoding, encoding and the round trip are proved in full. C66_large_settings_close shows that valid settings above the limits of neqo-qpack close the connection."
  },
  {
   "property": "C67",
   "status": "partial",
   "theorems": [
    "Neqo.H3.C67_server_partial",
    "Neqo.H3.C67_bad_ticket",
    "Neqo.H3.C67_client_partial",
    "Neqo.H3.C67_agree_partial",
    "Neqo.H3.C67_raised_capacity_closes",
    "Neqo.H3.C67_connect_forgotten"
   ],
   "note": "Exact condition for a server and necessary condition for a client. C67_connect_forgotten: extended CONNECT is neither saved nor compared. C67_raised_capacity_closes: a raised table capacity is accepted by the server and refused by the client."
  },
  {
   "property": "C68",
   "status": "partial",
   "theorems": [
    "Neqo.H3.C68_frames",
    "Neqo.H3.C68_large_headers_refused",
    "Neqo.H3.C68_close_session_partial",
    "Neqo.H3.C68_long_reason_refused",
    "Neqo.H3.C68_capsules"
   ],
   "note": "Proved for HTTP/3 frames and capsules; Sendable bounds header blocks by the limit of the reader (C68_large_headers_refused shows what happens beyond). C68_close_session_partial needs a reason of at most 1024 bytes, which nothing checks (C68_long_reason_refused)."
  },
  {
   "property": "C69",
   "status": "proved",
   "theorems": [
    "Neqo.H3.C69_message",
    "Neqo.H3.C69_closed",
    "Neqo.H3.C69_order",
    "Neqo.H3.C69_progress",
    "Neqo.H3.C69_empty_body"
   ],
   "note": "All calls on SendMessage with a stream that exists. C69_empty_body: a call with no bytes fails although it writes an empty frame."
  },
  {
   "property": "C70",
   "status": "partial",
   "theorems": [
    "Neqo.H3.C70_head",
    "Neqo.H3.C70_end_after_head",
    "Neqo.H3.C70_end_partial",
    "Neqo.H3.C70_no_panic",
    "Neqo.H3.C70_end_with_head_closes",
    "Neqo.H3.C70_end_in_head_closes"
   ],
   "note": "C70_head settles every head and division while the stream has not ended; C70_end_after_head shows a later end changes nothing. When the end arrives with the last part of the head the code closes the connection in cases where it should not: C70_end_with_head_closes (an empty WebTransport stream) and C70_end_in_head_closes (RFC 9114 section 6.2 requires tolerating it); C70_end_partial says exactly what happens."
  },
  {
   "property": "C71",
   "status": "partial",
   "theorems": [
    "Neqo.H3.C71_prefix",
    "Neqo.H3.C71_promises",
    "Neqo.H3.C71_error",
    "Neqo.H3.C71_whole",
    "Neqo.H3.C71_progress",
    "Neqo.H3.C71_panic_only",
    "Neqo.H3.C71_no_panic_partial",
    "Neqo.H3.C71_blocked_promise_panics",
    "Neqo.H3.C71_blocked_promise_lost"
   ],
   "note": "All histories of arrivals, QPACK insertions and reads. What fails: C71_blocked_promise_panics (a peer can make a client panic with a blocked PUSH_PROMISE before the end of the stream; C71_panic_only shows it is the only way and C71_no_panic_partial that a server has none) and C71_blocked_promise_lost (a blocked promise is forgotten when the application reads the end). The QPACK decoder is abstract, with the two laws of Ctx.Laws."
  },
  {
   "property": "C72",
   "status": "partial",
   "theorems": [
    "Neqo.H3.C72_accepted",
    "Neqo.H3.C72_refused",
    "Neqo.H3.C72_interim",
    "Neqo.H3.C72_request",
    "Neqo.H3.C72_response",
    "Neqo.H3.C72_trailers",
    "Neqo.H3.C72_connect_with_path_accepted",
    "Neqo.H3.C72_odd_status_accepted",
    "Neqo.H3.C72_odd_name_accepted"
   ],
   "note": "C72_accepted is an equivalence with the rules written out in Spec.WellFormed. Some rules of the RFCs are not enforced, so the full English claim fails: C72_connect_with_path_accepted, C72_odd_status_accepted, C72_odd_name_accepted."
  },
  {
   "property": "C73",
   "status": "partial",
   "theorems": [
    "Neqo.Pkt.C73_written_partial",
    "Neqo.Pkt.C73_read",
    "Neqo.Pkt.C73_read_scone",
    "Neqo.Pkt.C73_datagram",
    "Neqo.Pkt.C73_total"
   ],
   "note": "Partial: packets with long headers are written correctly only in datagrams below 2^14 bytes, the largest length that their two-byte length field can hold; larger ones would be written with a truncated length. The AEAD and the mask function are parameters (fixed expansion, 16-byte masks)."
  },
  {
   "property": "C74",
   "status": "proved",
   "theorems": [
    "Neqo.Pkt.C74_authentic",
    "Neqo.Pkt.C74_datagram"
   ],
   "note": "Assumes authenticity of the AEAD (Spec.Genuine) and that the connection ID decoder returns a prefix of its input."
  },
  {
   "property": "C76",
   "status": "proved",
   "theorems": [
    "Neqo.Hs.C76_client_validated",
    "Neqo.Hs.C76_agreement",
    "Neqo.Hs.C76_connects",
    "Neqo.Hs.C76_connects_after_negotiation",
    "Neqo.Hs.C76_no_panic",
    "Neqo.Hs.C76_second_negotiation_acted_on",
    "Neqo.Hs.C76_retry_after_negotiation_wrong_keys",
    "Neqo.Hs.C76_retry_keys",
    "Neqo.Hs.C76_other_source_accepted"
   ],
   "note": "TLS is abstract: it hands over transport parameters, reports secrets and completion. Also proved: a second Version Negotiation packet is acted on, a Retry after negotiating an incompatible version leaves the wrong keys, and Initial packets with another source connection ID are processed."
  },
  {
   "property": "C75",
   "status": "proved",
   "theorems": [
    "Neqo.Pkt.C75_retry_written",
    "Neqo.Pkt.C75_retry_read",
    "Neqo.Pkt.C75_retry_genuine",
    "Neqo.Pkt.C75_negotiation_written",
    "Neqo.Pkt.C75_negotiation_read",
    "Neqo.Pkt.C75_versions_total"
   ],
   "note": "The integrity tag is an arbitrary function of version and pseudo-packet."
  },
  {
   "property": "C77",
   "status": "proved",
   "theorems": [
    "Neqo.Av.C77_retry_token_genuine",
    "Neqo.Av.C77_pass_genuine",
    "Neqo.Av.C77_no_panic",
    "Neqo.Av.C77_foreign_token_tolerated",
    "Neqo.Av.C77_damaged_retry_refused",
    "Neqo.Av.C77_retry_token_accepted",
    "Neqo.Av.C77_new_token_accepted",
    "Neqo.Av.C77_token_made",
    "Neqo.Av.C77_no_tokens_after_50_days",
    "Neqo.Av.C77_short_token_dropped",
    "Neqo.Av.C77_client_tokens",
    "Neqo.Av.C77_newest_first",
    "Neqo.Av.C77_written_tokens",
    "Neqo.Av.C77_written_once",
    "Neqo.Av.C77_written_fit",
    "Neqo.Av.C77_tokens_sent"
   ],
   "note": "AEAD is abstract: what opens was sealed (soundness), what was sealed opens (completeness). Findings: C77_no_tokens_after_50_days (expiry in ms does not fit 32 bits after 49.7 days), C77_short_token_dropped."
  },
  {
   "property": "C78",
   "status": "proved",
   "theorems": [
    "Neqo.Srv.C78_bogus_initial_stays",
    "Neqo.Srv.C78_retry_cid_replaced",
    "Neqo.Srv.C78_reaction",
    "Neqo.Srv.C78_delivered",
    "Neqo.Srv.C78_negotiates",
    "Neqo.Srv.C78_always_validated",
    "Neqo.Srv.C78_connections_kept",
    "Neqo.Srv.C78_in_order",
    "Neqo.Srv.C78_nothing_lost",
    "Neqo.Srv.C78_no_panic",
    "Neqo.Srv.C78_output"
   ],
   "note": "Connections are abstract (any behaviour behind the interface that the server calls). Findings: C78_bogus_initial_stays (a connection made for an Initial packet that cannot be decrypted is never removed), C78_retry_cid_replaced (a Retry token does not bind the Source Connection ID of the Retry packet)."
  },
  {
   "property": "C79",
   "status": "partial",
   "theorems": [
    "Neqo.Dg.C79_in_order",
    "Neqo.Dg.C79_packets",
    "Neqo.Dg.C79_send_partial",
    "Neqo.Dg.C79_receive_partial",
    "Neqo.Dg.C79_frame_exceeds_limit",
    "Neqo.Dg.C79_longer_frame_accepted"
   ],
   "note": "Partial: limits are compared with the length of the data, not of the whole frame as RFC 9221 section 3 demands, so that a frame longer than the peer accepts can be sent and one longer than announced is accepted: C79_frame_exceeds_limit and C79_longer_frame_accepted."
  },
  {
   "property": "C80",
   "status": "partial",
   "theorems": [
    "Neqo.Pmtud.C80_bounds",
    "Neqo.Pmtud.C80_confirmed_partial",
    "Neqo.Pmtud.C80_finds_largest_partial",
    "Neqo.Pmtud.C80_three_probes_partial",
    "Neqo.Pmtud.C80_unprobed_after_late_ack",
    "Neqo.Pmtud.C80_unprobed_after_restart",
    "Neqo.Pmtud.C80_base_exceeds_peer_limit"
   ],
   "note": "Partial: all but the bounds assume that probes are acknowledged or lost before the next is sent or the search is restarted, because acknowledgments of probes of an earlier round raise the size without a probe of it (C80_unprobed_after_late_ack, C80_unprobed_after_restart). The starting size can exceed what the peer accepts (C80_base_exceeds_peer_limit)."
  },
  {
   "property": "C81",
   "status": "proved",
   "theorems": [
    "Neqo.Ecn.C81_failed_for_good",
    "Neqo.Ecn.C81_few_marked",
    "Neqo.Ecn.C81_decided",
    "Neqo.Ecn.C81_congestion",
    "Neqo.Ecn.C81_honest",
    "Neqo.Ecn.C81_capable_without_marked",
    "Neqo.Ecn.C81_black_hole_stays",
    "Neqo.Ecn.C81_removed_marks_missed",
    "Neqo.Ecn.C81_reordered_ack_fails"
   ],
   "note": "Findings with witnesses: C81_capable_without_marked, C81_black_hole_stays, C81_removed_marks_missed, C81_reordered_ack_fails."
  },
  {
   "property": "C82",
   "status": "partial",
   "theorems": [
    "Neqo.Pace.C82_rate",
    "Neqo.Pace.C82_wait",
    "Neqo.Pace.C82_disabled_partial",
    "Neqo.Pace.C82_disabled_delays",
    "Neqo.Pace.C82_burst_of_three"
   ],
   "note": "Partial: with pacing disabled, sending can still be delayed when the MTU grows (C82_disabled_delays). Minor: C82_burst_of_three."
  },
  {
   "property": "C83",
   "status": "partial",
   "theorems": [
    "Neqo.AckRate.C83_frames_partial",
    "Neqo.AckRate.C83_target",
    "Neqo.AckRate.C83_when_needed",
    "Neqo.AckRate.C83_delay_partial",
    "Neqo.AckRate.C83_min_delay_panics",
    "Neqo.AckRate.C83_delay_too_short",
    "Neqo.AckRate.C83_number_reused",
    "Neqo.AckRate.C83_stuck_after_migration"
   ],
   "note": "Partial: a peer whose smallest delay is over 50 ms (and valid) makes the connection panic (C83_min_delay_panics); the delay is too short when the window shrinks while a request is on its way (C83_delay_too_short); after a migration numbers are reused (C83_number_reused) or no request is sent at all (C83_stuck_after_migration)."
  },
  {
   "property": "C84",
   "status": "proved",
   "theorems": [
    "Neqo.Events.C84_in_order",
    "Neqo.Events.C84_distinct",
    "Neqo.Events.C84_not_lost",
    "Neqo.Events.C84_no_stale",
    "Neqo.Events.C84_datagrams",
    "Neqo.Events.C84_closing",
    "Neqo.Events.C84_last_path_wrong",
    "Neqo.Events.C84_draining_keeps",
    "Neqo.Events.C84_datagrams_unbounded"
   ],
   "note": "Findings: after migrating back while the application does not poll, the last event names the wrong path (C84_last_path_wrong); a close by the peer leaves events of streams that are gone (C84_draining_keeps); waiting datagrams are not bounded (C84_datagrams_unbounded)."
  },
  {
   "property": "C85",
   "status": "partial",
   "theorems": [
    "Neqo.Crypto.C85_no_panic",
    "Neqo.Crypto.C85_frames",
    "Neqo.Crypto.C85_packet",
    "Neqo.Crypto.C85_progress",
    "Neqo.Crypto.C85_fills",
    "Neqo.Crypto.C85_nothing_forgotten",
    "Neqo.Crypto.C85_written_in_full",
    "Neqo.Crypto.C85_excess_dropped",
    "Neqo.Crypto.C85_once_without_loss",
    "Neqo.Crypto.C85_delivery",
    "Neqo.Crypto.C85_end_to_end",
    "Neqo.Crypto.C85_buffer_bound",
    "Neqo.Crypto.C85_minimum_buffer_partial",
    "Neqo.Crypto.C85_overlap_closes",
    "Neqo.Crypto.C85_spaces_independent",
    "Neqo.Crypto.C85_discard",
    "Neqo.Crypto.C85_after_discard",
    "Neqo.Crypto.C85_discard_order"
   ],
   "note": "The claim that 4096 bytes can always be buffered out of order is proved only when the frames that arrived add up to at most 65536 bytes more than was delivered (C85_minimum_buffer_partial); C85_overlap_closes shows that it is false otherwise. C85_excess_dropped shows that messages beyond 10 MiB are cut."
  },
  {
   "property": "C86",
   "status": "proved",
   "theorems": [
    "Neqo.Sni.C86_in_range",
    "Neqo.Sni.C86_found",
    "Neqo.Sni.C86_not_found",
    "Neqo.Sni.C86_other_message",
    "Neqo.Sni.C86_two_names"
   ],
   "note": "C86_two_names: a list of several names, which TLS 1.3 does not allow, counts as one name."
  },
  {
   "property": "C87",
   "status": "partial",
   "theorems": [
    "Neqo.Asm.C87_small_initial",
    "Neqo.Asm.C87_small_initial_always",
    "Neqo.Asm.C87_small_server_initial",
    "Neqo.Asm.C87_padding_joins_short",
    "Neqo.Asm.C87_padding_joins_data",
    "Neqo.Asm.C87_oversized",
    "Neqo.Asm.C87_oversized_limited",
    "Neqo.Asm.C87_path_frames_not_recorded",
    "Neqo.Asm.C87_long_token_silent",
    "Neqo.Asm.C87_size",
    "Neqo.Asm.C87_profile",
    "Neqo.Asm.C87_within_mtu",
    "Neqo.Asm.C87_not_empty",
    "Neqo.Asm.C87_counted",
    "Neqo.Asm.C87_no_error",
    "Neqo.Asm.C87_order",
    "Neqo.Asm.C87_short_last",
    "Neqo.Asm.C87_elicits",
    "Neqo.Asm.C87_client_initial",
    "Neqo.Asm.C87_server_initial",
    "Neqo.Asm.C87_readable_partial",
    "Neqo.Asm.C87_probe",
    "Neqo.Asm.C87_scone",
    "Neqo.Asm.C87_more_initial",
    "Neqo.Asm.C87_keys_discarded",
    "Neqo.Asm.C87_progress"
   ],
   "note": "Model at the level of sizes, for arbitrary frame writers. Partial: with an ACK-only or limited short-header packet behind an Initial packet the padding is appended to the short-header packet, which the receiver then cannot decrypt (C87_padding_joins_short, C87_padding_joins_data). Further findings: Initial packets in datagrams below 1200 bytes when pacing or another limit applies (C87_small_initial, C87_small_initial_always, C87_small_server_initial; RFC 9000 section 14.1), datagrams larger than the path MTU that are not tagged as probes (C87_oversized, C87_oversized_limited), path frames not recorded as ack-eliciting when only ACK frames are allowed (C87_path_frames_not_recorded), and a token that does not fit silences the client (C87_long_token_silent). Ciphers are assumed to need no extra padding for header protection (true of all ciphers of TLS)."
  },
  {
   "property": "C88",
   "status": "proved",
   "theorems": [
    "Neqo.Asm.C88_no_error",
    "Neqo.Asm.C88_equal",
    "Neqo.Asm.C88_total",
    "Neqo.Asm.C88_first",
    "Neqo.Asm.C88_probe_first",
    "Neqo.Asm.C88_fits_udp",
    "Neqo.Asm.C88_frames_after_close"
   ],
   "note": "Built on the model of C87. Assumes that the path MTU does not change within a batch (asserted by the code) and that the frame writers keep to the space they are given. Finding: after a closing datagram of full size, the batch goes on with ordinary frames (C88_frames_after_close; RFC 9000 section 10.2.1)."
  },
  {
   "property": "C89",
   "status": "partial",
   "theorems": [
    "Neqo.Life.C89_completion_panics",
    "Neqo.Life.C89_completion_after_own_close_panics",
    "Neqo.Life.C89_completion_after_close_panics",
    "Neqo.Life.C89_stream_after_close",
    "Neqo.Life.C89_close_while_draining_sends",
    "Neqo.Life.C89_close_after_idle_sends",
    "Neqo.Life.C89_reason_replaced",
    "Neqo.Life.C89_close_puts_off_end",
    "Neqo.Life.C89_idle_replaces_reason",
    "Neqo.Life.C89_short_closing_time",
    "Neqo.Life.C89_any_packet_answered",
    "Neqo.Life.C89_forward",
    "Neqo.Life.C89_told",
    "Neqo.Life.C89_stays_closed",
    "Neqo.Life.C89_no_more_streams",
    "Neqo.Life.C89_packets",
    "Neqo.Life.C89_draining_partial",
    "Neqo.Life.C89_same_reason",
    "Neqo.Life.C89_reason_partial",
    "Neqo.Life.C89_close",
    "Neqo.Life.C89_error",
    "Neqo.Life.C89_peer_closes",
    "Neqo.Life.C89_ends",
    "Neqo.Life.C89_reset",
    "Neqo.Life.C89_reset_only",
    "Neqo.Life.C89_reset_silent",
    "Neqo.Life.C89_no_panic_partial"
   ],
   "note": "Holds: forward only, announcements, quiet after closing, the number and reason of CONNECTION_CLOSE, the end of the closing state, stateless reset. Restricted: no assertion fails unless the handshake completes on a closed connection (which the application or a peer can cause), a draining connection sends one packet unless the application closes, the reason stays unless the idle timer expires or the application closes again. Theorems C89_completion_panics, C89_completion_after_own_close_panics, C89_completion_after_close_panics, C89_stream_after_close, C89_close_while_draining_sends, C89_close_after_idle_sends, C89_reason_replaced, C89_close_puts_off_end, C89_idle_replaces_reason, C89_short_closing_time and C89_any_packet_answered are concrete witnesses of what does not hold."
  },
  {
   "property": "C90",
   "status": "proved",
   "theorems": [
    "Neqo.Life.C90_connected",
    "Neqo.Life.C90_client_confirmed",
    "Neqo.Life.C90_completion",
    "Neqo.Life.C90_done_refused",
    "Neqo.Life.C90_done_accepted",
    "Neqo.Life.C90_done_inv",
    "Neqo.Life.C90_done_sent",
    "Neqo.Life.C90_create"
   ],
   "note": "Losses of HANDSHAKE_DONE are restricted to histories in which it was sent (Possible). TLS is an input: the theorems say what follows from its answers."
  },
  {
   "property": "C91",
   "status": "partial",
   "theorems": [
    "Neqo.H3c.C91_one_of_each",
    "Neqo.H3c.C91_second_refused",
    "Neqo.H3c.C91_wrong_kind_refused",
    "Neqo.H3c.C91_rejection_starts_over",
    "Neqo.H3c.C91_critical_stay",
    "Neqo.H3c.C91_closed_critical",
    "Neqo.H3c.C91_application_cannot",
    "Neqo.H3c.C91_settings_first",
    "Neqo.H3c.C91_settings_once",
    "Neqo.H3c.C91_settings_taken",
    "Neqo.H3c.C91_settings_stay",
    "Neqo.H3c.C91_zero_rtt_settings",
    "Neqo.H3c.C91_not_connect_setting",
    "Neqo.H3c.C91_states_in_order_partial",
    "Neqo.H3c.C91_not_server_closed_again",
    "Neqo.H3c.C91_not_enough_streams"
   ],
   "note": "Proved over all reachable states of the connection. States in order without the rejection of 0-RTT. Refuted: the extended CONNECT setting after 0-RTT (C91_not_connect_setting), a server closing again (C91_not_server_closed_again); C91_not_enough_streams: a peer that allows fewer than three unidirectional streams ends the connection."
  },
  {
   "property": "C92",
   "status": "partial",
   "theorems": [
    "Neqo.H3c.C92_refused",
    "Neqo.H3c.C92_made",
    "Neqo.H3c.C92_goaway_refused",
    "Neqo.H3c.C92_goaway",
    "Neqo.H3c.C92_below_limit",
    "Neqo.H3c.C92_not_session_streams",
    "Neqo.H3c.C92_not_failed_request",
    "Neqo.H3c.C92_not_client_goaway",
    "Neqo.H3c.C92_not_server_limit",
    "Neqo.H3c.C92_not_connect_halves",
    "Neqo.H3c.C92_not_unknown_protocol"
   ],
   "note": "Refuted: C92_not_session_streams, C92_not_failed_request, C92_not_client_goaway, C92_not_server_limit, C92_not_connect_halves, C92_not_unknown_protocol (a remote client can make a server panic with an extended CONNECT for an unknown protocol)."
  },
  {
   "property": "C93",
   "status": "partial",
   "theorems": [
    "Neqo.H3c.C93_streams_have_session_partial",
    "Neqo.H3c.C93_started_once",
    "Neqo.H3c.C93_all_streams_end",
    "Neqo.H3c.C93_all_streams_end_local",
    "Neqo.H3c.C93_end_reported",
    "Neqo.H3c.C93_open_only_active",
    "Neqo.H3c.C93_no_such_session",
    "Neqo.H3c.C93_not_end_once",
    "Neqo.H3c.C93_not_refused_once",
    "Neqo.H3c.C93_not_late_stream",
    "Neqo.H3c.C93_not_connect_as_session",
    "Neqo.H3c.C93_not_failed_session",
    "Neqo.H3c.C93_not_pending_reset"
   ],
   "note": "Without the assumption on late streams C93_not_late_stream shows an orphan. Refuted: C93_not_end_once, C93_not_refused_once, C93_not_late_stream, C93_not_connect_as_session, C93_not_failed_session, C93_not_pending_reset. An end by the application that must wait for flow control is covered up to the moment when everything is written."
  },
  {
   "property": "C94",
   "status": "proved",
   "theorems": [
    "Neqo.E2E.C94_read_is_prefix_of_written",
    "Neqo.E2E.C94_fin_means_everything_read"
   ],
   "note": "Proved over all reachable states of the sending half of one endpoint, the receiving half of the other and the network between them (frames one by one)."
  },
  {
   "property": "C95",
   "status": "partial",
   "theorems": [
    "Neqo.E2E.C95_no_event_breaks_a_connection_partial",
    "Neqo.E2E.C95_smaller_window_breaks_connection"
   ],
   "note": "C95_no_event_breaks_a_connection_partial has the exception of the gap limit and assumes that windows do not shrink; C95_smaller_window_breaks_connection shows that with a smaller window an honest writer makes the reader close the connection."
  },
  {
   "property": "C96",
   "status": "proved",
   "theorems": [
    "Neqo.E2E.C96_complete_means_arrived",
    "Neqo.E2E.C96_nothing_forgotten",
    "Neqo.E2E.C96_rest_is_read",
    "Neqo.E2E.C96_complete_stream_can_be_read"
   ],
   "note": "C96_complete_means_arrived, C96_nothing_forgotten, C96_rest_is_read and C96_complete_stream_can_be_read, over all reachable states of the two endpoints."
  },
  {
   "property": "C97",
   "status": "proved",
   "theorems": [
    "Neqo.E2E.C97_stream_window_open_or_raised",
    "Neqo.E2E.C97_reader_that_caught_up_gives_credit",
    "Neqo.E2E.C97_blocked_writer_is_answered",
    "Neqo.E2E.C97_lost_limit_is_announced_again",
    "Neqo.E2E.C97_connection_window_open_or_raised",
    "Neqo.E2E.C97_blocked_connection_is_answered",
    "Neqo.E2E.C97_lost_connection_limit_is_announced_again",
    "Neqo.E2E.C97_no_deadlock"
   ],
   "note": "Proved over all reachable states of the two endpoints (frames one by one). That the packet with room is sent at all is not part of this model."
  },
  {
   "property": "C98",
   "status": "partial",
   "theorems": [
    "Neqo.Rec.C98_always_answers",
    "Neqo.Rec.C98_loss_in_time",
    "Neqo.Rec.C98_probe_in_time",
    "Neqo.Rec.C98_handshake_never_stuck",
    "Neqo.Rec.C98_early_call_loses_nothing",
    "Neqo.Rec.C98_early_call_sends_no_probe_partial",
    "Neqo.Rec.C98_after_call_future_or_probe",
    "Neqo.Rec.C98_early_call_fires_probe",
    "Neqo.Timer.C98_timers_in_future_partial",
    "Neqo.Timer.C98_callback_in_time",
    "Neqo.Timer.C98_always_a_callback",
    "Neqo.Timer.C98_failover_leaves_time_in_past"
   ],
   "note": "Two counterexamples. Before the handshake is confirmed a call that is too early can fire the probe timer of application packets, which is not part of the time asked for (C98_early_call_fires_probe), so C98_early_call_sends_no_probe_partial is for confirmed connections. If the primary path is given up for one with a smaller probe timeout, the time of a probe on another path can be in the past (C98_failover_leaves_time_in_past), so C98_timers_in_future_partial takes the timeout of the new primary path to be at least that of the old one. The time of a delayed acknowledgement is C51."
  },
  {
   "property": "C99",
   "status": "proved",
   "theorems": [
    "Neqo.Ss.C99_controller_leaves",
    "Neqo.Ss.C99_conservative_only_if_raised",
    "Neqo.Ss.C99_leaves_after_four_trips",
    "Neqo.Ss.C99_jitter_is_ignored",
    "Neqo.Ss.C99_leaves",
    "Neqo.Ss.C99_resumes",
    "Neqo.Ss.C99_growth"
   ],
   "note": "Packet numbers are those of one packet number space: HyStart++ compares numbers without regard to the space. The controller is modelled with the algorithm, so that what HyStart++ sees is what the controller lets it see (C99_controller_leaves). Growth limited to eight datagrams without pacing is part of C99_growth. A round is delimited by the first packet sent after the last one ended; the first of the five rounds that count is the one in which the conservative phase began, hence four whole round trips after it."
  },
  {
   "property": "C100",
   "status": "proved",
   "theorems": [
    "Neqo.Ss.C100_as_specified",
    "Neqo.Ss.C100_leaves_only_if_flat",
    "Neqo.Ss.C100_leaves_if_flat",
    "Neqo.Ss.C100_stays_while_delivered",
    "Neqo.Ss.C100_stays_while_silent",
    "Neqo.Ss.C100_estimates",
    "Neqo.Ss.C100_zero_rtt_panics"
   ],
   "note": "For round-trip times of at least 3 ns; below that the length of a bin is zero, which a debug assertion excludes (C100_zero_rtt_panics; without it the division would panic). Counters do not overflow in the model."
  },
  {
   "property": "C101",
   "status": "partial",
   "theorems": [
    "Neqo.Sess.C101_round_trip",
    "Neqo.Sess.C101_only_there",
    "Neqo.Sess.C101_any_delivery",
    "Neqo.Sess.C101_refused",
    "Neqo.Sess.C101_max_size",
    "Neqo.Sess.C101_capsules_partial",
    "Neqo.Sess.C101_long_capsule_ends_session",
    "Neqo.Sess.C101_dropped_iff"
   ],
   "note": "C101_capsules_partial is limited to capsules the peer is able to read (content of at most 65534 bytes). C101_long_capsule_ends_session shows that the full statement is false: a longer datagram is accepted for sending and makes the peer close the whole session."
  },
  {
   "property": "C102",
   "status": "partial",
   "theorems": [
    "Neqo.Sess.C102_in_order_partial",
    "Neqo.Sess.C102_in_order_server_partial",
    "Neqo.Sess.C102_end_is_told",
    "Neqo.Sess.C102_once_partial",
    "Neqo.Sess.C102_refusal_reported_twice",
    "Neqo.Sess.C102_refusal_yields_datagrams",
    "Neqo.Sess.C102_close_reported_twice",
    "Neqo.Sess.C102_close_reported_often",
    "Neqo.Sess.C102_datagrams_after_close",
    "Neqo.Sess.C102_silent_when_gone",
    "Neqo.Sess.C102_own_actions_silent",
    "Neqo.Sess.C102_close_message"
   ],
   "note": "Order is proved up to the first report of the end, and the whole of it when the peer's refusal carries nothing behind its headers, every CLOSE_SESSION comes together with the end of its stream and the application does not close the session itself (C102_once_partial). In general it is false: C102_refusal_reported_twice, C102_refusal_yields_datagrams, C102_close_reported_twice, C102_close_reported_often (no bound on the number of reports), C102_datagrams_after_close. Streams inside a WebTransport session are not part of this model; the reading of HTTP messages on the control stream is represented by what it delivers."
  },
  {
   "property": "C103",
   "status": "partial",
   "theorems": [
    "Neqo.Saved.C103_conserved",
    "Neqo.Saved.C103_bounded",
    "Neqo.Saved.C103_room",
    "Neqo.Saved.C103_in_time_partial",
    "Neqo.Saved.C103_stranded",
    "Neqo.Saved.C103_assertion_fails"
   ],
   "note": "C103_in_time_partial needs that no single call brings both the Handshake keys and the end of the handshake; this is so when a client verifies a certificate and on servers. C103_stranded shows that the full statement is false: with a resumed handshake, one call with several datagrams can make both sets of keys available, the note which packets are available is overwritten, and those that wait for Handshake keys are never taken up. C103_assertion_fails: in a similar case the (debug) assertion of process_saved does not hold. The effect of packets on the handshake is a given function of all packets opened before."
  },
  {
   "property": "C104",
   "status": "partial",
   "theorems": [
    "Neqo.Saved.C104_no_effect_partial",
    "Neqo.Saved.C104_forged_stops_server",
    "Neqo.Saved.C104_room_taken"
   ],
   "note": "C104_no_effect_partial: nothing is processed, and no keys change except Initial keys of a server. C104_forged_stops_server shows that the full statement is false: a server discards Initial keys for any Handshake packet with a valid connection ID before opening it; while the client's first message is incomplete this ends the handshake whatever follows. C104_room_taken: forged packets take the room of packets that come before their keys. Connection IDs are not modelled here: the forger is one who knows them."
  },
  {
   "property": "C105",
   "status": "proved",
   "theorems": [
    "Neqo.H3.C105_received_is_prefix_of_sent",
    "Neqo.H3.C105_end_means_all_received",
    "Neqo.H3.C105_all_can_be_read",
    "Neqo.H3.C105_over_any_network"
   ],
   "note": "Puts together C69 (sending), C94 (streams over a network) and C71 (receiving). Errors that do not follow from the stream remain possible: too many streams wait for the QPACK table. That the QPACK decoder gets the fields that the encoder was given is C40 to C42; here it is a given function of the block. Requests that open a session (extended CONNECT) are C101 and C102. Trailers are not passed on by the receiver."
  },
  {
   "property": "C106",
   "status": "proved",
   "theorems": [
    "Neqo.H3.C106_no_report_is_missing",
    "Neqo.H3.C106_all_is_passed_on",
    "Neqo.H3.C106_pieces",
    "Neqo.H3.C106_no_panic",
    "Neqo.H3.C106_request_arrives"
   ],
   "note": "One request stream at the server, on top of the receiving side of C71. The handlers of connections, resets and the streams and datagrams of sessions are not part of this model. Events that the application has not yet taken stay in the queue."
  },
  {
   "property": "C107",
   "status": "partial",
   "theorems": [
    "Neqo.H3.C107_stream_carries_what_was_accepted",
    "Neqo.H3.C107_nothing_after_close",
    "Neqo.H3.C107_close_is_carried_out",
    "Neqo.H3.C107_peer_gets_session_and_data",
    "Neqo.H3.C107_end_means_all_partial",
    "Neqo.H3.C107_empty_stream_closes_connection",
    "Neqo.H3.C107_reset_keeps_session",
    "Neqo.H3.C107_commit_covers_all",
    "Neqo.H3.C107_over_any_network_partial"
   ],
   "note": "The end of the stream is partial: C107_empty_stream_closes_connection shows that a stream opened and closed without data, whose preface and end arrive together, makes the peer close the connection with an error (the reader of stream heads takes the end for an early one)."
  },
  {
   "property": "C108",
   "status": "proved",
   "theorems": [
    "Neqo.H3.C108_client_opened",
    "Neqo.H3.C108_server_opened",
    "Neqo.H3.C108_only_at_a_client"
   ],
   "note": "C108_only_at_a_client: the functions would be wrong at a server, where they cannot be asked for."
  },
  {
   "property": "C109",
   "status": "partial",
   "theorems": [
    "Neqo.H3.C109_no_panic",
    "Neqo.H3.C109_server_reads_frames",
    "Neqo.H3.C109_answer",
    "Neqo.H3.C109_updates_are_current",
    "Neqo.H3.C109_nothing_forgotten",
    "Neqo.H3.C109_server_is_told_partial",
    "Neqo.H3.C109_first_priority_not_told",
    "Neqo.H3.C109_push_update_names_stream"
   ],
   "note": "Partial because of two things the code does not do. C109_first_priority_not_told: the priority given to fetch or connect is never told to the server, not even when the application sets it again. C109_push_update_names_stream: the update for a push carries the stream ID in place of the push ID (RFC 9218, section 7.2)."
  },
  {
   "property": "C110",
   "status": "partial",
   "theorems": [
    "Neqo.H3.C110_fetch_refuses_connect",
    "Neqo.H3.C110_fetch_accepted_iff",
    "Neqo.H3.C110_server_gets_the_request",
    "Neqo.H3.C110_connect_accepted_partial",
    "Neqo.H3.C110_connect_can_be_bent",
    "Neqo.H3.C110_extended_accepted_iff",
    "Neqo.H3.C110_extended_is_known"
   ],
   "note": "Partial: C110_connect_can_be_bent shows that connect with pseudo-header fields among the application's fields makes an extended CONNECT that a server takes as such. C110_server_gets_the_request is for fetch; C110_extended_is_known and C110_connect_accepted_partial are for the others."
  },
  {
   "property": "C111",
   "status": "partial",
   "theorems": [
    "Neqo.Asm.C111_accepted",
    "Neqo.Asm.C111_told_when",
    "Neqo.Asm.C111_not_dropped_partial",
    "Neqo.Asm.C111_sent_partial",
    "Neqo.Asm.C111_dropped_for_little_window",
    "Neqo.Asm.C111_dropped_behind_handshake",
    "Neqo.Asm.C111_dropped_beside_path_response"
   ],
   "note": "False in general. Proved for packets that begin their UDP datagram, with the whole MTU to use and no path being validated. Counterexamples: C111_dropped_for_little_window (a congestion window with room for less than a packet makes datagrams that fit the MTU be dropped as too long), C111_dropped_behind_handshake (coalescing), C111_dropped_beside_path_response (frames without a token make a packet count as empty)."
  },
  {
   "property": "C112",
   "status": "partial",
   "theorems": [
    "Neqo.H3s.C112_in_order",
    "Neqo.H3s.C112_all_told",
    "Neqo.H3s.C112_closing_told_partial",
    "Neqo.H3s.C112_failure_told",
    "Neqo.H3s.C112_timeout_not_told",
    "Neqo.H3s.C112_closing_after_closed",
    "Neqo.H3s.C112_priority_without_connection",
    "Neqo.H3s.C112_goaway_partial",
    "Neqo.H3s.C112_goaway_not_for_new",
    "Neqo.H3s.C112_closed_told_partial",
    "Neqo.H3s.C112_states_in_order",
    "Neqo.H3s.C112_goaway_kept"
   ],
   "note": "False in general. Proved: order, completeness and promptness of reports for all histories; failures, closing and closed that come with datagrams are told; connected, closing and closed are told in this order and each once until closed is told; a GOAWAY that could not be sent is kept, in order. Counterexamples: C112_timeout_not_told (a connection that closes while the server looks for output leaves the transport's server in the same call, so its end is never told and its handler is kept for ever), C112_closing_after_closed (after a failure the transport's own event makes a new handler, which reports closing after closed and is kept), C112_priority_without_connection, C112_goaway_not_for_new."
  },
  {
   "property": "C113",
   "status": "proved",
   "theorems": [
    "Neqo.Asm.C113_split",
    "Neqo.Asm.C113_whole"
   ],
   "note": "Joined to C88: the sizes are those of the batches that the model of packet assembly makes; the bytes are arbitrary."
  },
  {
   "property": "C114",
   "status": "partial",
   "theorems": [
    "Neqo.Tp.C114_told_partial",
    "Neqo.Tp.C114_no_cid",
    "Neqo.Tp.C114_limit_panics",
    "Neqo.Tp.C114_datagram_size_panics",
    "Neqo.Tp.C114_rejected",
    "Neqo.Tp.C114_short_timeout_not_told"
   ],
   "note": "Partial because two setters accept what cannot be written: C114_limit_panics and C114_datagram_size_panics are the witnesses, C114_told_partial assumes these two below 2^62."
  },
  {
   "property": "C115",
   "status": "proved",
   "theorems": [
    "Neqo.H3.C115_told",
    "Neqo.H3.C115_webtransport_complete",
    "Neqo.H3.C115_rejected",
    "Neqo.H3.C115_connect_stays"
   ],
   "note": "Composes C66 (settings) and C114 (transport parameters)."
  },
  {
   "property": "C116",
   "status": "partial",
   "theorems": [
    "Neqo.Rec.C116_reported",
    "Neqo.Rec.C116_read",
    "Neqo.Rec.C116_handshake",
    "Neqo.Rec.C116_bounded",
    "Neqo.Rec.C116_estimates_partial",
    "Neqo.Rec.C116_variation",
    "Neqo.Rec.C116_formulas",
    "Neqo.Rec.C116_min_partial",
    "Neqo.Rec.C116_min_not_measured"
   ],
   "note": "Partial: the bounds need the initial value as a lower bound; C116_min_not_measured is the witness."
  },
  {
   "property": "C117",
   "status": "partial",
   "theorems": [
    "Neqo.Advice.C117_seven_bits",
    "Neqo.Advice.C117_told_partial",
    "Neqo.Advice.C117_move_not_told",
    "Neqo.Advice.C117_followed",
    "Neqo.Advice.C117_lowest_partial",
    "Neqo.Advice.C117_forgotten_early",
    "Neqo.Advice.C117_expires"
   ],
   "note": "False in general. Proved for all histories: without a move, what was told last is the rate of the path, and only changes are told; a signal is followed at once, and for 67 seconds if it is the lowest; a rate is used only if a packet of that path brought it less than 67 seconds before the last packet. Counterexamples: C117_move_not_told (nothing is told when the connection moves to a path with another rate), C117_forgotten_early (a higher rate that comes while a lower one counts is forgotten when the lower one expires). The conversion to bits per second is floating point and not modelled."
  },
  {
   "property": "C118",
   "status": "partial",
   "theorems": [
    "Neqo.Path.C118_safe",
    "Neqo.Path.C118_safe_reached",
    "Neqo.Path.C118_errors",
    "Neqo.Path.C118_tried_partial",
    "Neqo.Path.C118_moves_when_probed",
    "Neqo.Path.C118_ignored",
    "Neqo.Path.C118_repeated_moves_back",
    "Neqo.Path.C118_repeated_shares_id"
   ],
   "note": "False in general. Proved for every well-formed state (and so every reached one): no panic, only the stated path is opened, nothing becomes valid, the path in use changes only to one validated before, only a contradictory connection ID ends the connection; and the address is tried if it is fit and migration is not disabled. Counterexamples: C118_ignored (a server that disables migration is not followed, though RFC 9000 allows it), C118_repeated_moves_back (a repeated HANDSHAKE_DONE frame moves the client again, against its application), C118_repeated_shares_id (and makes two paths share a connection ID). C118_moves_when_probed: once the answer to the probe comes, the client uses the path, if no other path waits for the same random bytes. Missing: that the probe is sent and stays the target of the migration in between, which other events may change. C118_errors assumes that there is a path."
  },
  {
   "property": "C119",
   "status": "partial",
   "theorems": [
    "Neqo.Groups.C119_own_group",
    "Neqo.Groups.C119_groups_distinct",
    "Neqo.Groups.C119_new_group",
    "Neqo.Groups.C119_in_force",
    "Neqo.Groups.C119_kept",
    "Neqo.Groups.C119_refused",
    "Neqo.Groups.C119_agree_partial",
    "Neqo.Groups.C119_no_panic",
    "Neqo.Groups.C119_lost_by_fairness",
    "Neqo.Groups.C119_unfair_recorded",
    "Neqo.Groups.C119_leaks_streams"
   ],
   "note": "Everything but the last clause is proved for every history in which stream IDs are new. That the layers agree holds if no stream is made unfair (C119_agree_partial) and is false otherwise: C119_lost_by_fairness (unfair and fair again: the transport drops the group, no error, HTTP/3 keeps it), C119_unfair_recorded (a group refused for an unfair stream is recorded). C119_leaks_streams: streams asked for on a session that is not WebTransport stay open in the transport though the call fails. Stream states are abstract; the transport's scheduler is the model of C57."
  },
  {
   "property": "C120",
   "status": "proved",
   "theorems": [
    "Neqo.Prio.C120_in_order",
    "Neqo.Prio.C120_ranks",
    "Neqo.Prio.C120_no_inversion",
    "Neqo.Prio.C120_filled",
    "Neqo.Prio.C120_bounded_wait",
    "Neqo.Prio.C120_starved",
    "Neqo.Prio.C120_datagrams_starve",
    "Neqo.Prio.C120_datagrams_stuck"
   ],
   "note": "Proved for every set of sources that meet the contract Source (take no more than the room, go on while the next frame fits, leave the others alone); that the writers of neqo meet it is not derived here (their own models are those of C48, C58, C79 and others). What the order costs is proved as well: C120_starved, C120_datagrams_starve (a normal stream that always has data starves datagrams, tickets, tokens and low streams for good), C120_datagrams_stuck (on the model of the datagram queue: a datagram that does not fit beside what else is in each packet is neither sent nor dropped, nor are those behind it)."
  },
  {
   "property": "C121",
   "status": "proved",
   "theorems": [
    "Neqo.Hr.C121_finest",
    "Neqo.Hr.C121_windows",
    "Neqo.Hr.C121_mac",
    "Neqo.Hr.C121_restored",
    "Neqo.Hr.C121_update_forgets"
   ],
   "note": "One thread (the state is thread-local). The calls to the operating system are recorded as values; their effect is not modelled. C121_update_forgets is the counterexample to the documented equivalence."
  },
  {
   "property": "C122",
   "status": "proved",
   "theorems": [
    "Neqo.Udp.C122_received",
    "Neqo.Udp.C122_no_panic",
    "Neqo.Udp.C122_tos",
    "Neqo.Udp.C122_through",
    "Neqo.Udp.C122_errors"
   ],
   "note": "The kernel and quinn-udp are not modelled: what they report is assumed to be whole (Group.Whole), and EcnCodepoint::from_bits to give the two ECN bits, none for zero."
  },
  {
   "property": "C123",
   "status": "proved",
   "theorems": [
    "Neqo.Close.C123_hidden",
    "Neqo.Close.C123_replaced",
    "Neqo.Close.C123_kept",
    "Neqo.Close.C123_reason",
    "Neqo.Close.C123_always",
    "Neqo.Close.C123_allowed",
    "Neqo.Close.C123_ack_squeezes"
   ],
   "note": "ACK frames are written by any function that keeps to the space it is given. A reason of 27 bytes or more can be written beyond the space left if the ACK frame takes all that it is given (C123_ack_squeezes, as C60_close_does_not_fit). 0-RTT packets are not covered: there the application's code is sent, which RFC 9000 permits and neqo refuses (C61_close_refused_in_0rtt)."
  },
  {
   "property": "C124",
   "status": "proved",
   "theorems": [
    "Neqo.Hex.C124_digits",
    "Neqo.Hex.C124_ascii",
    "Neqo.Hex.C124_injective",
    "Neqo.Hex.C124_length",
    "Neqo.Hex.C124_with_len",
    "Neqo.Hex.C124_snipped"
   ],
   "note": "The formatter is taken to accept all that is written. How lengths are printed in decimal is Lean's own."
  },
  {
   "property": "C125",
   "status": "partial",
   "theorems": [
    "Neqo.Send.C125_all_or_nothing",
    "Neqo.Send.C125_result",
    "Neqo.Send.C125_blocked_partial",
    "Neqo.Send.C125_silent",
    "Neqo.Send.C125_spurious"
   ],
   "note": "Missing: telling the peer if nothing at all fits; the code does not (C125_silent). C125_spurious shows a limit that is reported as blocking and is not."
  },
  {
   "property": "C126",
   "status": "proved",
   "theorems": [
    "Neqo.Mtu.C126_answer",
    "Neqo.Mtu.C126_index",
    "Neqo.Mtu.C126_name_mtu",
    "Neqo.Mtu.C126_requests",
    "Neqo.Mtu.C126_lookup",
    "Neqo.Mtu.C126_long_message_panics"
   ],
   "note": "Little-endian machines; valid UTF-8 is a parameter. The kernel is not modelled, only the form of its messages: lengths of messages are not padded between messages, as the code assumes. Failures to write to the socket are not modelled. Longer messages: C126_long_message_panics. BSD, macOS and Windows are not modelled."
  },
  {
   "property": "C127",
   "status": "proved",
   "theorems": [
    "Neqo.SendData.C127_in_order",
    "Neqo.SendData.C127_offers",
    "Neqo.SendData.C127_stops",
    "Neqo.SendData.C127_len"
   ],
   "note": "The function that sends is any sequence of replies; it takes at most what it is given, as streams do."
  },
  {
   "property": "C128",
   "status": "partial",
   "theorems": [
    "Neqo.Http09.C128_answer_partial",
    "Neqo.Http09.C128_progress_partial",
    "Neqo.Http09.C128_reset_partial",
    "Neqo.Http09.C128_mixed_connections"
   ],
   "note": "Partial: it fails if two connections use streams of the same ID at the same time, as the server keeps requests and responses by stream ID only; a client may then be answered for the joined bytes of two (C128_mixed_connections). Proved if no other connection uses the ID before the request has ended. parse_path and the response for a path are a parameter. stream_recv is a sequence of pieces."
  },
  {
   "property": "C129",
   "status": "proved",
   "theorems": [
    "Neqo.WwwPath.C129_refused",
    "Neqo.WwwPath.C129_inside"
   ],
   "note": "Names are resolved lexically; symbolic links and reading the file are not modelled. split, trim_matches and PathBuf::push are modelled as documented in Rust's library, on Unix."
  }
 ]
}