{
 "claims": [
  {
   "property": "C01",
   "status": "proved",
   "theorems": [
    "Verif.Props.C01_request_roundtrip"
   ],
   "note": "for all request lists and chunkings, buffer sizes as in the code"
  },
  {
   "property": "C02",
   "status": "proved",
   "theorems": [
    "Verif.Props.C02_buffered_writer_transparent",
    "Verif.Props.C02_flush_empties"
   ],
   "note": "WriteByte is excluded (its advance by 4 is shown in C05)"
  },
  {
   "property": "C03",
   "status": "partial",
   "theorems": [
    "Verif.Props.C03_chunk_independence_partial",
    "Verif.Props.C03_truncation_exact",
    "Verif.Props.C03_truncation_panics"
   ],
   "note": "full segments proved; end of stream inside a segment is proved to panic (SliceReader.Read slices buf[l:] beyond its length) instead of reporting ErrUnexpectedEOF"
  },
  {
   "property": "C04",
   "status": "proved",
   "theorems": [
    "Verif.Props.C04_returned_slices_stable"
   ],
   "note": ""
  },
  {
   "property": "C05",
   "status": "partial",
   "theorems": [
    "Verif.Props.C05_response_roundtrip_partial",
    "Verif.Props.C05_rc1_violated",
    "Verif.Props.C05_rc1_reader_violated",
    "Verif.Props.C05_byte_violated"
   ],
   "note": "proved for RC0byte and RC4byte without pings; RC1byte violated, counterexamples proved for both directions"
  },
  {
   "property": "C06",
   "status": "partial",
   "theorems": [
    "Verif.Props.C06_truncated_requests_partial",
    "Verif.Props.C06_truncated_request_panics",
    "Verif.Props.C06_truncated_responses_partial"
   ],
   "note": "no wrong message is ever produced; a cut inside a segment can panic (proved) instead of returning an error"
  },
  {
   "property": "C08",
   "status": "partial",
   "theorems": [
    "Verif.Props.C08_ping_desync",
    "Verif.Props.C08_rc0_ping_in_sync_partial",
    "Verif.Props.C08_handshake_exact"
   ],
   "note": "ping reply desynchronises RC1/RC4 streams (proved); in sync for RC0; handshake predicate exact"
  },
  {
   "property": "C09",
   "status": "proved",
   "theorems": [
    "Verif.Props.C09_scalar_roundtrip"
   ],
   "note": "floats as bit patterns"
  },
  {
   "property": "C10",
   "status": "proved",
   "theorems": [
    "Verif.Props.C10_ber_roundtrip",
    "Verif.Props.C10_ber_bytes"
   ],
   "note": ""
  },
  {
   "property": "C11",
   "status": "proved",
   "theorems": [
    "Verif.Props.C11_ber_never_wraps",
    "Verif.Props.C11_ber_success_exact"
   ],
   "note": "an unterminated string whose digits already exceed 64 bits is reported as too big rather than as not enough data"
  },
  {
   "property": "C12",
   "status": "partial",
   "theorems": [
    "Verif.Props.C12_ber_size_partial",
    "Verif.Props.C12_varsize_partial",
    "Verif.Props.C12_ber_size_violated"
   ],
   "note": "exact characterisation of the values where the predicted size is right; wrong for 128 etc."
  },
  {
   "property": "C13",
   "status": "proved",
   "theorems": [
    "Verif.Props.C13_sticky_error",
    "Verif.Props.C13_sticky_history"
   ],
   "note": ""
  },
  {
   "property": "C14",
   "status": "proved",
   "theorems": [
    "Verif.Props.C14_reads_exact",
    "Verif.Props.C14_negative_slice_panics"
   ],
   "note": "BER reads are covered by C11; a negative size given to Slice/String panics (proved)"
  },
  {
   "property": "C15",
   "status": "partial",
   "theorems": [
    "Verif.Props.C15_writer_concat_partial",
    "Verif.Props.C15_never_panics",
    "Verif.Props.C15_ceilLog_bounds"
   ],
   "note": "everything except the contents written by Float64sl with two or more elements (violated, see C17)"
  },
  {
   "property": "C16",
   "status": "proved",
   "theorems": [
    "Verif.Props.C16_written_stable"
   ],
   "note": ""
  },
  {
   "property": "C17",
   "status": "partial",
   "theorems": [
    "Verif.Props.C17_slices_roundtrip_partial",
    "Verif.Props.C17_bytes_roundtrip",
    "Verif.Props.C17_float64sl_violated",
    "Verif.Props.C17_float64sl_leaks"
   ],
   "note": "Float64sl violates it"
  },
  {
   "property": "C21",
   "status": "partial",
   "theorems": [
    "Verif.Props.C21_length_prefix_partial",
    "Verif.Props.C21_i64_violated"
   ],
   "note": "prefix i64 violates it"
  },
  {
   "property": "C07",
   "status": "partial",
   "theorems": [
    "Verif.Props.C07_no_internal_code_partial",
    "Verif.Props.C07_accepted",
    "Verif.Props.C07_zero_replacement_ignored"
   ],
   "note": "everything but a replacement by RcOK, which is accepted and then ignored (proved)"
  },
  {
   "property": "C60",
   "status": "partial",
   "theorems": [
    "Verif.Props.C60_kinds_disjoint",
    "Verif.Props.C60_kind_of_detail",
    "Verif.Props.C60_codes_partial",
    "Verif.Props.C60_shutdown_is_cancel"
   ],
   "note": "RcShutdown = RcCanceled (proved)"
  },
  {
   "property": "C61",
   "status": "proved",
   "theorems": [
    "Verif.Props.C61_set_defaults"
   ],
   "note": ""
  },
  {
   "property": "C62",
   "status": "partial",
   "theorems": [
    "Verif.Props.C62_time_roundtrip_partial",
    "Verif.Props.C62_before_exact",
    "Verif.Props.C62_arith_exact",
    "Verif.Props.C62_will_expire_exact",
    "Verif.Props.C62_sub_time_exact",
    "Verif.Props.C62_early_times_violated"
   ],
   "note": "times not after 2010-01-01 do not survive the conversion (proved)"
  },
  {
   "property": "C63",
   "status": "proved",
   "theorems": [
    "Verif.Props.C63_sort"
   ],
   "note": "sort.Sort trusted for its contract"
  },
  {
   "property": "C28",
   "status": "proved",
   "theorems": [
    "Verif.Props.C28_at_most_one_response",
    "Verif.Props.C28_nothing_after"
   ],
   "note": "any number of goroutines, any schedule, any behaviour of user code"
  },
  {
   "property": "C29",
   "status": "proved",
   "theorems": [
    "Verif.Props.C29_response_content",
    "Verif.Props.C29_bookmark_content",
    "Verif.Props.C29_answers_take_effect"
   ],
   "note": ""
  },
  {
   "property": "C30",
   "status": "proved",
   "theorems": [
    "Verif.Props.C30_unwinding",
    "Verif.Props.C30_all_bookmarks"
   ],
   "note": "with resets a bookmark that resets is notified again by the next answer; each answering call notifies exactly the outstanding ones"
  },
  {
   "property": "C31",
   "status": "partial",
   "theorems": [
    "Verif.Props.C31_fail_answers_partial",
    "Verif.Props.C31_lock_is_released",
    "Verif.Props.C31_reset_violated"
   ],
   "note": "false when a bookmark resets the request (as ReqContext does on timeout), proved"
  },
  {
   "property": "C32",
   "status": "partial",
   "theorems": [
    "Verif.Props.C32_claim_only_unanswered_partial",
    "Verif.Props.C32_reset_in_responder_violated"
   ],
   "note": "false when the Responder itself resets the request, proved"
  },
  {
   "property": "C33",
   "status": "partial",
   "theorems": [
    "Verif.Props.C33_one_claim_partial",
    "Verif.Props.C33_one_claim_with_bookmark_partial",
    "Verif.Props.C33_mixed_claims_violated"
   ],
   "note": "false when both kinds of claim race, proved"
  },
  {
   "property": "C34",
   "status": "proved",
   "theorems": [
    "Verif.Props.C34_top_is_earliest",
    "Verif.Props.C35_one_shot_timers"
   ],
   "note": "for timers armed at most once; see C35 for the rest"
  },
  {
   "property": "C35",
   "status": "partial",
   "theorems": [
    "Verif.Props.C35_heap_is_the_armed_timers_partial",
    "Verif.Props.C35_one_shot_timers",
    "Verif.Props.C36_rearmed_timer_violated"
   ],
   "note": "false when After is called on an armed timer (proved); every other history, including reuse after Stop or expiration, is covered"
  },
  {
   "property": "C36",
   "status": "partial",
   "theorems": [
    "Verif.Props.C36_stop_is_exact",
    "Verif.Props.C35_heap_is_the_armed_timers_partial",
    "Verif.Props.C36_rearmed_timer_violated",
    "Verif.Props.C36_rearmed_timer_cannot_be_stopped_violated"
   ],
   "note": "false for timers armed twice, proved"
  },
  {
   "property": "C37",
   "status": "proved",
   "theorems": [
    "Verif.Props.C37_scan_in_order",
    "Verif.Props.C37_never_early"
   ],
   "note": ""
  },
  {
   "property": "C38",
   "status": "partial",
   "theorems": [
    "Verif.Props.C38_lost_wakeup_violated",
    "Verif.Props.C38_sleeps_forever_violated",
    "Verif.Props.C38_wakeup_to_come_partial"
   ],
   "note": "false: the runtime timer's Signal takes no lock and can precede Wait, proved"
  },
  {
   "property": "C59",
   "status": "proved",
   "theorems": [
    "Verif.Props.C59_requests_are_distinct",
    "Verif.Props.C59_request_fields"
   ],
   "note": ""
  },
  {
   "property": "C66",
   "status": "proved",
   "theorems": [
    "Verif.Props.C66_handed_out_at_most_twice",
    "Verif.Props.C66_not_again_without_release"
   ],
   "note": ""
  },
  {
   "property": "C39",
   "status": "proved",
   "theorems": [
    "Verif.Props.C39_at_most_once",
    "Verif.Props.C39_slot_order",
    "Verif.Props.C39_no_overtaking"
   ],
   "note": "the last says that a push that began after another had returned does not overtake it, also on the direct path"
  },
  {
   "property": "C40",
   "status": "proved",
   "theorems": [
    "Verif.Props.C40_nothing_forgotten",
    "Verif.Props.C40_forwarding_completes"
   ],
   "note": ""
  },
  {
   "property": "C65",
   "status": "partial",
   "theorems": [
    "Verif.Props.C65_push_after_close_violated",
    "Verif.Props.C65_no_panic_before_close_partial"
   ],
   "note": "false, proved; no panic before close is complete"
  },
  {
   "property": "C41",
   "status": "proved",
   "theorems": [
    "Verif.Props.C41_one_each",
    "Verif.Props.C41_results_ends"
   ],
   "note": ""
  },
  {
   "property": "C42",
   "status": "partial",
   "theorems": [
    "Verif.Props.C42_double_close_violated",
    "Verif.Props.C42_channel_partial",
    "Verif.Props.C42_condition_needed"
   ],
   "note": "false, proved; holds unless the last response comes while Each moves the earlier ones; the condition is shown to be needed"
  },
  {
   "property": "C43",
   "status": "partial",
   "theorems": [
    "Verif.Props.C43_missed_violated",
    "Verif.Props.C43_all_answered_partial",
    "Verif.Props.C43_codes",
    "Verif.Props.C43_cancel_first"
   ],
   "note": "false if the two sides of w.c == w.r are read right to left (the language leaves the order open); proved for the other order"
  },
  {
   "property": "C47",
   "status": "partial",
   "theorems": [
    "Verif.Props.C47_each_violated",
    "Verif.Props.C47_unregistered_partial"
   ],
   "note": "false when all responses came before Each, proved; proved for Results and for a channel closed by the last response"
  },
  {
   "property": "C67",
   "status": "partial",
   "theorems": [
    "Verif.Props.C67_nil_violated",
    "Verif.Props.C67_no_panic_partial"
   ],
   "note": "false, proved: nil dereference in performFailAll; the partial theorem excludes a response stored between the two reads"
  },
  {
   "property": "C44",
   "status": "partial",
   "theorems": [
    "Verif.Props.C44_missed_violated",
    "Verif.Props.C44_all_cancelled_partial"
   ],
   "note": "false, proved: State is read under the lock but changed without it, so a canceler stored afterwards is missed; proved when the context is not cancelled between the look and the storing"
  },
  {
   "property": "C45",
   "status": "partial",
   "theorems": [
    "Verif.Props.C45_count",
    "Verif.Props.C45_wait_looks",
    "Verif.Props.C45_two_waiters_violated",
    "Verif.Props.C45_one_waiter_partial"
   ],
   "note": "the counts are proved in full; that WaitAll wakes up is false for two callers (one Signal), proved for one"
  },
  {
   "property": "C46",
   "status": "partial",
   "theorems": [
    "Verif.Props.C46_never_started_violated",
    "Verif.Props.C46_live_violated"
   ],
   "note": "false, proved: Child never sets ok, so nothing is ever started"
  },
  {
   "property": "C68",
   "status": "partial",
   "theorems": [
    "Verif.Props.C68_spins_violated",
    "Verif.Props.C68_ends_partial"
   ],
   "note": "false, proved: cancelAll loops until everything is unregistered"
  },
  {
   "property": "C48",
   "status": "proved",
   "theorems": [
    "Verif.Props.C48_slots",
    "Verif.Props.C48_at_most",
    "Verif.Props.C48_slot_returns"
   ],
   "note": ""
  },
  {
   "property": "C49",
   "status": "partial",
   "theorems": [
    "Verif.Props.C49_timeout_violated",
    "Verif.Props.C49_answered_partial",
    "Verif.Props.C49_once"
   ],
   "note": "false for a handler returning RcTimeout, proved; proved otherwise"
  },
  {
   "property": "C50",
   "status": "partial",
   "theorems": [
    "Verif.Props.C50_dropped_violated",
    "Verif.Props.C50_witness_violated",
    "Verif.Props.C50_not_lost_partial",
    "Verif.Props.C50_held_partial"
   ],
   "note": "false, proved: Respond ignores pending requests; the request in the dispatcher's hands at Stop is answered, and no other is lost"
  },
  {
   "property": "C69",
   "status": "proved",
   "theorems": [
    "Verif.Props.C69_expires",
    "Verif.Props.C69_waiting"
   ],
   "note": ""
  },
  {
   "property": "C70",
   "status": "proved",
   "theorems": [
    "Verif.Props.C70_at_most_one",
    "Verif.Props.C70_none_after",
    "Verif.Props.C70_returns"
   ],
   "note": ""
  },
  {
   "property": "C51",
   "status": "partial",
   "theorems": [
    "Verif.Props.C51_wrap_violated",
    "Verif.Props.C51_zero_violated",
    "Verif.Props.C51_unique_partial",
    "Verif.Props.C51_never_ping",
    "Verif.Props.C51_three_rounds"
   ],
   "note": "false after 2^32 - 2 ids and for peers that answer early, both proved; proved for polite peers up to then"
  },
  {
   "property": "C52",
   "status": "partial",
   "theorems": [
    "Verif.Props.C52_own_response_partial",
    "Verif.Props.C52_received_partial",
    "Verif.Props.C52_delivered_partial"
   ],
   "note": "proved for peers that answer only what they were asked, and once; others make the client panic (C54)"
  },
  {
   "property": "C53",
   "status": "partial",
   "theorems": [
    "Verif.Props.C53_all_answered_partial",
    "Verif.Props.C53_ends_partial"
   ],
   "note": "proved for peers that answer only what they were asked, and once, up to 2^32 - 2 ids; false otherwise (C54_lost_violated, C54_duplicate_violated)"
  },
  {
   "property": "C54",
   "status": "partial",
   "theorems": [
    "Verif.Props.C54_unknown_id_violated",
    "Verif.Props.C54_duplicate_violated",
    "Verif.Props.C54_lost_violated",
    "Verif.Props.C54_ignored_partial"
   ],
   "note": "false, proved; one unexpected id in a row in use is ignored"
  },
  {
   "property": "C71",
   "status": "partial",
   "theorems": [
    "Verif.Props.C71_empty_body_violated",
    "Verif.Props.C71_only_cancelled_partial"
   ],
   "note": "false, proved; an empty body is sent only for a request whose owner was told that it failed"
  },
  {
   "property": "C72",
   "status": "proved",
   "theorems": [
    "Verif.Props.C72_once",
    "Verif.Props.C72_answered_not_sent"
   ],
   "note": ""
  },
  {
   "property": "C55",
   "status": "partial",
   "theorems": [
    "Verif.Props.C55_drift_violated",
    "Verif.Props.C55_shrink_violated",
    "Verif.Props.C55_dialing_stuck_violated",
    "Verif.Props.C55_connected_stuck_violated",
    "Verif.Props.C55_exact_partial",
    "Verif.Props.C55_opens",
    "Verif.Props.C55_no_panic"
   ],
   "note": "false, proved: each connection the pool stops is subtracted twice, and Stop of a dialing connection hangs the pool; the counters are right as long as the pool has stopped nothing"
  },
  {
   "property": "C73",
   "status": "partial",
   "theorems": [
    "Verif.Props.C73_unanswered_violated",
    "Verif.Props.C73_flushes_partial"
   ],
   "note": "false, proved: the control loops report before they answer, and nobody receives the reports after the pool's loop has ended; with the loop running they can always go on"
  },
  {
   "property": "C56",
   "status": "proved",
   "theorems": [
    "Verif.Props.C56_own",
    "Verif.Props.C56_once",
    "Verif.Props.C56_pong"
   ],
   "note": ""
  },
  {
   "property": "C57",
   "status": "partial",
   "theorems": [
    "Verif.Props.C57_double_close_violated",
    "Verif.Props.C57_unavoidable_violated",
    "Verif.Props.C57_only_cause_partial"
   ],
   "note": "false, proved; the only cause is proved: the end of the read side is handled while the write loop is between its empty select and its lock"
  },
  {
   "property": "C58",
   "status": "partial",
   "theorems": [
    "Verif.Props.C58_ended_violated",
    "Verif.Props.C58_cancel_violated",
    "Verif.Props.C58_few_partial"
   ],
   "note": "false, proved; true up to 128 requests and pings per connection"
  },
  {
   "property": "C74",
   "status": "partial",
   "theorems": [
    "Verif.Props.C74_duplicate_violated",
    "Verif.Props.C74_graceful_partial"
   ],
   "note": "proved for peers which do not reuse ids in flight; false for others"
  },
  {
   "property": "C75",
   "status": "proved",
   "theorems": [
    "Verif.Props.C75_ends"
   ],
   "note": ""
  },
  {
   "property": "C76",
   "status": "partial",
   "theorems": [
    "Verif.Props.C76_deadlock_violated",
    "Verif.Props.C76_buffer_unused_violated",
    "Verif.Props.C76_makes_room_partial"
   ],
   "note": "false, proved: the select in Respond has no default, so the buffer is dead code and Respond waits with the lock held; proved while the write loop is not about to lock"
  },
  {
   "property": "C77",
   "status": "partial",
   "theorems": [
    "Verif.Props.C77_still_reading_violated",
    "Verif.Props.C77_never_gone_violated",
    "Verif.Props.C77_stop_twice_violated",
    "Verif.Props.C77_writes_ended_partial",
    "Verif.Props.C77_ends_partial",
    "Verif.Props.C77_once_partial"
   ],
   "note": "false, proved: connections report twice, and a second Stop may hang for ever; proved for the write sides and while no second Stop waits"
  },
  {
   "property": "C18",
   "status": "partial",
   "theorems": [
    "Verif.Props.C18_layout_partial",
    "Verif.Props.C18_roundtrip_partial",
    "Verif.Props.C18_injective_partial",
    "Verif.Props.C18_tail_roundtrip_partial",
    "Verif.Props.C18_nested_violated",
    "Verif.Props.C18_slice_violated",
    "Verif.Props.C18_pointer_violated",
    "Verif.Props.C18_ber_array_violated",
    "Verif.Props.C18_i64_violated",
    "Verif.Props.C18_size_no_violated",
    "Verif.Props.C18_size_violated"
   ],
   "note": "proved for all nested types of the stated class (Sound), also byte for byte against a layout; false for the others, one witness for each restriction"
  },
  {
   "property": "C19",
   "status": "partial",
   "theorems": [
    "Verif.Props.C19_declared_size_partial",
    "Verif.Props.C19_no_field_dropped_partial",
    "Verif.Props.C19_zero_size_violated",
    "Verif.Props.C19_wrong_size_violated",
    "Verif.Props.C19_cnt_i8_violated",
    "Verif.Props.C19_ber_violated"
   ],
   "note": "proved for the stated class of types (Sized), false for others"
  },
  {
   "property": "C20",
   "status": "partial",
   "theorems": [
    "Verif.Props.C20_read_returns_partial",
    "Verif.Props.C20_readTail_returns_partial",
    "Verif.Props.C20_ber_size_violated",
    "Verif.Props.C20_i64_size_violated",
    "Verif.Props.C20_i64_count_violated",
    "Verif.Props.C20_tail_violated",
    "Verif.Props.C20_endless_violated",
    "Verif.Props.C20_ber_pointer_violated"
   ],
   "note": "proved for the stated class of types (Safe), false for others"
  },
  {
   "property": "C64",
   "status": "partial",
   "theorems": [
    "Verif.Props.C64_allocation_violated",
    "Verif.Props.C64_bytes_partial"
   ],
   "note": "false, proved for all counts; true for strings and byte slices"
  },
  {
   "property": "C22",
   "status": "partial",
   "theorems": [
    "Verif.Props.C22_layout_partial",
    "Verif.Props.C22_roundtrip_partial",
    "Verif.Props.C22_flat_roundtrip_partial",
    "Verif.Props.C22_ber_violated",
    "Verif.Props.C22_float_violated",
    "Verif.Props.C22_nil_violated"
   ],
   "note": "proved for every value of every flat type without the tag ber, and for structs with fields of any sound type; false for ber fields (C12), fields of type []float64 (C16) and nil pointers"
  },
  {
   "property": "C23",
   "status": "partial",
   "theorems": [
    "Verif.Props.C23_select_count_partial",
    "Verif.Props.C23_nested_violated",
    "Verif.Props.C23_composite_violated",
    "Verif.Props.C23_composite_sent_violated",
    "Verif.Props.C23_nil_violated",
    "Verif.Props.C23_nil_pointer_violated"
   ],
   "note": "false, proved: a slice as an element of []interface{}, keys of several fields in a nested []interface{}, and nil pointers; proved for the stated class of keys (KeysOk)"
  },
  {
   "property": "C24",
   "status": "partial",
   "theorems": [
    "Verif.Props.C24_store_partial",
    "Verif.Props.C24_delete_partial",
    "Verif.Props.C24_select_partial",
    "Verif.Props.C24_update_partial",
    "Verif.Props.C24_rpc_partial",
    "Verif.Props.C24_limit_violated",
    "Verif.Props.C24_nil_violated"
   ],
   "note": "proved up to the encoding of the tuple's fields for tuples and keys the code handles; false for negative limits and nil"
  },
  {
   "property": "C25",
   "status": "partial",
   "theorems": [
    "Verif.Props.C25_all_partial",
    "Verif.Props.C25_written_partial",
    "Verif.Props.C25_prefix_partial",
    "Verif.Props.C25_frames_partial",
    "Verif.Props.C25_violated"
   ],
   "note": "false, proved: one bad tuple silently zeroes the following ones; proved up to the first bad tuple, for slices as destination"
  },
  {
   "property": "C26",
   "status": "partial",
   "theorems": [
    "Verif.Props.C26_truncated_partial",
    "Verif.Props.C26_complete_partial",
    "Verif.Props.C26_violated"
   ],
   "note": "false, proved, for every body shorter than the count; proved for all longer truncated bodies"
  },
  {
   "property": "C27",
   "status": "partial",
   "theorems": [
    "Verif.Props.C27_known_partial",
    "Verif.Props.C27_rejected_partial",
    "Verif.Props.C27_violated"
   ],
   "note": "false, proved for every byte from 8 to 124 that is not an operator; proved for all others"
  },
  {
   "property": "C78",
   "status": "partial",
   "theorems": [
    "Verif.Props.C78_returns_partial",
    "Verif.Props.C78_length_violated",
    "Verif.Props.C78_array_violated"
   ],
   "note": "proved for the stated class of types (SafeTup), false for others; for the tag sbox:tail see C97, C98"
  },
  {
   "property": "C79",
   "status": "partial",
   "theorems": [
    "Verif.Props.C79_struct_partial"
   ],
   "note": "proved for all structs the writer handles; for the tag sbox:tail see C97, C98"
  },
  {
   "property": "C80",
   "status": "partial",
   "theorems": [
    "Verif.Props.C80_partial",
    "Verif.Props.C80_violated"
   ],
   "note": "false, proved for all counts; true when no error is returned"
  },
  {
   "property": "C81",
   "status": "proved",
   "theorems": [
    "Verif.Auto.C81_one_running",
    "Verif.Auto.C81_right_address",
    "Verif.Auto.C81_same",
    "Verif.Auto.C81_replaced"
   ],
   "note": ""
  },
  {
   "property": "C82",
   "status": "partial",
   "theorems": [
    "Verif.Auto.C82_all",
    "Verif.Auto.C82_once",
    "Verif.Auto.C82_after_stop",
    "Verif.Auto.C82_during_stop_violated"
   ],
   "note": "a Get during Stop may return a server that is already stopped, proved; the rest holds"
  },
  {
   "property": "C83",
   "status": "partial",
   "theorems": [
    "Verif.Auto.C83_released_partial",
    "Verif.Auto.C83_empty_address_violated"
   ],
   "note": "proved as long as nobody asks for the empty address, false otherwise"
  },
  {
   "property": "C84",
   "status": "partial",
   "theorems": [
    "Verif.Send.C84_at_most_sent",
    "Verif.Send.C84_once",
    "Verif.Send.C84_panics_only_sent_partial",
    "Verif.Send.C84_handed_or_answered",
    "Verif.Send.C84_reset_violated"
   ],
   "note": "the panic clause is false when a bookmark resets the request, proved; the rest holds"
  },
  {
   "property": "C85",
   "status": "proved",
   "theorems": [
    "Verif.Send.C85_counted"
   ],
   "note": "for executions in which no bookmark or Responder resets the request"
  },
  {
   "property": "C86",
   "status": "partial",
   "theorems": [
    "Verif.Balancer.C86_runs_once_partial",
    "Verif.Balancer.C86_stops_once_partial",
    "Verif.Balancer.C86_stop_returns",
    "Verif.Balancer.C86_add_after_run_violated",
    "Verif.Balancer.C86_run_twice_violated",
    "Verif.Balancer.C86_add_after_stop_violated"
   ],
   "note": "false, proved, for children added between Run and the launch of the others, or after Stop; proved otherwise"
  },
  {
   "property": "C87",
   "status": "partial",
   "theorems": [
    "Verif.ConnClose.C87_closes_partial",
    "Verif.ConnClose.C87_ends",
    "Verif.ConnClose.C87_exact",
    "Verif.ConnClose.C87_kept_id_violated"
   ],
   "note": "false, proved, exactly when the write loop still has an id it did not use; proved otherwise"
  },
  {
   "property": "C88",
   "status": "partial",
   "theorems": [
    "Verif.ConnClose.C88_hang_up_partial",
    "Verif.ConnClose.C88_write_error_violated"
   ],
   "note": "false, proved, after a failed WriteRequest; proved if the peer hangs up or a read timeout is configured and fires"
  },
  {
   "property": "C89",
   "status": "partial",
   "theorems": [
    "Verif.SboxDest.C89_array_partial",
    "Verif.SboxDest.C89_one_partial",
    "Verif.SboxDest.slice_eq",
    "Verif.SboxDest.C89_one_empty_violated",
    "Verif.SboxDest.C89_ptrs_violated",
    "Verif.SboxDest.C89_slices_violated",
    "Verif.SboxDest.C89_list_violated"
   ],
   "note": "proved for pointers to arrays and slices, and to single values unless the response is empty; false, proved, for slices of pointers or slices and for []interface{}, which always panic"
  },
  {
   "property": "C90",
   "status": "partial",
   "theorems": [
    "Verif.Heaps.C90_found_partial",
    "Verif.Heaps.C90_again",
    "Verif.Heaps.panic_step",
    "Verif.Heaps.C90_grow_violated"
   ],
   "note": "false, proved, for the first arming of a timer if the list is loaded before heapN and grows in between; proved otherwise and for timers used before"
  },
  {
   "property": "C91",
   "status": "partial",
   "theorems": [
    "Verif.ClientQueue.C91_failed_partial",
    "Verif.ClientQueue.C91_called",
    "Verif.ClientQueue.C91_ends",
    "Verif.ClientQueue.C91_only_partial",
    "Verif.ClientQueue.C91_behind_violated",
    "Verif.ClientQueue.C91_spurious_violated",
    "Verif.ClientQueue.C91_missed_violated"
   ],
   "note": "proved for the requests in the channel; false, proved, for those behind a full channel, and in both directions after the pool has stopped a connection itself"
  },
  {
   "property": "C92",
   "status": "partial",
   "theorems": [
    "Verif.ClientQueue.C92_before_partial",
    "Verif.ClientQueue.C92_stuck",
    "Verif.ClientQueue.C92_queued_violated",
    "Verif.ClientQueue.C92_connected_violated"
   ],
   "note": "false, proved; true for what was in the channel when the last loss was noticed"
  },
  {
   "property": "C93",
   "status": "proved",
   "theorems": [
    "Verif.CodecCache.C93_complete",
    "Verif.CodecCache.C93_same",
    "Verif.CodecCache.C93_frozen_map",
    "Verif.CodecCache.C93_frozen_codec",
    "Verif.CodecCache.C93_hit",
    "Verif.CodecCache.C93_progress",
    "Verif.CodecCache.C93_ends"
   ],
   "note": "under sequentially consistent memory; C94 says where Go does not promise that"
  },
  {
   "property": "C94",
   "status": "partial",
   "theorems": [
    "Verif.CodecCache.C94_private_partial",
    "Verif.CodecCache.C94_ws_violated"
   ],
   "note": "proved for the maps and the codecs; false for the variable that holds the published map, proved"
  },
  {
   "property": "C95",
   "status": "partial",
   "theorems": [
    "Verif.CodecCache.C95_order_partial",
    "Verif.CodecCache.C95_writer",
    "Verif.CodecCache.C95_reader",
    "Verif.CodecCache.C95_order_violated"
   ],
   "note": "proved for types that are not recursive, with the codecs of the model in Model/Reflect.lean; false for recursive types, proved"
  },
  {
   "property": "C96",
   "status": "proved",
   "theorems": [
    "Verif.Link.C96_no_panic",
    "Verif.Link.C96_in_order",
    "Verif.Link.C96_own",
    "Verif.Link.C96_once",
    "Verif.Link.C96_sent_once",
    "Verif.Link.C96_answered"
   ],
   "note": "composition of the models of C51-C54 and C56-C58; discharges the assumption about the peer made there"
  },
  {
   "property": "C97",
   "status": "partial",
   "theorems": [
    "Verif.SboxTail.C97_write_partial",
    "Verif.SboxTail.C97_write_violated",
    "Verif.SboxTail.C97_short_partial",
    "Verif.SboxTail.C97_read_partial",
    "Verif.SboxTail.C97_read_violated",
    "Verif.SboxTail.C97_string_violated",
    "Verif.SboxTail.C97_position_partial",
    "Verif.SboxTail.C97_hidden_violated"
   ],
   "note": "violated: writing panics for every tail with content; reading takes the first element only. Proved for tails without content (write) and of at most one element (read)"
  },
  {
   "property": "C98",
   "status": "partial",
   "theorems": [
    "Verif.SboxTail.C98_write_partial",
    "Verif.SboxTail.C98_write_violated",
    "Verif.SboxTail.C98_short_partial",
    "Verif.SboxTail.C98_read_violated",
    "Verif.SboxTail.C98_index_violated"
   ],
   "note": "violated: nothing of the tail is written, whatever it is; reading is wrong for a witness; the loop which nothing reaches would write the wrong fields (C98_index_violated). Proved for empty tails"
  },
  {
   "property": "C99",
   "status": "proved",
   "theorems": [
    "Verif.Iface.C99_write",
    "Verif.Iface.C99_writeTail",
    "Verif.Iface.C99_writeSized",
    "Verif.Iface.C99_read",
    "Verif.Iface.C99_read_new"
   ],
   "note": "after an error the variable may differ (the reader does not); into a new variable not even that"
  },
  {
   "property": "C100",
   "status": "partial",
   "theorems": [
    "Verif.Iface.C100_roundtrip_partial",
    "Verif.Iface.C100_layout_partial",
    "Verif.Iface.C100_mismatch",
    "Verif.Iface.C100_stop",
    "Verif.Iface.C100_rest_untouched",
    "Verif.Iface.C100_user_code",
    "Verif.Iface.C100_hooks",
    "Verif.Iface.C100_nil_violated"
   ],
   "note": "violated for nil elements, which are counted but not written. The round trip is for values the reflective codec handles (C18)"
  },
  {
   "property": "C101",
   "status": "partial",
   "theorems": [
    "Verif.Iface.C101_layout_partial",
    "Verif.Iface.C101_roundtrip_partial",
    "Verif.Iface.C101_wrong_size_violated",
    "Verif.Iface.C101_size_ignored_violated"
   ],
   "note": "violated: for a scalar every wrong size is ignored; for all types but scalars, strings and bytes ReadWithSize does not read a size at all"
  },
  {
   "property": "C102",
   "status": "partial",
   "theorems": [
    "Verif.Iface.C102_exact_partial",
    "Verif.Iface.C102_longer_violated",
    "Verif.Iface.C102_counted_violated"
   ],
   "note": "violated: every longer body makes it append nil elements for ever; slices in the list are read without their count"
  },
  {
   "property": "C103",
   "status": "partial",
   "theorems": [
    "Verif.User.C103_roundtrip_partial",
    "Verif.User.C103_size_roundtrip",
    "Verif.User.C103_count_roundtrip_partial",
    "Verif.User.C103_slice_partial",
    "Verif.User.C103_counter_violated",
    "Verif.User.C103_counter_witness"
   ],
   "note": "violated for a long-form ISetCounter with pointer methods, which is looked for in the wrong type; proved for all other forms"
  },
  {
   "property": "C104",
   "status": "partial",
   "theorems": [
    "Verif.User.C104_plain_partial",
    "Verif.User.C104_pointer_violated",
    "Verif.User.C104_nil_violated"
   ],
   "note": "violated: with ICounter, a size or a count it always panics. Proved without these"
  },
  {
   "property": "C105",
   "status": "proved",
   "theorems": [
    "Verif.ReaderCache.C105_alone",
    "Verif.ReaderCache.C105_exclusive",
    "Verif.ReaderCache.C105_progress"
   ],
   "note": "sequentially consistent memory; the plain load of readerCache is a data race for the Go memory model"
  },
  {
   "property": "C106",
   "status": "partial",
   "theorems": [
    "Verif.WriterPool.C106_content_partial",
    "Verif.WriterPool.C106_apart",
    "Verif.WriterPool.C106_stable",
    "Verif.WriterPool.C106_progress"
   ],
   "note": "content proved except for Float64sl of two or more elements (C17); ownership, stability and progress for everything"
  },
  {
   "property": "C107",
   "status": "partial",
   "theorems": [
    "Verif.ReqTimer.C107_answered_partial",
    "Verif.ReqTimer.C107_stopped_partial",
    "Verif.ReqTimer.C107_once_violated",
    "Verif.ReqTimer.C107_resent_violated",
    "Verif.ReqTimer.C107_late_violated"
   ],
   "note": "proved for requests never reset and timers armed before the answer; violated for requests reset after their timer fired (timerSet stays true, no second timeout) and for timers armed by Send after the request was answered (they stay armed)"
  },
  {
   "property": "C108",
   "status": "partial",
   "theorems": [
    "Verif.CtxReq.C108_answered_partial",
    "Verif.CtxReq.C108_cancelled",
    "Verif.CtxReq.C108_refused",
    "Verif.CtxReq.C108_one_round_partial",
    "Verif.CtxReq.C108_reset_violated"
   ],
   "note": "proved when the context is not cancelled between the look at State and the storing of the canceler (the race of C44); a request that a bookmark sets back while it is cancelled stays unanswered after its Cancel (violated)"
  },
  {
   "property": "C109",
   "status": "partial",
   "theorems": [
    "Verif.CtxReq.C109_waited_partial",
    "Verif.CtxReq.C109_early_violated"
   ],
   "note": "the answers are fixed when WaitAll returns (proved), but the responses need not be in the channels yet (violated: the bookmark of the context reacts before the Responder is called)"
  },
  {
   "property": "C110",
   "status": "partial",
   "theorems": [
    "Verif.CtxReq.C110_not_blocked",
    "Verif.CtxReq.C110_ends_partial"
   ],
   "note": "one round can always be finished (proved, provided no bookmark panicked or hangs); the end is reachable with requests only, none of them set back, outside the race of C44 (children and multi-requests may keep cancelAll in its loop: C68)"
  },
  {
   "property": "C111",
   "status": "partial",
   "theorems": [
    "Verif.ReqCtx.C111_told",
    "Verif.ReqCtx.C111_cause",
    "Verif.ReqCtx.C111_answered_partial",
    "Verif.ReqCtx.C111_timeout_kept"
   ],
   "note": "all requests answered: proved outside the race of C44 and when nobody but the request cancels the context; the rest holds without guards"
  },
  {
   "property": "C112",
   "status": "partial",
   "theorems": [
    "Verif.ReqCtx.C112_deadlock_violated",
    "Verif.ReqCtx.C112_mutex_held",
    "Verif.ReqCtx.C112_returns_partial"
   ],
   "note": "violated: ReqContext.Respond runs cancelAll with the mutex of the request held, and cancelAll loops until every child context and multi-request has been closed by its owner; a handler that answers before it closes them (defer child.Done()) waits for that mutex. With requests only the end is always reachable (proved)"
  },
  {
   "property": "C113",
   "status": "partial",
   "theorems": [
    "Verif.GenShare.C113_distinct_partial",
    "Verif.GenShare.C113_body_partial",
    "Verif.GenShare.C113_no_panic_partial",
    "Verif.GenShare.C113_same_request_violated",
    "Verif.GenShare.C113_bodies_mixed_violated",
    "Verif.GenShare.C113_panic_violated"
   ],
   "note": "proved if no context is used during or after its Done; violated otherwise, and Done is called by whoever answers the request: the context keeps the generator it has given back"
  },
  {
   "property": "C114",
   "status": "partial",
   "theorems": [
    "Verif.ByteLink.C114_no_panic_partial",
    "Verif.ByteLink.C114_requests_partial",
    "Verif.ByteLink.C114_end_to_end_partial",
    "Verif.ByteLink.C114_once_partial",
    "Verif.ByteLink.C114_answered_partial",
    "Verif.ByteLink.C114_received_partial",
    "Verif.ByteLink.C114_drained_partial",
    "Verif.ByteLink.C114_rc4_handshake_violated",
    "Verif.ByteLink.C114_rc1_violated"
   ],
   "note": "proved if return codes are not sent, or if they have four bytes and nobody pings; with four bytes and the handshake which Loop always makes, responses reach other requests (C114_rc4_handshake_violated); with one-byte codes a caller gets stray bytes and the next one nothing, without handshake and pings too (C114_rc1_violated)"
  },
  {
   "property": "C115",
   "status": "partial",
   "theorems": [
    "Verif.Graceful.C115_not_failed_partial",
    "Verif.Graceful.C115_answered_partial",
    "Verif.Graceful.C115_last_partial",
    "Verif.Graceful.C115_can_end_partial",
    "Verif.Graceful.C115_wrapper_violated",
    "Verif.Graceful.C115_stop_violated"
   ],
   "note": "proved (with: the end can always be reached, up to 127 requests and pings) for connections which can be closed in one direction, when the server is not stopped and fewer than 2^32 ids were given out (frames; bytes: C114); a connection made with RwcWrapper fails what is in flight as soon as the client stops writing, and a server which is stopped drops what it has not read"
  },
  {
   "property": "C116",
   "status": "partial",
   "theorems": [
    "Verif.KeepAlive.C116_kept_partial",
    "Verif.KeepAlive.C116_tight_violated",
    "Verif.KeepAlive.C116_stop_violated"
   ],
   "note": "proved as long as the client is not stopped, and the bound is shown to be exact; a stopped client sends no pings while it waits for responses, so that a handler that needs longer than the read timeout fails its request"
  },
  {
   "property": "C117",
   "status": "partial",
   "theorems": [
    "Verif.IfaceField.C117_layout_partial",
    "Verif.IfaceField.C117_transparent_partial",
    "Verif.IfaceField.C117_list_violated"
   ],
   "note": "proved for the fields C18 covers, without 64-bit prefixes, and for lists without strings and slices; strings and slices in a []interface{} field are written without their count, so that different lists have the same bytes"
  },
  {
   "property": "C118",
   "status": "partial",
   "theorems": [
    "Verif.IfaceField.C118_roundtrip_partial",
    "Verif.IfaceField.C118_injective_partial",
    "Verif.IfaceField.C118_slice_violated",
    "Verif.IfaceField.C118_string_violated",
    "Verif.IfaceField.C118_empty_violated",
    "Verif.IfaceField.C118_zero_violated",
    "Verif.IfaceField.C118_count_violated"
   ],
   "note": "proved for the cases of XBack; slices without tag, strings with a size, empty values with a prefix, nil with a count, and lists of another length fail: silently, with an error, or with a panic that a peer can provoke"
  },
  {
   "property": "C119",
   "status": "partial",
   "theorems": [
    "Verif.Rpc.C119_body_partial",
    "Verif.Rpc.C119_call_partial",
    "Verif.Rpc.C119_argument_partial",
    "Verif.Rpc.C119_raw_partial"
   ],
   "note": "proved for the types and values of C18 and for the connections of C114: return codes not sent, or of four bytes without pings, and fewer than 2^32 - 2 requests"
  },
  {
   "property": "C120",
   "status": "partial",
   "theorems": [
    "Verif.MultiReq.C120_results",
    "Verif.MultiReq.C120_codes",
    "Verif.MultiReq.C120_cancel_partial",
    "Verif.MultiReq.C120_cancel_ends",
    "Verif.MultiReq.C120_request_ends",
    "Verif.MultiReq.C120_each_ends",
    "Verif.MultiReq.C120_results_end",
    "Verif.MultiReq.C120_cancel_ends_results_partial",
    "Verif.MultiReq.C120_call_ends"
   ],
   "note": "what Cancel guarantees needs the comparison to read w.c first (C43); a call returns unless somebody panics (C42, C67); bookmarks of the requests do not reset them"
  },
  {
   "property": "C121",
   "status": "partial",
   "theorems": [
    "Verif.Props.C121_written_once",
    "Verif.Props.C121_one_place",
    "Verif.Props.C121_copies",
    "Verif.Props.C121_place",
    "Verif.Props.C121_end_partial",
    "Verif.Props.C121_response_partial",
    "Verif.Props.C121_forwarded"
   ],
   "note": "responses and the end of connections need peers that answer only what they were asked, and once, and up to 2^32 - 2 ids per connection (C51, C54)"
  },
  {
   "property": "C122",
   "status": "partial",
   "theorems": [
    "Verif.Delim.C122_read",
    "Verif.Delim.C122_sized",
    "Verif.Delim.C122_short",
    "Verif.Delim.C122_more",
    "Verif.Delim.C122_cut_partial"
   ],
   "note": "proved for all types and bytes, without the restrictions of C18; that every value written is covered (the last theorem) is partial as C18 is: some types are not read back at all"
  },
  {
   "property": "C123",
   "status": "partial",
   "theorems": [
    "Verif.Served.C123_parts",
    "Verif.Served.C123_own",
    "Verif.Served.C123_all_partial",
    "Verif.Served.C123_not_lost_partial",
    "Verif.Served.C123_back_partial",
    "Verif.Served.C123_wedged_violated",
    "Verif.Served.C123_witness_violated",
    "Verif.Served.C123_halted_violated",
    "Verif.Served.C123_halted_witness_violated"
   ],
   "note": "slots come back on connections with at most 128 requests and pings; false beyond: one client with a stuck connection stops the service for all clients, by keeping slots or by keeping the lock of a request which the dispatcher waits for"
  },
  {
   "property": "C124",
   "status": "partial",
   "theorems": [
    "Verif.SizedTuple.C124_raw",
    "Verif.SizedTuple.C124_short",
    "Verif.SizedTuple.C124_written_partial",
    "Verif.SizedTuple.C124_sized",
    "Verif.SizedTuple.C124_sized_raw",
    "Verif.SizedTuple.C124_sticky",
    "Verif.SizedTuple.C124_truncated_partial",
    "Verif.SizedTuple.C124_sequence_partial",
    "Verif.SizedTuple.C124_skip_partial",
    "Verif.SizedTuple.C124_nil_violated"
   ],
   "note": "false for nil as destination of ReadSizedTuple (C124_nil_violated): the error of a tuple cut short is erased. Proved for all other destinations; sequences and written tuples for the values of C22, truncation for types whose tags do not panic"
  },
  {
   "property": "C125",
   "status": "proved",
   "theorems": [
    "Verif.Props.C125_parts",
    "Verif.Props.C125_once",
    "Verif.Props.C125_answer",
    "Verif.Props.C125_distinct",
    "Verif.Props.C125_no_panic",
    "Verif.Props.C125_end",
    "Verif.Props.C125_graceful"
   ],
   "note": "up to 2^32 - 2 ids per connection of the endpoint (C51 says what happens after that)"
  },
  {
   "property": "C126",
   "status": "proved",
   "theorems": [
    "Verif.Props.C126_rest",
    "Verif.Props.C126_all",
    "Verif.Props.C126_answers"
   ],
   "note": "for services that are not stopped (for Stop see C50 and C70); handlers that never return keep their slots"
  },
  {
   "property": "C127",
   "status": "partial",
   "theorems": [
    "Verif.Served.C127_rest_partial",
    "Verif.Served.C127_stopped_partial",
    "Verif.Served.C127_all_partial",
    "Verif.Served.C127_answers_partial"
   ],
   "note": "missing: connections with more than 128 requests and pings, for which it is false (C58, C123: a disconnected client can take all slots or halt the dispatcher); with a stopped service it holds but for the requests the dispatcher drops (C50, C142)"
  },
  {
   "property": "C128",
   "status": "partial",
   "theorems": [
    "Verif.Props.C128_rest_partial",
    "Verif.Props.C128_stopped_partial",
    "Verif.Props.C128_all_partial",
    "Verif.Props.C128_answers_partial"
   ],
   "note": "missing: more than 128 requests and pings per connection (false then: C123); requests dropped by a stopped service (false: C50, C142); the way from Send to the connection (C40, C121)"
  },
  {
   "property": "C129",
   "status": "partial",
   "theorems": [
    "Verif.Props.C129_rest_partial",
    "Verif.Props.C129_stopped_partial",
    "Verif.Props.C129_all_partial",
    "Verif.Props.C129_kept_partial",
    "Verif.Props.C129_answers_partial"
   ],
   "note": "missing: more than 128 requests and pings per connection (false then: C123); closed endpoints (C65); requests dropped by a stopped service (false: C50, C142); connections whose write loop alone has ended, the server not answering (false: C145). For a connection whose read loop alone has ended, the write loop may run on; that it ends is due to the next ping or request (C145)"
  },
  {
   "property": "C130",
   "status": "partial",
   "theorems": [
    "Verif.Props.C130_armed",
    "Verif.Props.C130_expired_partial",
    "Verif.Props.C130_codes",
    "Verif.Props.C130_answered_partial",
    "Verif.Props.C130_results_end_partial",
    "Verif.Props.C130_stopped_partial",
    "Verif.Props.C130_each_stopped_partial",
    "Verif.Props.C130_left_violated",
    "Verif.Props.C130_each_left_violated"
   ],
   "note": "missing: the order of reads in which Expire may return too early (C43), the panics of C42 and C67; if all responses came before Results or Each the timer is left armed (C130_left_violated)"
  },
  {
   "property": "C131",
   "status": "partial",
   "theorems": [
    "Verif.Props.C131_cancelled_partial",
    "Verif.Props.C131_refused",
    "Verif.Props.C131_ended_partial",
    "Verif.Props.C131_waited",
    "Verif.Props.C131_answered_partial",
    "Verif.Props.C131_results_end_partial",
    "Verif.Props.C131_ends_partial",
    "Verif.Props.C131_loop_violated"
   ],
   "note": "missing: the race of C44, the order of reads of C43 (for the state right after one call of Cancel), the panics of C42 and C67; false, proved: cancelAll and WaitAll do not return until the owner of each MultiRequest calls Results or Each (C131_loop_violated)"
  },
  {
   "property": "C132",
   "status": "partial",
   "theorems": [
    "Verif.Props.C132_below_partial",
    "Verif.Props.C132_passed_partial",
    "Verif.Props.C132_ended_partial",
    "Verif.Props.C132_born",
    "Verif.Props.C132_timeout",
    "Verif.Props.C132_blocked_violated"
   ],
   "note": "missing: the race of C44, fairness of the scheduler; false, proved: Cancel does not reach all of the tree by itself: while an open context is below one child, the next children are never cancelled (C132_blocked_violated)"
  },
  {
   "property": "C133",
   "status": "proved",
   "theorems": [
    "Verif.Props.C133_in_order"
   ],
   "note": "sort.Sort is trusted for its contract (C63); with more than 2^32 requests ids repeat"
  },
  {
   "property": "C134",
   "status": "proved",
   "theorems": [
    "Verif.Props.C134_rest",
    "Verif.Props.C134_all",
    "Verif.Props.C134_ends"
   ],
   "note": "panics are those of C42 and C67; user code in bookmarks returns and does not reset the request; the channel of Each has room (its capacity is the number of requests)"
  },
  {
   "property": "C135",
   "status": "proved",
   "theorems": [
    "Verif.Props.C135_rest",
    "Verif.Props.C135_all",
    "Verif.Props.C135_plain"
   ],
   "note": ""
  },
  {
   "property": "C136",
   "status": "proved",
   "theorems": [
    "Verif.Props.C136_rest",
    "Verif.Props.C136_ended",
    "Verif.Props.C136_answered",
    "Verif.Props.C136_handled"
   ],
   "note": ""
  },
  {
   "property": "C137",
   "status": "partial",
   "theorems": [
    "Verif.Props.C137_rest_partial",
    "Verif.Props.C137_expired_partial",
    "Verif.Props.C137_spins_violated"
   ],
   "note": "proved when the runtime timer never fires between its Reset and Wait (false otherwise: C38) and the clock does not show exactly a deadline; if it does, the goroutine goes round until the clock moves on (proved)"
  },
  {
   "property": "C138",
   "status": "proved",
   "theorems": [
    "Verif.Props.C138_rest",
    "Verif.Props.C138_all"
   ],
   "note": "for queues nobody has begun to close; closing one loses requests (C65)"
  },
  {
   "property": "C139",
   "status": "partial",
   "theorems": [
    "Verif.Props.C139_echo",
    "Verif.Props.C139_adds",
    "Verif.Props.C139_sum",
    "Verif.Props.C139_served",
    "Verif.Props.C139_echoed",
    "Verif.Props.C139_failure_violated",
    "Verif.Props.C139_short_violated",
    "Verif.Props.C139_silent_violated"
   ],
   "note": "good answers proved; failures are not reported, short echo requests end the process, and requests of other types are never answered (proved)"
  },
  {
   "property": "C140",
   "status": "proved",
   "theorems": [
    "Verif.Props.C140_merged",
    "Verif.Props.C140_determined"
   ],
   "note": "without the sum of squares, whose rounding depends on the order; 64-bit arithmetic"
  },
  {
   "property": "C141",
   "status": "partial",
   "theorems": [
    "Verif.Props.C141_steady",
    "Verif.Props.C141_stall",
    "Verif.Props.C141_returns",
    "Verif.Props.C141_idle",
    "Verif.Props.C141_patient",
    "Verif.Props.C141_write",
    "Verif.Props.C141_trickle_violated",
    "Verif.Props.C141_wrapped_violated"
   ],
   "note": "the last sentence is false for reads: the timeout starts anew with every piece (bound: timeout times missing bytes, almost reached); connections without deadlines, such as RwcWrapper, have no timeouts (both proved)"
  },
  {
   "property": "C142",
   "status": "partial",
   "theorems": [
    "Verif.Served.C142_stopped_partial",
    "Verif.Served.C142_handled_partial",
    "Verif.Served.C142_dropped_violated"
   ],
   "note": "the last sentence is false: what the dispatcher receives after it left its loop is never answered (proved; C50); missing: connections with more than 128 requests and pings (false: C123)"
  },
  {
   "property": "C143",
   "status": "proved",
   "theorems": [
    "Verif.Props.C143_never_more",
    "Verif.Props.C143_bounded",
    "Verif.Props.C143_settled",
    "Verif.Props.C143_recovers"
   ],
   "note": "for pools that were asked to shrink or to stop it is false (C55); write loops that wait are assumed to be woken now and then, by pings or requests (C145)"
  },
  {
   "property": "C144",
   "status": "partial",
   "theorems": [
    "Verif.Props.C144_canonical_partial",
    "Verif.Props.C144_read_partial",
    "Verif.Props.C144_injective_partial",
    "Verif.Props.C144_back_partial",
    "Verif.Props.C144_tail_partial",
    "Verif.Props.C144_ber_violated",
    "Verif.Props.C144_ber_prefix_violated",
    "Verif.Props.C144_size_violated",
    "Verif.Props.C144_empty_violated"
   ],
   "note": "false for `ber` fields and prefixes, for sizes in front of slices of larger elements, and for slices of empty structs (negations proved); pointers are left out"
  },
  {
   "property": "C145",
   "status": "partial",
   "theorems": [
    "Verif.Props.C145_rest_partial",
    "Verif.Props.C145_soon",
    "Verif.Props.C145_bounded",
    "Verif.Props.C145_one_ping",
    "Verif.Props.C145_request_partial",
    "Verif.Props.C145_waits_violated",
    "Verif.Props.C145_idle_violated",
    "Verif.Props.C145_taken_violated"
   ],
   "note": "proved with pings, or when the connection is stopped or takes another request; false without pings (C145_idle_violated). Requests are taken after the loss is known, with pings or without (C145_taken_violated)"
  },
  {
   "property": "C146",
   "status": "partial",
   "theorems": [
    "Verif.Props.C146_request_partial",
    "Verif.Props.C146_example",
    "Verif.Props.C146_state_violated",
    "Verif.Props.C146_body_violated",
    "Verif.Props.C146_bookmark_violated"
   ],
   "note": "proved for Response, Responder, the chain, Bookmark.prev, Msg and Id; false for state, Body and Bookmark.Request"
  },
  {
   "property": "C147",
   "status": "partial",
   "theorems": [
    "Verif.Props.C147_multi_partial",
    "Verif.Props.C147_context_partial",
    "Verif.Props.C147_request_context_partial",
    "Verif.Props.C147_example",
    "Verif.Props.C147_context_example",
    "Verif.Props.C147_multi_violated",
    "Verif.Props.C147_context_violated",
    "Verif.Props.C147_generator_violated"
   ],
   "note": "proved for responses, w.L, cx, gen and timerSet of multi-requests and cancels, childCond.L, parent, gen, reqId and cancelBuf of contexts; false for ch, c, r, kind and requests (the slice and its elements), and for State, cancelsn and cancelsm, and for the generator of the context of a request, whose Done is called by whoever answers"
  },
  {
   "property": "C148",
   "status": "partial",
   "theorems": [
    "Verif.Props.C148_connection_partial",
    "Verif.Props.C148_queue_partial",
    "Verif.Props.C148_example",
    "Verif.Props.C148_state_violated",
    "Verif.Props.C148_put_violated",
    "Verif.Props.C148_got_violated",
    "Verif.Props.C148_queue_violated"
   ],
   "note": "proved for conn, reader, writer, readErr, shutdown, and reqs, cur, curId, last and freed of the holder, and for rows and hRow of the queue; false for State, put and got, and for head, tail, tRow, the state of places, and stopped. Nothing is claimed about fakeId of the places, where the order is that of the network"
  },
  {
   "property": "C149",
   "status": "partial",
   "theorems": [
    "Verif.Props.C149_connection_partial",
    "Verif.Props.C149_example",
    "Verif.Props.C149_connection_violated",
    "Verif.Props.C149_timer_partial",
    "Verif.Props.C149_timer_example",
    "Verif.Props.C149_timer_violated"
   ],
   "note": "proved for state and bufRealCap of a server connection, and for all that the mutex of a heap guards and heapI; false for inFly and buf (closed() has no lock), Timer.h, heaps, heapN, and Auto.servers"
  },
  {
   "property": "C150",
   "status": "proved",
   "theorems": [
    "Verif.Props.C150_server",
    "Verif.Props.C150_example"
   ],
   "note": "for all shared fields of the server"
  },
  {
   "property": "C151",
   "status": "partial",
   "theorems": [
    "Verif.Props.C151_caches_partial",
    "Verif.Props.C151_example",
    "Verif.Props.C151_caches_violated"
   ],
   "note": "C94 is about accesses at the same moment, this about the order that Go guarantees. Proved for the maps under construction, which only the holder of the mutex uses; false for the published maps and the codecs in them: they are published by a plain write of the variable and read without the mutex"
  },
  {
   "property": "C152",
   "status": "partial",
   "theorems": [
    "Verif.Props.C152_mutexes_partial",
    "Verif.Props.C152_example",
    "Verif.Props.C152_proxy_violated",
    "Verif.Props.C152_self_violated"
   ],
   "note": "proved when responders and bookmarks answer no other requests (none of the library does), or only such as were made later; false for callbacks that pass the answer on to the request for which theirs was made, and for callbacks and statistics functions that answer or cancel the request they are called for. Only waiting for mutexes is meant: for the loop of cancelAll see C112"
  },
  {
   "property": "C153",
   "status": "partial",
   "theorems": [
    "Verif.Props.C153_layout_partial",
    "Verif.Props.C153_roundtrip_partial",
    "Verif.Props.C153_example",
    "Verif.Props.C153_own_example",
    "Verif.Props.C153_order_violated",
    "Verif.Props.C153_field_violated"
   ],
   "note": "proved for types whose structs start with a string, slice, pointer or type with methods or have scalars and counts of more bytes than other fields (so that no running sum of sizes, in which a part under construction counts as -1, comes out as 0), and whose arrays are not empty; for values as in C18 (float64 slices of at most one element, pointers only with cnt(..)). False otherwise: a size of 0 makes readers and writers pass over fields. Methods of types with encodings of their own must be inverse to each other and declared alike (C103). size(..), ber, skip and fields without prefix are not in this model"
  },
  {
   "property": "C154",
   "status": "partial",
   "theorems": [
    "Verif.Sock.C154_server_partial",
    "Verif.Sock.C154_server_exact",
    "Verif.Sock.C154_server_violated",
    "Verif.ConnClose.C154_client_partial",
    "Verif.ConnClose.C154_client_violated"
   ],
   "note": "proved for connections on which no write failed before; false otherwise: CloseWrite is called only after a successful Flush, and Close never, so that after a write error (a timeout, say) the other side is not told"
  },
  {
   "property": "C155",
   "status": "partial",
   "theorems": [
    "Verif.Props.C155_connection_partial",
    "Verif.Props.C155_idle_partial",
    "Verif.Props.C155_queue_rows",
    "Verif.Props.C155_queue",
    "Verif.Props.C155_queue_rest"
   ],
   "note": "the queue is proved for all executions; the connection for polite peers and fewer than 2^32 - 1 requests (the ids of others: C51, C54). A request that is never answered keeps the row with the 255 others"
  },
  {
   "property": "C156",
   "status": "partial",
   "theorems": [
    "Verif.Listen.C156_once",
    "Verif.Listen.C156_none_late",
    "Verif.Listen.C156_told",
    "Verif.Listen.C156_over",
    "Verif.Listen.C156_ends_partial",
    "Verif.Listen.C156_stuck_violated",
    "Verif.Listen.C156_spins_violated"
   ],
   "note": "all but the end is proved for all executions; the loop ends if no call of Stop keeps the lock (a third call of Stop may keep it for ever). There is no pause after an error of Accept: the loop spins"
  },
  {
   "property": "C157",
   "status": "partial",
   "theorems": [
    "Verif.Box.C157_order_partial",
    "Verif.Box.C157_own_write_partial",
    "Verif.Box.C157_deleted_partial",
    "Verif.Box.C157_updated_partial",
    "Verif.Box.C157_keys_partial",
    "Verif.Box.C157_pipelined_partial",
    "Verif.Box.C157_messages"
   ],
   "note": "composition of C114, C24, C25 and C72 with a specification of the box (Spec/Box.lean), which handles requests in the order of their arrival. Partial as C114 (RC0, or RC4 without pings; fewer than 2^32 - 1 requests) and C22 (types and values)"
  },
  {
   "property": "C158",
   "status": "partial",
   "theorems": [
    "Verif.Body.C158_written",
    "Verif.Body.C158_reader_partial",
    "Verif.Body.C158_bytes_partial",
    "Verif.Body.C158_read2_violated",
    "Verif.Body.C158_read_violated",
    "Verif.Body.C158_tail_violated",
    "Verif.Body.C158_keys_violated"
   ],
   "note": "Reader is proved; a Body is got back with ReadTail into a []byte only: Read expects a count that was not written (proved for every body), ReadTail into a Body or any slice of scalars of a defined type panics (proved), Read2 and ReadTail2 return a reader at the end (proved), and a defined slice of bytes is not one key but as many as it has bytes (proved)"
  },
  {
   "property": "C159",
   "status": "partial",
   "theorems": [
    "Verif.Box.C159_returned_partial",
    "Verif.Box.C159_count_violated"
   ],
   "note": "false without Return, proved: such answers have the number of tuples only, and both functions take the number as a promise of tuples. Proved with Return; partial as C114 and C22"
  },
  {
   "property": "C160",
   "status": "partial",
   "theorems": [
    "Verif.Box.C160_own_write_partial",
    "Verif.Box.C160_deleted_partial",
    "Verif.Box.C160_written_violated"
   ],
   "note": "composition of C114, C24, C25 and C72 with a specification of a box with several connections (Spec/BoxPool.lean), which may handle requests in any order, but answers none before it has handled it; waiting for the answer is needed: if the first request was only written, the selection through another connection may find nothing (C160_written_violated). Partial as C114 (RC0, or RC4 without pings; fewer than 2^32 - 1 requests per connection) and C22 (types and values)"
  },
  {
   "property": "C161",
   "status": "partial",
   "theorems": [
    "Verif.Box.C161_once_partial",
    "Verif.Box.C161_atomic_partial"
   ],
   "note": "composition of C72, C71, C114, C24 and C25 with a specification of the box (Spec/Box.lean), which does nothing for a request it does not understand: a request that was given up just before it was written has no body (C71). Partial as C114 (RC0, or RC4 without pings; fewer than 2^32 - 1 requests) and C22 (types and values); the library sends nothing again by itself, the caller may"
  },
  {
   "property": "C162",
   "status": "partial",
   "theorems": [
    "Verif.Box.C162_history_partial",
    "Verif.Box.C162_under_way_partial",
    "Verif.Box.C162_concurrent_partial",
    "Verif.Box.C162_since_partial"
   ],
   "note": "composition of C114, C24, C25 and C72 with a specification of a box with several connections looked at several times (Spec/BoxLog.lean); induction over the series. Partial as C114 (RC0, or RC4 without pings; fewer than 2^32 - 1 requests per connection), C22 (types and values), updates that set fields which are there, and because the first request has to be one whose result does not depend on what was there, or what was there has to be known (C162_since_partial)"
  },
  {
   "property": "C163",
   "status": "partial",
   "theorems": [
    "Verif.Props.C163_yes",
    "Verif.Props.C163_yes_quiet",
    "Verif.Props.C163_no_partial",
    "Verif.Props.C163_no_violated"
   ],
   "note": "yes is right in all runs; no is right as long as the pool has not stopped an established connection, and false afterwards (a stopped connection is subtracted twice, C55)"
  }
 ]
}