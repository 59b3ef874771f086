{
 "claims": [
  {
   "property": "C01",
   "status": "proved",
   "theorems": [
    "Verif.Props.C01.store_read",
    "Verif.Props.C01.read_store",
    "Verif.Props.C01.set_reference_count",
    "Verif.Props.C01.set_timestamp",
    "Verif.Props.C01.states",
    "Verif.Props.C01.valid_timestamp_readable",
    "Verif.Props.C01.used",
    "Verif.Props.C01.timestamp_between"
   ],
   "note": "The 64-bit slot word: every accessor and every flag, for all words and values."
  },
  {
   "property": "C02",
   "status": "proved",
   "theorems": [
    "Verif.Props.C02.no_reader",
    "Verif.Props.C02.allocate_result",
    "Verif.Props.C02.consumers_keep_off"
   ],
   "note": "Interleaving model of one quality level's control; consumers and one provider, any schedule, crashes and restarts."
  },
  {
   "property": "C03",
   "status": "proved",
   "theorems": [
    "Verif.Props.C03.stable",
    "Verif.Props.C03.held_is_sent"
   ],
   "note": "Same model; the sample data is a cell per slot that only the writing provider changes."
  },
  {
   "property": "C04",
   "status": "proved",
   "theorems": [
    "Verif.Props.C04.increasing",
    "Verif.Props.C04.subsequence",
    "Verif.Props.C04.no_assertion",
    "Verif.Props.C04.release_delay_terminates"
   ],
   "note": "Includes the proof that no transaction-log precondition fails in the getter, and a witness of the wait-timeout termination."
  },
  {
   "property": "C05",
   "status": "proved",
   "theorems": [
    "Verif.Props.C05.newest_unseen"
   ],
   "note": ""
  },
  {
   "property": "C06",
   "status": "proved",
   "theorems": [
    "Verif.Props.C06.agrees"
   ],
   "note": ""
  },
  {
   "property": "C07",
   "status": "proved",
   "theorems": [
    "Verif.Props.C07.iff_free",
    "Verif.Props.C07.enough_slots"
   ],
   "note": ""
  },
  {
   "property": "C08",
   "status": "proved",
   "theorems": [
    "Verif.Props.C08.evicts_oldest"
   ],
   "note": ""
  },
  {
   "property": "C09",
   "status": "proved",
   "theorems": [
    "Verif.Props.C09.allocate_succeeds",
    "Verif.Props.C09.never_terminated",
    "Verif.Props.C09.timestamps_agree",
    "Verif.Props.C09.timestamp_corruption_terminates"
   ],
   "note": "Interleaving model of both controls; QM reference counts adversarial at every step; ASIL-B consumers quiet during the call (their contention is bounded by 100 retries, see C07/C08). A corrupted QM timestamp terminates the provider (witness)."
  },
  {
   "property": "C10",
   "status": "proved",
   "theorems": [
    "Verif.Props.C10.same_slots",
    "Verif.Props.C10.same_samples"
   ],
   "note": "Same model, all schedules of well-behaved consumers."
  },
  {
   "property": "C11",
   "status": "partial",
   "theorems": [
    "Verif.Props.C11.no_restart_partial",
    "Verif.Props.C11.above_visible_partial",
    "Verif.Props.C11.restart_reuses_timestamp",
    "Verif.Props.C11.counter_exhausted"
   ],
   "note": "True without restarts and below 2^32 sends; false otherwise, with witnesses proved (restart_reuses_timestamp, counter_exhausted)."
  },
  {
   "property": "C12",
   "status": "proved",
   "theorems": [
    "Verif.Props.C12.restart",
    "Verif.Props.C12.cleanup_undisturbed"
   ],
   "note": "Crash of the provider at any atomic step."
  },
  {
   "property": "C13",
   "status": "proved",
   "theorems": [
    "Verif.Props.C13.max_subscribers",
    "Verif.Props.C13.max_samples",
    "Verif.Props.C13.subscribe_decision",
    "Verif.Props.C13.no_subscriber_overflow"
   ],
   "note": "Every schedule of Subscribe/Unsubscribe, crashes and recoveries of any number of processes; 16-bit counters as in the code."
  },
  {
   "property": "C14",
   "status": "proved",
   "theorems": [
    "Verif.Props.C14.exact_at_rest",
    "Verif.Props.C14.bounds",
    "Verif.Props.C14.no_underflow",
    "Verif.Props.C14.contention_terminates"
   ],
   "note": "Counters exact when no call is in progress; a call that loses too many CAS races terminates the process (witness contention_terminates)."
  },
  {
   "property": "C15",
   "status": "proved",
   "theorems": [
    "Verif.Props.C15.exact_count",
    "Verif.Props.C15.exact_at_rest",
    "Verif.Props.C15.recovered"
   ],
   "note": "Crash of any consumer at any atomic step; rollback of the reference log."
  },
  {
   "property": "C16",
   "status": "proved",
   "theorems": [
    "Verif.Props.C16.refused",
    "Verif.Props.C16.decides"
   ],
   "note": ""
  },
  {
   "property": "C17",
   "status": "proved",
   "theorems": [
    "Verif.Props.C17.exact_after_recovery",
    "Verif.Props.C17.rollback_subscribed",
    "Verif.Props.C17.rollback_otherwise"
   ],
   "note": "Crash at every step of Subscribe/Unsubscribe."
  },
  {
   "property": "C18",
   "status": "proved",
   "theorems": [
    "Verif.Props.C18.exclusive",
    "Verif.Props.C18.at_most_n",
    "Verif.Props.C18.registers_first_free",
    "Verif.Props.C18.fails_when_full",
    "Verif.Props.C18.free_iff_unheld",
    "Verif.Props.C18.unregister_frees",
    "Verif.Props.C18.reused_log_is_empty"
   ],
   "note": "Every schedule of any number of actors. Success and failure of a registration are proved for calls not overlapped by other steps."
  },
  {
   "property": "C19",
   "status": "partial",
   "theorems": [
    "Verif.Props.C19.old_logs_recovered_partial",
    "Verif.Props.C19.one_creation_is_not_enough",
    "Verif.Props.C19.pending_shrinks",
    "Verif.Props.C19.error_iff",
    "Verif.Props.C19.effects",
    "Verif.Props.C19.held_slots",
    "Verif.Props.C19.no_abort"
   ],
   "note": "False as stated (witness one_creation_is_not_enough): one creation rolls back one log per event. Proved for as many creations as old logs."
  },
  {
   "property": "C20",
   "status": "proved",
   "theorems": [
    "Verif.Props.C20.one_entry",
    "Verif.Props.C20.result",
    "Verif.Props.C20.which_result",
    "Verif.Props.C20.own_entry",
    "Verif.Props.C20.entry_pid",
    "Verif.Props.C20.key_lossless"
   ],
   "note": "PID registration map: at most one live entry per user id under any interleaving of registrations, each registration returns the entry's previous pid, other entries unchanged, key lossless."
  },
  {
   "property": "C21",
   "status": "proved",
   "theorems": [
    "Verif.Props.C21.resources_balanced",
    "Verif.Props.C21.one_registration"
   ],
   "note": "Every history of the proxy event operations that does not terminate the process."
  },
  {
   "property": "C22",
   "status": "proved",
   "theorems": [
    "Verif.Props.C22.state_follows",
    "Verif.Props.C22.reported_state",
    "Verif.Props.C22.never_terminates",
    "Verif.Props.C22.double_stop_offer_terminates"
   ],
   "note": "State equals the one the history asks for; never_terminates covers all histories that alternate stop-offer and re-offer; double_stop_offer_terminates is the witness that the alternation is needed."
  },
  {
   "property": "C23",
   "status": "partial",
   "theorems": [
    "Verif.Props.C23.never_called_again",
    "Verif.Props.C23.registration_removed_partial",
    "Verif.Props.C23.registration_survives_while_pending"
   ],
   "note": "Handlers set before UnsetReceiveHandler are never called after it (full). The registration itself is removed unless the subscription is pending; registration_survives_while_pending shows the code violates the property there."
  },
  {
   "property": "C24",
   "status": "proved",
   "theorems": [
    "Verif.Props.C24.balanced",
    "Verif.Props.C24.limit",
    "Verif.Props.C24.never_terminates",
    "Verif.Props.C24.all_given_back",
    "Verif.Props.C24.destroy_gives_one",
    "Verif.Props.C24.reserves_what_is_left"
   ],
   "note": "Any number of threads and SamplePtr objects, including moves and move assignments."
  },
  {
   "property": "C25",
   "status": "proved",
   "theorems": [
    "Verif.Props.C25.reported",
    "Verif.Props.C25.counted_once",
    "Verif.Props.C25.destroyed_while_in_use"
   ],
   "note": "Any interleaving of allocations, moves, assignments and destructions of guards."
  },
  {
   "property": "C26",
   "status": "partial",
   "theorems": [
    "Verif.Props.C26.callback_at_most_once",
    "Verif.Props.C26.answered_when_stopped_partial",
    "Verif.Props.C26.answered_when_idle_partial",
    "Verif.Props.C26.no_callback_after_error_partial",
    "Verif.Props.C26.no_undefined_behaviour_partial",
    "Verif.Props.C26.callback_after_return",
    "Verif.Props.C26.unsolicited_reply_calls_empty_callback",
    "Verif.Props.C26.stop_during_sends_queues_command_twice",
    "Verif.Props.C26.failed_transmission_violates_debug_assertion",
    "Verif.Props.C26.stop_during_send_blocks_connection_forever"
   ],
   "note": "Proved in every execution: a callback is called at most once. Exactly once (after stop, or when everything is idle), and never after an error, for executions in which no send call is in progress while the connection is torn down and the server replies only to requests. Witnesses show that otherwise the claim fails: callback after SendWaitReply returned, empty callback called, command queued twice, connection blocked forever after a restart."
  },
  {
   "property": "C27",
   "status": "partial",
   "theorems": [
    "Verif.Props.C27.wire_in_order_partial",
    "Verif.Props.C27.all_transmitted_partial",
    "Verif.Props.C27.order_is_order_of_admission"
   ],
   "note": "Proved for executions in which no send call is in progress while the connection is torn down and the server replies only to requests. all_transmitted_partial (nothing is lost) is about the moments at which nothing is going on any more."
  },
  {
   "property": "C28",
   "status": "partial",
   "theorems": [
    "Verif.Props.C28.one_outstanding_request_partial",
    "Verif.Props.C28.reply_to_its_request_partial",
    "Verif.Props.C28.restart_during_send_misdelivers"
   ],
   "note": "Proved for executions in which no send call is in progress while the connection is torn down and the server replies only to requests. A witness shows a misdelivered reply when the connection is stopped and restarted during a SendWaitReply."
  },
  {
   "property": "C29",
   "status": "partial",
   "theorems": [
    "Verif.Props.C29.entries_accounted",
    "Verif.Props.C29.rejected_iff_full_partial",
    "Verif.Props.C29.capacity_lost"
   ],
   "note": "Every entry is accounted for in every execution; the capacity equals the configured one as long as no connection is torn down with messages queued. A witness shows that such entries are lost after stop and restart."
  },
  {
   "property": "C30",
   "status": "partial",
   "theorems": [
    "Verif.Props.C30.follows_diagram_partial",
    "Verif.Props.C30.first_reason_wins",
    "Verif.Props.C30.restart_then_stop_reaches_ready",
    "Verif.Props.C30.stop_during_restart_reaches_starting"
   ],
   "note": "The stop reason is always the first reported. The diagram is followed if Stop() is not called while an attempt to connect or a Restart() is in progress or due. A witness shows Stopping to Ready after Restart() followed by Stop() in one thread."
  },
  {
   "property": "C31",
   "status": "proved",
   "theorems": [
    "Verif.Props.C31.bounds",
    "Verif.Props.C31.growth",
    "Verif.Props.C31.limit"
   ],
   "note": "All attempts; also the exact growth law and the final value."
  },
  {
   "property": "C32",
   "status": "proved",
   "theorems": [
    "Verif.Props.C32.exactly_once",
    "Verif.Props.C32.only_registered",
    "Verif.Props.C32.never_early",
    "Verif.Props.C32.in_order",
    "Verif.Props.C32.all_due_run",
    "Verif.Props.C32.progress",
    "Verif.Props.C32.clean_up"
   ],
   "note": "ProcessQueue as interleavable turns; clean-up modelled as one step."
  },
  {
   "property": "C33",
   "status": "partial",
   "theorems": [
    "Verif.Props.C33.engine_null_owner_partial",
    "Verif.Props.C33.queue_null_owner_removes",
    "Verif.Props.C33.queue_null_owner"
   ],
   "note": "Holds at the engine's interface; the queue's own CleanUpOwner(nullptr) violates its documentation (queue_null_owner_removes)."
  },
  {
   "property": "C34",
   "status": "partial",
   "theorems": [
    "Verif.Props.C34.received_as_sent_partial",
    "Verif.Props.C34.client_to_server_partial",
    "Verif.Props.C34.server_to_client_partial",
    "Verif.Props.C34.buffer_fits",
    "Verif.Props.C34.broken_connection_partial",
    "Verif.Props.C34.broken_header_is_a_message",
    "Verif.Props.C34.oversized_payload_is_read_as_messages",
    "Verif.Props.C34.buffer_of_65536_rejects_everything",
    "Verif.Props.C34.sent_together_partial",
    "Verif.Props.C34.undisturbed_partial",
    "Verif.Props.C34.in_order",
    "Verif.Props.C34.call_returns",
    "Verif.Props.C34.interleaved_fails",
    "Verif.Props.C34.cut_short_fails",
    "Verif.Props.C34.payload_cut_is_noticed",
    "Verif.Props.C34.header_cut_fails"
   ],
   "note": "Proved for limits up to 65535 bytes, with and without a broken connection, for any number of threads that send messages small enough for the operating system to store them at once (sent_together_partial), and for pieces of any size as long as nothing comes between them (undisturbed_partial); order of each thread and return of calls for every schedule (in_order, call_returns). The configuration accepts larger limits, for which witnesses show loss of framing (oversized_payload_is_read_as_messages, buffer_of_65536_rejects_everything); a broken header is delivered as an empty message (broken_header_is_a_message, header_cut_fails). Large messages of several threads mix (interleaved_fails), and a write that a signal cuts short is reported as success (cut_short_fails)."
  },
  {
   "property": "C35",
   "status": "partial",
   "theorems": [
    "Verif.Props.C35.distinct_addresses_partial",
    "Verif.Props.C35.same_address_iff",
    "Verif.Props.C35.lola_channels_distinct",
    "Verif.Props.C35.long_identifiers_collide"
   ],
   "note": "Proved for identifiers of at most 106 bytes without NUL and for all channels of the LoLa binding; longer identifiers are cut and collide (long_identifiers_collide)."
  },
  {
   "property": "C36",
   "status": "proved",
   "theorems": [
    "Verif.Props.C36.too_long_rejected",
    "Verif.Props.C36.fitting_not_rejected",
    "Verif.Props.C36.client_respects_limit",
    "Verif.Props.C36.server_respects_limits",
    "Verif.Props.C36.server_rejects_iff",
    "Verif.Props.C36.reply_fits_buffer"
   ],
   "note": "All histories of API calls, transmissions and replies."
  },
  {
   "property": "C37",
   "status": "partial",
   "theorems": [
    "Verif.Props.C37.survives_partial",
    "Verif.Props.C37.too_large_refused",
    "Verif.Props.C37.empty_text_is_rejected",
    "Verif.Props.C37.nul_is_cut",
    "Verif.Props.C37.event_names_are_not_transmitted"
   ],
   "note": "Proved for all messages whose texts are non-empty C strings, at the level of the transmitted members. Missing because false: empty texts and texts with NUL (empty_text_is_rejected, nul_is_cut), and names of provided events, of which only the address is transmitted (event_names_are_not_transmitted)."
  },
  {
   "property": "C38",
   "status": "proved",
   "theorems": [
    "Verif.Props.C38.reads_only_the_span",
    "Verif.Props.C38.reads_only_the_span_any_type",
    "Verif.Props.C38.depends_on_span_only"
   ],
   "note": "All byte strings, all memories; also for arbitrary nested serialisable types."
  },
  {
   "property": "C39",
   "status": "proved",
   "theorems": [
    "Verif.Props.C39.independent_of_chunking",
    "Verif.Props.C39.reassembled",
    "Verif.Props.C39.send_all",
    "Verif.Props.C39.retry_after_partial_send_loses_framing"
   ],
   "note": "Chunk independence for every byte stream; reassembly for all sendable messages; a witness shows that retrying after a partial send loses the framing."
  },
  {
   "property": "C40",
   "status": "proved",
   "theorems": [
    "Verif.Props.C40.own_acknowledgement",
    "Verif.Props.C40.others_unaffected",
    "Verif.Props.C40.numbers_are_unique"
   ],
   "note": "All interleavings of sender threads, deliveries, losses, retries and disconnections. Uniqueness of numbers holds for the first 2^32 requests (the counter wraps)."
  },
  {
   "property": "C41",
   "status": "proved",
   "theorems": [
    "Verif.Props.C41.at_most_five_times",
    "Verif.Props.C41.success_means_delivered",
    "Verif.Props.C41.success_means_received",
    "Verif.Props.C41.received_twice",
    "Verif.Props.C41.failed_but_received"
   ],
   "note": "Bound and number for all executions. Findings: received_twice (receiver does not recognise repetitions), failed_but_received."
  },
  {
   "property": "C42",
   "status": "proved",
   "theorems": [
    "Verif.Props.C42.in_arrival_order",
    "Verif.Props.C42.acknowledged_first",
    "Verif.Props.C42.acknowledged_is_kept",
    "Verif.Props.C42.next_is_oldest",
    "Verif.Props.C42.acknowledged_but_dropped"
   ],
   "note": "Finding: acknowledged_but_dropped (queued acknowledged requests are lost at shutdown)."
  },
  {
   "property": "C43",
   "status": "proved",
   "theorems": [
    "Verif.Props.C43.only_listed",
    "Verif.Props.C43.only_known_events",
    "Verif.Props.C43.no_other_skeleton",
    "Verif.Props.C43.refused",
    "Verif.Props.C43.provided"
   ],
   "note": "For every sequence of peer messages interleaved with local reports. Names are opaque; the hypervisor shared memory placeholders of the sample transport are not modelled."
  },
  {
   "property": "C44",
   "status": "partial",
   "theorems": [
    "Verif.Props.C44.abort_causes",
    "Verif.Props.C44.never_aborts_partial",
    "Verif.Props.C44.peer_aborts_by_unregister",
    "Verif.Props.C44.peer_aborts_by_notify",
    "Verif.Props.C44.lost_acknowledgement_aborts",
    "Verif.Props.C44.proxy_race",
    "Verif.Props.C44.subscription_race"
   ],
   "note": "Proved under four restrictions on the input. Findings: the peer aborts the gateway with one message naming another element type (peer_aborts_by_unregister, peer_aborts_by_notify); a lost acknowledgement or failed proxy creation followed by the disappearance of the service aborts (lost_acknowledgement_aborts); two data races (proxy_race, subscription_race)."
  },
  {
   "property": "C45",
   "status": "proved",
   "theorems": [
    "Verif.Props.C45.one_outstanding",
    "Verif.Props.C45.follows_subscription",
    "Verif.Props.C45.repeated_only_if_outstanding",
    "Verif.Props.C45.repeated_once_per_provide",
    "Verif.Props.C45.all_registered_again",
    "Verif.Props.C45.failed_registration_is_not_repeated"
   ],
   "note": "Registrations caused by subscription changes; re-registrations after a repeated provide message are counted separately (repeated_only_if_outstanding, repeated_once_per_provide, all_registered_again). Finding: failed_registration_is_not_repeated."
  },
  {
   "property": "C46",
   "status": "proved",
   "theorems": [
    "Verif.Props.C46.result_exact",
    "Verif.Props.C46.aborts_iff",
    "Verif.Props.C46.zero_alignment",
    "Verif.Props.C46.aborts_early",
    "Verif.Props.C46.sequence_fits",
    "Verif.Props.C46.sequence_exact"
   ],
   "note": "Exact for all alignments when it returns; abort condition exact for powers of two, aborts_early is a witness for other alignments."
  },
  {
   "property": "C47",
   "status": "proved",
   "theorems": [
    "Verif.Props.C47.add_exact",
    "Verif.Props.C47.sub_exact",
    "Verif.Props.C47.add_signed_exact",
    "Verif.Props.C47.sub_pointers_exact",
    "Verif.Props.C47.absolute_exact",
    "Verif.Props.C47.cast_round_trip",
    "Verif.Props.C47.add_mixed_exact",
    "Verif.Props.C47.sub_mixed_exact"
   ],
   "note": "safe_math::Abs is outside the repository and modelled as exact."
  },
  {
   "property": "C48",
   "status": "proved",
   "theorems": [
    "Verif.Props.C48.created",
    "Verif.Props.C48.creation_aborts_iff",
    "Verif.Props.C48.get_outside",
    "Verif.Props.C48.get_inside",
    "Verif.Props.C48.copied",
    "Verif.Props.C48.copying_succeeds",
    "Verif.Props.C48.copied_get",
    "Verif.Props.C48.remapped",
    "Verif.Props.C48.null_everywhere",
    "Verif.Props.C48.moved"
   ],
   "note": "Designation by creation, chains of copies, remapping and moving, for all addresses; get returns the designated object wherever the checks permit."
  },
  {
   "property": "C49",
   "status": "partial",
   "theorems": [
    "Verif.Props.C49.get_stays_inside",
    "Verif.Props.C49.deref_stays_inside",
    "Verif.Props.C49.index_stays_inside_partial",
    "Verif.Props.C49.copy_stays_inside_partial",
    "Verif.Props.C49.index_is_undefined",
    "Verif.Props.C49.swap_escapes",
    "Verif.Props.C49.moved_null_escapes"
   ],
   "note": "get, -> and * for every content. Partial: [] with a representable element offset; copies on the stack unless a null one is moved. Violations: index_is_undefined, swap_escapes, moved_null_escapes."
  },
  {
   "property": "C50",
   "status": "partial",
   "theorems": [
    "Verif.Props.C50.outside",
    "Verif.Props.C50.copied_null",
    "Verif.Props.C50.in_region_partial",
    "Verif.Props.C50.unchecked",
    "Verif.Props.C50.null_aborts",
    "Verif.Props.C50.index_of_null"
   ],
   "note": "Partial: in a region only if an object of the pointed-to type would fit behind the OffsetPtr's first byte. Violation: null_aborts. Finding index_of_null."
  },
  {
   "property": "C51",
   "status": "partial",
   "theorems": [
    "Verif.Props.C51.inside_is_found",
    "Verif.Props.C51.found_is_registered",
    "Verif.Props.C51.nothing_otherwise_partial",
    "Verif.Props.C51.regions_are_disjoint",
    "Verif.Props.C51.refused_iff_overlapping",
    "Verif.Props.C51.end_is_found"
   ],
   "note": "Over every history of successful changes of the table. Partial: the end address of a region (one past its last byte) is attributed to the region (end_is_found); everything else is as stated."
  },
  {
   "property": "C52",
   "status": "proved",
   "theorems": [
    "Verif.Props.C52.never_overwritten_while_read",
    "Verif.Props.C52.unchanged_while_read",
    "Verif.Props.C52.sees_a_complete_version",
    "Verif.Props.C52.result_is_right",
    "Verif.Props.C52.attempt_fails_only_after_a_change",
    "Verif.Props.C52.lookups_go_back",
    "Verif.Props.C52.lost_version_stays_lost",
    "Verif.Props.C52.version_lost"
   ],
   "note": "One writer, any number of readers, all interleavings under sequential consistency. Findings: lookups_go_back, version_lost / lost_version_stays_lost."
  },
  {
   "property": "C53",
   "status": "partial",
   "theorems": [
    "Verif.Props.C53.never_aborts_partial",
    "Verif.Props.C53.reinserted_partial",
    "Verif.Props.C53.removal_aborts",
    "Verif.Props.C53.reinsertion_is_ineffective",
    "Verif.Props.C53.removal_of_another"
   ],
   "note": "Partial: without refused registrations. With them the property is violated: removal_aborts, reinsertion_is_ineffective, removal_of_another."
  },
  {
   "property": "C54",
   "status": "proved",
   "theorems": [
    "Verif.Props.C54.aligned",
    "Verif.Props.C54.inside",
    "Verif.Props.C54.disjoint",
    "Verif.Props.C54.aligned_elsewhere",
    "Verif.Props.C54.terminates_only_if",
    "Verif.Props.C54.returns_if_it_fits",
    "Verif.Props.C54.reported_bytes",
    "Verif.Props.C54.corrupted_counter_escapes",
    "Verif.Props.C54.disturbed_allocation_terminates",
    "Verif.Props.C54.not_aligned_elsewhere"
   ],
   "note": "aligned, inside and disjoint over every interleaving of any number of threads with their own mappings; terminates_only_if and returns_if_it_fits characterise failures. Findings: a corrupted counter makes allocate return memory outside of the region; 32 disturbed attempts terminate the process although there is space; alignments above the page size do not carry over to other mappings."
  },
  {
   "property": "C55",
   "status": "partial",
   "theorems": [
    "Verif.Props.C55.flag_set_partial",
    "Verif.Props.C55.flag_set_or_pending_partial",
    "Verif.Props.C55.flag_reset",
    "Verif.Props.C55.overtaken_report_silences_event",
    "Verif.Props.C55.overtaken_message_silences_event",
    "Verif.Props.C55.outdated_node_silences_event"
   ],
   "note": "Calls and messages are steps of any number of threads. The flag is right whenever no status report is pending or overtaken; three witnesses show how an overtaken report silences an event (callbacks run after the table lock is released)."
  },
  {
   "property": "C56",
   "status": "partial",
   "theorems": [
    "Verif.Props.C56.at_most_once",
    "Verif.Props.C56.exactly_once_partial",
    "Verif.Props.C56.interested_throughout_partial",
    "Verif.Props.C56.who_is_notified",
    "Verif.Props.C56.too_many_nodes"
   ],
   "note": "Every interested node is told at most once per notification; exactly once with at most 5100 nodes registered throughout; too_many_nodes shows that the 8-bit loop counter stops at 255 buffers of 20 nodes."
  },
  {
   "property": "C57",
   "status": "partial",
   "theorems": [
    "Verif.Props.C57.calls_all_partial",
    "Verif.Props.C57.calls_first_five",
    "Verif.Props.C57.sixth_handler_not_called",
    "Verif.Props.C57.called_only_if_registered",
    "Verif.Props.C57.unregistered_not_called",
    "Verif.Props.C57.number_wrap_breaks_unregister"
   ],
   "note": "Handlers are called exactly if registered, for at most five handlers per event and fewer than 2^32 registrations. Witnesses: the sixth handler is never called; after the registration number has wrapped a handler cannot be unregistered."
  },
  {
   "property": "C58",
   "status": "proved",
   "theorems": [
    "Verif.Props.C58.subscribe_only_allowed",
    "Verif.Props.C58.call_only_subscriber",
    "Verif.Props.C58.anyone_can_unsubscribe",
    "Verif.Props.C58.allowed_consumer_can_take_over"
   ],
   "note": "Proved for every sequence of messages of any callers. Findings outside of the statement: unsubscriptions are not checked (anyone_can_unsubscribe), application ids are not checked against the sender (allowed_consumer_can_take_over)."
  },
  {
   "property": "C59",
   "status": "partial",
   "theorems": [
    "Verif.Props.C59.one_reply_partial",
    "Verif.Props.C59.request_is_served",
    "Verif.Props.C59.refused_request",
    "Verif.Props.C59.malformed_message_closes",
    "Verif.Props.C59.requests_are_distinct",
    "Verif.Props.C59.one_reply_per_message_partial",
    "Verif.Props.C59.consumer_result",
    "Verif.Props.C59.message_during_destruction_crashes",
    "Verif.Props.C59.failed_subscription_closes_connection",
    "Verif.Props.C59.undefined_reply_aborts_consumer"
   ],
   "note": "Exactly one defined reply for every message and every handler state while the instance lives; requests, refusals and malformed messages treated completely, with the byte layout. Witnesses: a message during destruction crashes the provider after the reply (value() of an empty optional); a failed subscription closes the connection (error number of another enumeration); an undefined reply aborts the consumer."
  },
  {
   "property": "C60",
   "status": "partial",
   "theorems": [
    "Verif.Props.C60.told_exactly_partial",
    "Verif.Props.C60.told_iff_handler_partial",
    "Verif.Props.C60.same_process_offers_again",
    "Verif.Props.C60.replaced_handler_is_not_counted",
    "Verif.Props.C60.reregistration_is_dropped",
    "Verif.Props.C60.late_proxy_takes_registration_away",
    "Verif.Props.C60.messages_out_of_order"
   ],
   "note": "Start and stop messages alternate and match the handlers for orderly histories (and for all histories of setting and unsetting handlers while the provider process stays). Five witnesses show histories in which the provider is told to stop too early or never."
  },
  {
   "property": "C61",
   "status": "partial",
   "theorems": [
    "Verif.Props.C61.reported_is_offered_partial",
    "Verif.Props.C61.never_aborts",
    "Verif.Props.C61.reported_matches",
    "Verif.Props.C61.phantom_instance"
   ],
   "note": "Proved for runs in which no batch holds the creation and then the removal of the same flag file (CalmRun); phantom_instance shows that the claim fails in the others. never_aborts and reported_matches hold for all runs. Handlers may start and stop searches to any depth; StartFindService may fail. Missing: queue overflow and failing system calls while events are handled."
  },
  {
   "property": "C62",
   "status": "proved",
   "theorems": [
    "Verif.Props.C62.called_on_change_and_not_after_stop",
    "Verif.Props.C62.called_only_if_started",
    "Verif.Props.C62.start_is_recorded",
    "Verif.Props.C62.handles_are_new",
    "Verif.Props.C62.goes_on_until_stopped"
   ],
   "note": "All runs of the discovery client model: StartFindService (succeeding or failing) and StopFindService, also from handlers to any depth, reading and handling of batches, file system activities at any point."
  },
  {
   "property": "C63",
   "status": "proved",
   "theorems": [
    "Verif.Props.C63.accepted_iff",
    "Verif.Props.C63.keeps_text"
   ],
   "note": "For the C locale."
  },
  {
   "property": "C64",
   "status": "proved",
   "theorems": [
    "Verif.Props.C64.strict_weak",
    "Verif.Props.C64.incomparable_iff_equal",
    "Verif.Props.C64.total",
    "Verif.Props.C64.type_ignored",
    "Verif.Props.C64.raw_type"
   ],
   "note": "Strict weak ordering whose equivalence is operator==; the element type is not part of the key (type_ignored)."
  },
  {
   "property": "C65",
   "status": "partial",
   "theorems": [
    "Verif.Props.C65.position_outside_rejected",
    "Verif.Props.C65.position_inside_accepted_partial",
    "Verif.Props.C65.slot_inside_partial",
    "Verif.Props.C65.slots_apart_partial",
    "Verif.Props.C65.queue_inside_region",
    "Verif.Props.C65.overflow_escapes"
   ],
   "note": "Rejection of positions outside of the queue and the position of the whole queue in the region are proved for all sizes; disjointness, containment, alignment and acceptance for all sizes whose product with the queue size is below 2^64. Finding: the products are not checked for overflow (overflow_escapes). Missing: nothing else; queue size and data pointers that a consumer corrupts in shared memory are not covered."
  },
  {
   "property": "C66",
   "status": "proved",
   "theorems": [
    "Verif.Props.C66.holds_exactly",
    "Verif.Props.C66.one_incarnation",
    "Verif.Props.C66.no_empty_entries",
    "Verif.Props.C66.insert_needs_clean_up"
   ],
   "note": "Proved as a refinement: the table holds exactly the entries that a specification over the history of operations prescribes, one process per application."
  },
  {
   "property": "C67",
   "status": "proved",
   "theorems": [
    "Verif.Props.C67.rejected_iff",
    "Verif.Props.C67.state_iff"
   ],
   "note": "Complete characterisation of all histories."
  },
  {
   "property": "C68",
   "status": "partial",
   "theorems": [
    "Verif.Props.C68.restart_safe_partial",
    "Verif.Props.C68.crash_in_send_terminates",
    "Verif.Props.C68.crash_in_allocate_terminates",
    "Verif.Props.C68.crash_after_disconnect_terminates"
   ],
   "note": "False in general: three witnesses are proved. The partial theorem covers crashes between calls while QM is connected."
  },
  {
   "property": "C69",
   "status": "partial",
   "theorems": [
    "Verif.Props.C69.slots_referenced_partial",
    "Verif.Props.C69.slots_referenced_quiet",
    "Verif.Props.C69.slots_referenced_exceeded"
   ],
   "note": "Bound proved with one extra slot per thread inside a SamplePtr destructor; slots_referenced_exceeded shows the code violates the bound itself (guard destroyed before the slot is dereferenced)."
  },
  {
   "property": "C70",
   "status": "partial",
   "theorems": [
    "Verif.Props.C70.wakes_up_partial",
    "Verif.Props.C70.blocks_forever",
    "Verif.Props.C70.nothing_pending",
    "Verif.Props.C70.qnx_wakes_up_partial",
    "Verif.Props.C70.qnx_blocks"
   ],
   "note": "Holds while the first pending command is overdue by less than 2 ms (Unix) or not overdue (QNX); blocks_forever and qnx_blocks show the violation otherwise."
  },
  {
   "property": "C71",
   "status": "partial",
   "theorems": [
    "Verif.Props.C71.unmapped_only_if",
    "Verif.Props.C71.mapped_partial",
    "Verif.Props.C71.registered_is_mapped",
    "Verif.Props.C71.stale_handler_uses_unmapped_memory",
    "Verif.Props.C71.foreign_unsubscribe_unmaps_used_memory"
   ],
   "note": "False as stated: stale_handler_uses_unmapped_memory and foreign_unsubscribe_unmaps_used_memory are counterexamples. Proved: the only causes, and the property if no other process of the application subscribes and nobody unsubscribes the proxy."
  },
  {
   "property": "C72",
   "status": "partial",
   "theorems": [
    "Verif.Props.C72.terminates_only_if",
    "Verif.Props.C72.never_terminates_partial",
    "Verif.Props.C72.restart_in_other_order_terminates",
    "Verif.Props.C72.subscription_during_stop_terminates_later",
    "Verif.Props.C72.consumer_memory_terminates"
   ],
   "note": "False as stated: a restarted consumer that creates its proxies in another order, a subscription during a stop, and a consumer's own memory can terminate the provider (three findings). Proved: the only causes, and that well-behaved consumers that are not restarted never terminate it."
  },
  {
   "property": "C73",
   "status": "proved",
   "theorems": [
    "Verif.Props.C73.subscription_registers",
    "Verif.Props.C73.stays_registered",
    "Verif.Props.C73.call_is_served"
   ],
   "note": "C73.subscription_registers, stays_registered and call_is_served together: a processed subscription registers a handler per method, it stays callable under all other activity, and a call with it runs the handler. Same model as C58."
  },
  {
   "property": "C74",
   "status": "proved",
   "theorems": [
    "Verif.Props.C74.allocated_position_unused",
    "Verif.Props.C74.full_iff",
    "Verif.Props.C74.held_value_stays",
    "Verif.Props.C74.held_distinct",
    "Verif.Props.C74.call_passes_arguments",
    "Verif.Props.C74.copying_call_passes_arguments",
    "Verif.Props.C74.plain_call_position_unused",
    "Verif.Props.C74.call_result",
    "Verif.Props.C74.moved_out_argument_breaks",
    "Verif.Props.C74.result_as_argument_breaks"
   ],
   "note": "Every theorem is for histories in which the application passes to a call only pointers it holds (precondition in the statement); moved_out_argument_breaks and result_as_argument_breaks show what happens otherwise."
  },
  {
   "property": "C75",
   "status": "partial",
   "theorems": [
    "Verif.Props.C75.offered_is_visible_partial",
    "Verif.Props.C75.visible_is_offered_partial",
    "Verif.Props.C75.every_file_has_an_owner",
    "Verif.Props.C75.stopped_is_invisible_partial",
    "Verif.Props.C75.one_provider_partial",
    "Verif.Props.C75.no_termination_partial",
    "Verif.Props.C75.offer_succeeds_partial",
    "Verif.Props.C75.concurrent_offers_break",
    "Verif.Props.C75.failed_offer_leaves_file",
    "Verif.Props.C75.qm_offer_keeps_stale_b",
    "Verif.Props.C75.qm_stop_blocks_offer"
   ],
   "note": "Partial: visibility, uniqueness, invisibility after stopping, success of a call left alone and absence of termination are proved for histories in which the calls for one instance do not overlap and no two processes offer it at the same time. The code does not enforce this: concurrent_offers_break shows two overlapping OfferService calls that both succeed and leave no flag file, and a later StopOfferService that terminates the process. failed_offer_leaves_file, qm_offer_keeps_stale_b and qm_stop_blocks_offer are further findings. every_file_has_an_owner holds for all histories."
  },
  {
   "property": "C76",
   "status": "partial",
   "theorems": [
    "Verif.Props.C76.handler_called",
    "Verif.Props.C76.registered_with_provider",
    "Verif.Props.C76.unsubscribe_removes_partial",
    "Verif.Props.C76.called_after_unsubscribe",
    "Verif.Props.C76.registered_after_unsubscribe"
   ],
   "note": "handler_called and registered_with_provider are proved for all histories. unsubscribe_removes_partial covers Unsubscribe calls made outside receive handlers; from within a receive handler the claim is false of the code (called_after_unsubscribe)."
  },
  {
   "property": "C77",
   "status": "partial",
   "theorems": [
    "Verif.Props.C77.one_provider_partial",
    "Verif.Props.C77.second_refused_partial",
    "Verif.Props.C77.can_be_created",
    "Verif.Props.C77.two_providers",
    "Verif.Props.C77.two_providers_wherever"
   ],
   "note": "one_provider_partial and second_refused_partial hold for runs in which no object is created while another one is destroyed (Orderly). Without that the property is false: two_providers. can_be_created holds for all runs."
  },
  {
   "property": "C78",
   "status": "partial",
   "theorems": [
    "Verif.Props.C78.works_partial",
    "Verif.Props.C78.same_memory_partial",
    "Verif.Props.C78.stays_same_partial",
    "Verif.Props.C78.removed_in_use",
    "Verif.Props.C78.apart_from_provider",
    "Verif.Props.C78.stale_memory"
   ],
   "note": "The theorems hold for orderly runs: no consumer is between opening and locking the marker file at the moment at which the provider removes its name, and nobody opens memory in a process in which a proxy is being destroyed. Ends of processes and failing file operations are allowed anywhere. Without these restrictions the property is false: removed_in_use, apart_from_provider, stale_memory."
  },
  {
   "property": "C79",
   "status": "partial",
   "theorems": [
    "Verif.Props.C79.survives_partial",
    "Verif.Props.C79.lock_file_owned_partial",
    "Verif.Props.C79.can_offer",
    "Verif.Props.C79.can_take_over_partial",
    "Verif.Props.C79.can_connect_partial",
    "Verif.Props.C79.can_join_partial",
    "Verif.Props.C79.offering_again_ends_process",
    "Verif.Props.C79.retry_ends_process",
    "Verif.Props.C79.killed_consumer_ends_others",
    "Verif.Props.C79.not_always_survived"
   ],
   "note": "can_offer holds for all runs. survives_partial needs orderly and tidy runs; can_connect_partial and can_join_partial need orderly runs and no lock file; the code violates the full property: offering_again_ends_process, retry_ends_process, killed_consumer_ends_others, not_always_survived."
  },
  {
   "property": "C80",
   "status": "partial",
   "theorems": [
    "Verif.Props.C80.removed_partial",
    "Verif.Props.C80.stop_removes_partial",
    "Verif.Props.C80.stop_keeps_partial",
    "Verif.Props.C80.left_behind"
   ],
   "note": "Holds for orderly runs (as C78). left_behind shows that memory kept for a consumer is not removed when this consumer leaves."
  },
  {
   "property": "C81",
   "status": "partial",
   "theorems": [
    "Verif.Props.C81.enough_partial",
    "Verif.Props.C81.offered_partial",
    "Verif.Props.C81.accessor_ends_process",
    "Verif.Props.C81.missing_subscribers_ends_process",
    "Verif.Props.C81.over_aligned_ends_process"
   ],
   "note": "Proved for sample types that are not over-aligned and, in the analysis mode, for services without getters and setters of fields. Both exceptions are real: accessor_ends_process, missing_subscribers_ends_process and over_aligned_ends_process prove that offering ends the process. Sizes and alignments of library types are parameters."
  },
  {
   "property": "C82",
   "status": "partial",
   "theorems": [
    "Verif.Props.C82.get_is_last",
    "Verif.Props.C82.set_is_handler",
    "Verif.Props.C82.offer_done_has_value",
    "Verif.Props.C82.get_answers_once_partial",
    "Verif.Props.C82.get_answers_used_partial",
    "Verif.Props.C82.set_answers_partial",
    "Verif.Props.C82.reoffer_loses_value",
    "Verif.Props.C82.retry_loses_value"
   ],
   "note": "get_is_last, set_is_handler and offer_done_has_value hold for all call sequences. That Get is answered with a value while the service is offered is proved for services offered once and for services whose memory is always in use; it is false otherwise (reoffer_loses_value, retry_loses_value). set_answers_partial needs that OfferService is not called on an offered service."
  },
  {
   "property": "C83",
   "status": "partial",
   "theorems": [
    "Verif.Props.C83.offer_all",
    "Verif.Props.C83.stays_offered_partial",
    "Verif.Props.C83.offer_none_partial",
    "Verif.Props.C83.offer_errors",
    "Verif.Props.C83.offer_succeeds_partial",
    "Verif.Props.C83.stop_all",
    "Verif.Props.C83.second_offer_breaks"
   ],
   "note": "offer_all, offer_errors and stop_all hold for all call sequences. offer_none_partial and stays_offered_partial need that OfferService is called only while the service is not offered; otherwise they are false (second_offer_breaks). offer_succeeds_partial speaks about careful runs (see C84) and memory that no consumer uses."
  },
  {
   "property": "C84",
   "status": "partial",
   "theorems": [
    "Verif.Props.C84.no_crash_partial",
    "Verif.Props.C84.double_offer_crashes",
    "Verif.Props.C84.full_field_crashes",
    "Verif.Props.C84.get_in_stop_crashes"
   ],
   "note": "Proved for careful call sequences. Each excluded case is witnessed: double_offer_crashes, full_field_crashes, get_in_stop_crashes."
  },
  {
   "property": "C85",
   "status": "partial",
   "theorems": [
    "Verif.Props.C85.increasing_partial",
    "Verif.Props.C85.all_given_partial",
    "Verif.Props.C85.sets_increasing_partial",
    "Verif.Props.C85.all_published",
    "Verif.Props.C85.waits_for_set",
    "Verif.Props.C85.overlap_hides",
    "Verif.Props.C85.overlap_hides_later"
   ],
   "note": "all_published and waits_for_set hold for all runs. Increasing timestamps are proved when no Update overlaps with another send, in particular for any number of concurrent set handlers alone. False for an Update that overlaps with a Set (overlap_hides, overlap_hides_later)."
  },
  {
   "property": "C86",
   "status": "proved",
   "theorems": [
    "Verif.Props.C86.names_differ",
    "Verif.Props.C86.search_paths_differ",
    "Verif.Props.C86.quality_is_read_back",
    "Verif.Props.C86.match_is_exact",
    "Verif.Props.C86.instance_is_read_back",
    "Verif.Props.C86.addresses_differ"
   ],
   "note": "All names (Linux prefixes) with no bound on the numbers; socket addresses for process ids below 2^32; instance ids below 65536 for reading."
  },
  {
   "property": "C87",
   "status": "partial",
   "theorems": [
    "Verif.Props.C87.identifiers_differ_partial",
    "Verif.Props.C87.long_identifiers_collide"
   ],
   "note": "Proved for identifiers of at most 106 characters without a zero character. Missing: longer identifiers, for which it is false (long_identifiers_collide)."
  },
  {
   "property": "C88",
   "status": "partial",
   "theorems": [
    "Verif.Props.C88.kept_partial",
    "Verif.Props.C88.numbers_differ_partial",
    "Verif.Props.C88.all_released",
    "Verif.Props.C88.stop_releases_partial",
    "Verif.Props.C88.slots_of_elements_differ",
    "Verif.Props.C88.own_slot_exists",
    "Verif.Props.C88.process_lives_partial",
    "Verif.Props.C88.traced_if_free_partial",
    "Verif.Props.C88.send_is_traced",
    "Verif.Props.C88.late_callback_releases_other_sample",
    "Verif.Props.C88.two_senders_end_process"
   ],
   "note": "Unrestricted: no reference is forgotten, slots of elements differ. With non-overlapping calls per element: lifetime (if also no element is stopped with traces in flight), release by stop, no assertion, no needless loss. Both restrictions are needed; witnesses are proved."
  },
  {
   "property": "C89",
   "status": "partial",
   "theorems": [
    "Verif.Props.C89.enabled_iff_asked",
    "Verif.Props.C89.slots_exact",
    "Verif.Props.C89.element_asks",
    "Verif.Props.C89.created_once_lives_partial",
    "Verif.Props.C89.created_again_ends_process"
   ],
   "note": "Enabling and the number of slots are proved without restriction. That the process lives is proved if no element is created twice and calls for one element do not overlap; creating an element again ends the process (witness)."
  },
  {
   "property": "C90",
   "status": "partial",
   "theorems": [
    "Verif.Props.C90.data_of_registered_object",
    "Verif.Props.C90.local_data",
    "Verif.Props.C90.data_is_current_partial",
    "Verif.Props.C90.unregistered_handle",
    "Verif.Props.C90.trace_is_made",
    "Verif.Props.C90.not_retried"
   ],
   "note": "Source, offset and order of the registration, and that a trace is made, are proved for all interleavings. Missing: the object is still registered at the call only if calls do not overlap (unregistered_handle is the witness otherwise), and a failed registration is not retried (not_retried), so that clause is false of the code."
  },
  {
   "property": "C91",
   "status": "partial",
   "theorems": [
    "Verif.Props.C91.off_is_final",
    "Verif.Props.C91.off_iff_partial",
    "Verif.Props.C91.loss_reported_partial",
    "Verif.Props.C91.loss_not_reported",
    "Verif.Props.C91.only_for_a_reason",
    "Verif.Props.C91.point_is_off",
    "Verif.Props.C91.off_point_is_not_traced"
   ],
   "note": "Reasons for points that are off and the finality of switching tracing off hold for all interleavings. Missing: the report of losses and the exact condition for tracing being off are proved for calls that do not overlap; with overlap the report is false of the code (loss_not_reported)."
  },
  {
   "property": "C92",
   "status": "proved",
   "theorems": [
    "Verif.Props.C92.one_connection",
    "Verif.Props.C92.right_process",
    "Verif.Props.C92.found_is_current",
    "Verif.Props.C92.ready_is_reused",
    "Verif.Props.C92.broken_is_replaced",
    "Verif.Props.C92.user_is_connected",
    "Verif.Props.C92.user_is_refused",
    "Verif.Props.C92.call_returns",
    "Verif.Props.C92.looks_bounded",
    "Verif.Props.C92.process_lives",
    "Verif.Props.C92.removed_is_stopped",
    "Verif.Props.C92.removed_at_once",
    "Verif.Props.C92.remove_elsewhere_ends",
    "Verif.Props.C92.handler_waits_in_vain"
   ],
   "note": "All claims hold in the model. Assumption: connections are removed by the callback thread only (process_lives), as the code does; the witness remove_elsewhere_ends shows that it is needed. Finding: handler_waits_in_vain."
  },
  {
   "property": "C93",
   "status": "proved",
   "theorems": [
    "Verif.Props.C93.found_was_offered",
    "Verif.Props.C93.offered_is_found",
    "Verif.Props.C93.each_once"
   ],
   "note": "For every reachable state and all activities between the looks of the crawler. A failing listing of directories (FindService returns an error) is not modelled."
  },
  {
   "property": "C94",
   "status": "proved",
   "theorems": [
    "Verif.Props.C94.like_a_struct",
    "Verif.Props.C94.arguments_are_objects",
    "Verif.Props.C94.call_arrives",
    "Verif.Props.C94.wide_alignment_differs",
    "Verif.Props.C94.serialized_is_found",
    "Verif.Props.C94.serialize_stays_inside"
   ],
   "note": "call_arrives and arguments_are_objects build on the call queue of C65. wide_alignment_differs shows that the limit on the alignment is needed. A value is the list of its bytes; handlers that change their arguments are not modelled."
  },
  {
   "property": "C95",
   "status": "partial",
   "theorems": [
    "Verif.Props.C95.session_is_orderly",
    "Verif.Props.C95.open_is_polled",
    "Verif.Props.C95.descriptors_are_closed",
    "Verif.Props.C95.server_is_polled",
    "Verif.Props.C95.request_is_offered",
    "Verif.Props.C95.received_is_delivered",
    "Verif.Props.C95.ready_is_served",
    "Verif.Props.C95.only_ready_is_read",
    "Verif.Props.C95.unidentified_is_rejected",
    "Verif.Props.C95.session_lasts",
    "Verif.Props.C95.failure_ends_session",
    "Verif.Props.C95.one_at_a_time_partial",
    "Verif.Props.C95.callbacks_overlap",
    "Verif.Props.C95.no_fault_partial",
    "Verif.Props.C95.error_after_disconnect_fails",
    "Verif.Props.C95.failed_accept_terminates",
    "Verif.Props.C95.disconnect_outside_terminates"
   ],
   "note": "Order of the callbacks, delivery, service of ready sessions, reasons to end, closed descriptors and offered requests are proved for all runs. Partial: callbacks of a session overlap when a message callback ends its own session (callbacks_overlap), so one_at_a_time_partial excludes this; no_fault_partial excludes three cases that are shown to fail: a failing accept, RequestDisconnect from another thread, and an error returned after the callback has ended its own session."
  },
  {
   "property": "C96",
   "status": "proved",
   "theorems": [
    "Verif.Props.C96.stop_ends_sessions",
    "Verif.Props.C96.stop_is_quiet",
    "Verif.Props.C96.offered_only_when_started",
    "Verif.Props.C96.stop_returns",
    "Verif.Props.C96.others_go_on"
   ],
   "note": "Proved for all runs of the model; the order in which queued commands are processed is arbitrary in it."
  },
  {
   "property": "C97",
   "status": "partial",
   "theorems": [
    "Verif.Props.C97.text_round_trip_partial",
    "Verif.Props.C97.untraced_round_trip_partial",
    "Verif.Props.C97.text_tells_apart",
    "Verif.Props.C97.created_is_known",
    "Verif.Props.C97.bad_text_is_refused",
    "Verif.Props.C97.accepted_has_version",
    "Verif.Props.C97.needs_configuration",
    "Verif.Props.C97.tracing_slots_are_lost_fails",
    "Verif.Props.C97.known_service_terminates_fails",
    "Verif.Props.C97.second_time_terminates_fails",
    "Verif.Props.C97.second_instance_terminates_fails",
    "Verif.Props.C97.empty_object_terminates_fails"
   ],
   "note": "The round trip is proved for all deployments, up to the tracing slots, and every text that is no JSON object is refused. The code violates the rest: tracing slots are not part of the text, and Create terminates the process when the service is known, when a text is read twice, for a second instance of the same service and for a JSON object that is no identifier."
  },
  {
   "property": "C98",
   "status": "partial",
   "theorems": [
    "Verif.Props.C98.equal_iff_same",
    "Verif.Props.C98.equal_is_equivalence",
    "Verif.Props.C98.less_iff",
    "Verif.Props.C98.less_is_strict",
    "Verif.Props.C98.sets_work_partial",
    "Verif.Props.C98.same_hash_partial",
    "Verif.Props.C98.compatible_is",
    "Verif.Props.C98.equal_but_different_hash_fails",
    "Verif.Props.C98.order_is_not_weak_fails",
    "Verif.Props.C98.different_but_not_ordered_fails"
   ],
   "note": "Equality, compatibility and that the order is strict are proved for all identifiers; that containers work is proved for identifiers of which those with the same service and id have the same binding. The code violates the rest: equal identifiers may have different hashes, and the order is not a strict weak order."
  },
  {
   "property": "C99",
   "status": "proved",
   "theorems": [
    "Verif.Props.C99.valid_iff",
    "Verif.Props.C99.name_is_kept"
   ],
   "note": "Proved for all strings."
  },
  {
   "property": "C100",
   "status": "partial",
   "theorems": [
    "Verif.Props.C100.loaded_iff_compatible",
    "Verif.Props.C100.loaded_is_union",
    "Verif.Props.C100.failed_merge_keeps",
    "Verif.Props.C100.entries_stay",
    "Verif.Props.C100.names_stay",
    "Verif.Props.C100.resolves_to",
    "Verif.Props.C100.configured_resolve",
    "Verif.Props.C100.created_breaks_addon_fails"
   ],
   "note": "Proved for all configurations, add-ons and histories. The code violates one case: an identifier created from text is not checked, and the next add-on, compatible or not, then terminates the process (created_breaks_addon_fails)."
  },
  {
   "property": "C101",
   "status": "partial",
   "theorems": [
    "Verif.Props.C101.accepted_iff_consistent",
    "Verif.Props.C101.error_is_there",
    "Verif.Props.C101.started_is_consistent",
    "Verif.Props.C101.default_is_not_checked_fails",
    "Verif.Props.C101.methods_are_not_checked_fails"
   ],
   "note": "The check is characterised exactly, and a process started by InitializeRuntime keeps a consistent configuration. The code violates the rest: the default configuration is not checked, and methods are not checked."
  },
  {
   "property": "C102",
   "status": "proved",
   "theorems": [
    "Verif.Props.C102.known_names_resolve",
    "Verif.Props.C102.answers_are_right",
    "Verif.Props.C102.loaded_is_there",
    "Verif.Props.C102.loaded_is_checked",
    "Verif.Props.C102.entries_stay",
    "Verif.Props.C102.no_termination",
    "Verif.Props.C102.loading_ends"
   ],
   "note": "Proved for all interleavings. InstanceIdentifier::Create, which changes the maps without the mutex, is not part of the concurrent model."
  },
  {
   "property": "C103",
   "status": "partial",
   "theorems": [
    "Verif.Props.C103.only_allowed_connect",
    "Verif.Props.C103.listed_connect",
    "Verif.Props.C103.control_is_separate",
    "Verif.Props.C103.data_is_read_only",
    "Verif.Props.C103.data_is_for_consumers",
    "Verif.Props.C103.unrestricted_connect_partial",
    "Verif.Props.C103.strict_is_closed",
    "Verif.Props.C103.only_allowed_subscribe",
    "Verif.Props.C103.allowed_subscribe_partial",
    "Verif.Props.C103.calls_are_private",
    "Verif.Props.C103.calls_come_from_subscriber",
    "Verif.Props.C103.calls_are_opened",
    "Verif.Props.C103.only_subscriber_calls",
    "Verif.Props.C103.empty_provider_list_fails",
    "Verif.Props.C103.other_list_restricts_fails",
    "Verif.Props.C103.empty_list_refuses_methods_fails",
    "Verif.Props.C103.same_user_has_no_methods_fails"
   ],
   "note": "Violated in four cases, each with a witness: an empty provider list without strict checks refuses every other user (empty_provider_list_fails), a list for one quality keeps others from the data of an unrestricted quality (other_list_restricts_fails), an empty consumer list without strict checks refuses methods to everybody (empty_list_refuses_methods_fails), and a proxy of the provider's own user connects but cannot subscribe to methods (same_user_has_no_methods_fails). Without those cases unrestricted users do connect and subscribe (unrestricted_connect_partial, allowed_subscribe_partial). That only allowed users connect, and that listed ones do, is proved without restriction."
  },
  {
   "property": "C104",
   "status": "partial",
   "theorems": [
    "Verif.Props.C104.no_fault_partial",
    "Verif.Props.C104.own_place_partial",
    "Verif.Props.C104.no_leak_partial",
    "Verif.Props.C104.allocate_partial",
    "Verif.Props.C104.allocate_refused",
    "Verif.Props.C104.send_partial",
    "Verif.Props.C104.send_refused",
    "Verif.Props.C104.send_copy_partial",
    "Verif.Props.C104.give_back_partial",
    "Verif.Props.C104.write_partial",
    "Verif.Props.C104.event_outlives",
    "Verif.Props.C104.event_ends",
    "Verif.Props.C104.content_partial",
    "Verif.Props.C104.published_stays",
    "Verif.Props.C104.offer_frees",
    "Verif.Props.C104.ends_after_stop_offer_fails",
    "Verif.Props.C104.send_after_stop_offer_fails",
    "Verif.Props.C104.kept_pointer_fails",
    "Verif.Props.C104.other_event_fails",
    "Verif.Props.C104.empty_pointer_fails",
    "Verif.Props.C104.assign_keeps_fails"
   ],
   "note": "Proved for programs that withdraw or end an event only when no pointer is left, that send a sample with the event from which it is, and that do not send or write through an empty pointer. Each rule is needed: five of the six _fails theorems show what happens without it (undefined behaviour after StopOfferService, two pointers to one slot after a new offer, a slot of the wrong event published, end of the process). The sixth shows that the move assignment swaps and does not release. event_outlives, event_ends and allocate_refused hold for all programs."
  },
  {
   "property": "C105",
   "status": "partial",
   "theorems": [
    "Verif.Props.C105.no_fault_partial",
    "Verif.Props.C105.own_elements",
    "Verif.Props.C105.one_variable",
    "Verif.Props.C105.moved_from_is_empty",
    "Verif.Props.C105.nothing_is_left",
    "Verif.Props.C105.move_keeps",
    "Verif.Props.C105.assign_replaces",
    "Verif.Props.C105.assign_self",
    "Verif.Props.C105.destroy_ends",
    "Verif.Props.C105.held_sample_blocks",
    "Verif.Props.C105.release_is_fine",
    "Verif.Props.C105.offer_is_own",
    "Verif.Props.C105.stop_offer_is_own",
    "Verif.Props.C105.subscribe_is_own",
    "Verif.Props.C105.unsubscribe_is_own",
    "Verif.Props.C105.move_again_fails",
    "Verif.Props.C105.call_moved_from_fails"
   ],
   "note": "Proved for every program while the process runs; that it never ends by a fault is proved for programs that do nothing but end or assign to a moved-from variable and give back samples in time. Moving or using a moved-from variable is undefined (move_again_fails, call_moved_from_fails)."
  },
  {
   "property": "C106",
   "status": "partial",
   "theorems": [
    "Verif.Props.C106.same_place_partial",
    "Verif.Props.C106.apart_partial",
    "Verif.Props.C106.kept_apart_partial",
    "Verif.Props.C106.offers",
    "Verif.Props.C106.distinct",
    "Verif.Props.C106.wrong_type_refused",
    "Verif.Props.C106.provided_iff",
    "Verif.Props.C106.generic_events",
    "Verif.Props.C106.sample_size",
    "Verif.Props.C106.reopen_partial",
    "Verif.Props.C106.generic_after_typed",
    "Verif.Props.C106.reopen_other_type_fails",
    "Verif.Props.C106.typed_after_generic_fails",
    "Verif.Props.C106.wrap_fails"
   ],
   "note": "Agreement of provider and consumers, separation, alignment, refusal of other types and absent elements, and progress are proved for all lists of elements with less than 2^63 bytes of samples. Violated without that bound (wrap_fails), for a restart with another sample type (reopen_other_type_fails) and for a typed provider on memory of a generic one (typed_after_generic_fails)."
  },
  {
   "property": "C107",
   "status": "partial",
   "theorems": [
    "Verif.Props.C107.kept_partial",
    "Verif.Props.C107.no_fault",
    "Verif.Props.C107.nothing_lost",
    "Verif.Props.C107.get_new",
    "Verif.Props.C107.move_moves",
    "Verif.Props.C107.swap_swaps",
    "Verif.Props.C107.drop_gives_back",
    "Verif.Props.C107.assign_replaces",
    "Verif.Props.C107.reset_replaces",
    "Verif.Props.C107.reusable",
    "Verif.Props.C107.limit_partial",
    "Verif.Props.C107.compare_by_time",
    "Verif.Props.C107.null_compares",
    "Verif.Props.C107.assigned_from_fails",
    "Verif.Props.C107.limit_fails"
   ],
   "note": "Proved for all programs and interleavings: no reference is lost or given back twice, readable pointers keep their samples, moves, swaps, resets and ends have exactly their effects, comparison is by time. Violated: the source of a move assignment is not null and dangles (assigned_from_fails); a subscription can exceed its maximum while a pointer is being destroyed (limit_fails)."
  },
  {
   "property": "C108",
   "status": "partial",
   "theorems": [
    "Verif.Props.C108.enabled_iff_partial",
    "Verif.Props.C108.loads_partial",
    "Verif.Props.C108.calls_traced_partial",
    "Verif.Props.C108.calls_only_wanted",
    "Verif.Props.C108.sends_traced_partial",
    "Verif.Props.C108.sends_only_wanted",
    "Verif.Props.C108.no_filter_no_trace",
    "Verif.Props.C108.calls_switched_off",
    "Verif.Props.C108.sends_switched_off",
    "Verif.Props.C108.state_points_fails",
    "Verif.Props.C108.nul_fails",
    "Verif.Props.C108.long_fails"
   ],
   "note": "Violated for the trace points of the subscription state, which are accepted but never recorded, for names with a zero character, and for names longer than 1022 bytes; proved for everything else."
  },
  {
   "property": "C109",
   "status": "partial",
   "theorems": [
    "Verif.Props.C109.follows_partial",
    "Verif.Props.C109.alive_partial",
    "Verif.Props.C109.offer_registers_partial",
    "Verif.Props.C109.until_stop_partial",
    "Verif.Props.C109.stop_unregisters_partial",
    "Verif.Props.C109.untraced_is_never_registered",
    "Verif.Props.C109.offer_succeeds_iff",
    "Verif.Props.C109.stop_ends_offer",
    "Verif.Props.C109.typed_iff",
    "Verif.Props.C109.ends_iff",
    "Verif.Props.C109.failed_offer_fails",
    "Verif.Props.C109.second_offer_fails",
    "Verif.Props.C109.switched_off_fails"
   ],
   "note": "Proved for histories in which services are not offered twice, offers fail only before the memory exists, and tracing is still on for the service when it is stopped; stop_unregisters_partial, untraced_is_never_registered, typed_iff and ends_iff hold for all histories. Violated otherwise: an offer that fails after the registration leaves it and the next offer ends the process (failed_offer_fails); a second offer ends the process (second_offer_fails); a stop after the trace points were switched off leaves the registration (switched_off_fails)."
  },
  {
   "property": "C110",
   "status": "partial",
   "theorems": [
    "Verif.Props.C110.no_loss_no_repeat",
    "Verif.Props.C110.pings_arrive",
    "Verif.Props.C110.notify_answers",
    "Verif.Props.C110.reply_answers",
    "Verif.Props.C110.replies_are_awaited",
    "Verif.Props.C110.left_behind",
    "Verif.Props.C110.pulses_are_handled",
    "Verif.Props.C110.all_arrive_partial",
    "Verif.Props.C110.in_order_partial",
    "Verif.Props.C110.stays_behind_fails",
    "Verif.Props.C110.behind_forever_fails",
    "Verif.Props.C110.reply_stays_behind_fails",
    "Verif.Props.C110.ping_overtakes_fails",
    "Verif.Props.C110.message_overtakes_fails",
    "Verif.Props.C110.second_reply_fails"
   ],
   "note": "Partial: all_arrive_partial and in_order_partial need at most one message queued when the client announces its pulses; otherwise violated, with witnesses and the exact number of messages left behind (left_behind)."
  },
  {
   "property": "C111",
   "status": "partial",
   "theorems": [
    "Verif.Props.C111.pulse_value_round_trip",
    "Verif.Props.C111.reaches_its_endpoint",
    "Verif.Props.C111.pulse_is_sent",
    "Verif.Props.C111.slot_is_given",
    "Verif.Props.C111.stale_is_ignored_partial",
    "Verif.Props.C111.values_differ",
    "Verif.Props.C111.only_registered",
    "Verif.Props.C111.disconnected_once",
    "Verif.Props.C111.nothing_after_disconnect",
    "Verif.Props.C111.cleaned_up",
    "Verif.Props.C111.unregistered",
    "Verif.Props.C111.nonce_wraps_fails"
   ],
   "note": "Partial only because of the 16-bit nonce (nonce_wraps_fails); stale_is_ignored_partial holds for fewer than 65536 registrations in between."
  },
  {
   "property": "C112",
   "status": "partial",
   "theorems": [
    "Verif.Props.C112.answers_were_sent",
    "Verif.Props.C112.not_torn",
    "Verif.Props.C112.sent_by",
    "Verif.Props.C112.given_back",
    "Verif.Props.C112.send_alone",
    "Verif.Props.C112.answered",
    "Verif.Props.C112.send_ends",
    "Verif.Props.C112.undisturbed_partial",
    "Verif.Props.C112.alone_partial",
    "Verif.Props.C112.atomic_partial",
    "Verif.Props.C112.never_backwards_partial",
    "Verif.Props.C112.stamps_partial",
    "Verif.Props.C112.get_without_value_fails",
    "Verif.Props.C112.goes_back_fails",
    "Verif.Props.C112.set_is_lost_fails"
   ],
   "note": "Violated in three ways, each with a schedule: get_without_value_fails (a Get of a field with the recommended two slots fails although the field always had a value), goes_back_fails (a later Get is answered with an older value than an earlier one, although Update and Set do not overlap), set_is_lost_fails (Update and Set overlap, get the same timestamp, and Get does not see the Set that ended last). Proved for every schedule: answers_were_sent, not_torn, answered, send_ends, sent_by (what is sent is what was given to the call), given_back (a Get gives its reference back), send_alone (a send goes through if a slot is free and nobody interferes). Proved when Update and Set do not overlap each other: stamps_partial, undisturbed_partial, alone_partial, and, when there are more slots than overlapping sends and slots in use, atomic_partial and never_backwards_partial. The error after 100 failed attempts to take the reference stays possible in atomic_partial and undisturbed_partial; alone_partial excludes it without overlap."
  },
  {
   "property": "C113",
   "status": "partial",
   "theorems": [
    "Verif.Props.C113.orderly",
    "Verif.Props.C113.offered",
    "Verif.Props.C113.delivered_partial",
    "Verif.Props.C113.only_what_was_written_partial",
    "Verif.Props.C113.ends_for_a_reason",
    "Verif.Props.C113.close_ends",
    "Verif.Props.C113.stop_ends_all_partial",
    "Verif.Props.C113.listening",
    "Verif.Props.C113.defined_partial",
    "Verif.Props.C113.long_message_fails",
    "Verif.Props.C113.stale_bytes_fails",
    "Verif.Props.C113.out_of_buffer_fails",
    "Verif.Props.C113.second_start_fails",
    "Verif.Props.C113.failed_start_fails",
    "Verif.Props.C113.accepted_but_gone_fails",
    "Verif.Props.C113.second_request_fails"
   ],
   "note": "Violated in seven ways, each with a witness: long_message_fails, stale_bytes_fails, out_of_buffer_fails, second_start_fails, failed_start_fails, accepted_but_gone_fails, second_request_fails. Proved for every run: orderly, offered, ends_for_a_reason, close_ends, listening. delivered_partial needs a message that fits into the fixed buffer; only_what_was_written_partial and defined_partial need complete headers; stop_ends_all_partial and defined_partial need StartListening not to be called while listening."
  },
  {
   "property": "C114",
   "status": "partial",
   "theorems": [
    "Verif.Props.C114.initialised_partial",
    "Verif.Props.C114.once_partial",
    "Verif.Props.C114.held_partial",
    "Verif.Props.C114.same_partial",
    "Verif.Props.C114.stays",
    "Verif.Props.C114.stale_fails"
   ],
   "note": "Proved for every interleaving and kill point without RemoveStaleArtefacts (initialised_partial, once_partial, held_partial) and, for the same memory, without Remove (same_partial). RemoveStaleArtefacts breaks it (stale_fails). Missing: statements for runs with RemoveStaleArtefacts beyond the witness."
  },
  {
   "property": "C115",
   "status": "partial",
   "theorems": [
    "Verif.Props.C115.creates_partial",
    "Verif.Props.C115.opens_partial",
    "Verif.Props.C115.lock_given_back",
    "Verif.Props.C115.there_is_got_partial",
    "Verif.Props.C115.again",
    "Verif.Props.C115.both_fail_fails",
    "Verif.Props.C115.open_disturbs_create_fails",
    "Verif.Props.C115.slow_callback_fails",
    "Verif.Props.C115.killed_blocks_fails",
    "Verif.Props.C115.killed_ends_fails",
    "Verif.Props.C115.patient",
    "Verif.Props.C115.survives_partial"
   ],
   "note": "Progress is proved for calls during which no other process does anything, in every reachable state; there_is_got_partial adds that with any number of other processes a call gets memory that is there and stays there, patient that nobody gives up waiting early, and lock_given_back that a lock file is there only while a process is in a call or was killed in one; survives_partial says what can end a process. Calls that overlap can fail without reason (both_fail_fails, open_disturbs_create_fails), a long callback or a killed process ends the others (slow_callback_fails, killed_blocks_fails, killed_ends_fails)."
  },
  {
   "property": "C116",
   "status": "partial",
   "theorems": [
    "Verif.Props.C116.one_partial",
    "Verif.Props.C116.kept",
    "Verif.Props.C116.failed_open_unregisters_fails",
    "Verif.Props.C116.create_again_ends_fails",
    "Verif.Props.C116.open_while_released_ends_fails",
    "Verif.Props.C116.provider_partial",
    "Verif.Props.C116.typed_fails",
    "Verif.Props.C116.writable",
    "Verif.Props.C116.writable_needs_consistency"
   ],
   "note": "Proved for processes that do not call Remove and do not call while a destructor runs (one_partial), and if all calls ask the daemon or none is for typed memory (provider_partial). Memory stays as long as a caller has it (kept). The other cases are violations with concrete runs."
  },
  {
   "property": "C117",
   "status": "partial",
   "theorems": [
    "Verif.Props.C117.as_written_partial",
    "Verif.Props.C117.one_meaning",
    "Verif.Props.C117.section_found",
    "Verif.Props.C117.found_is_written",
    "Verif.Props.C117.type_found",
    "Verif.Props.C117.ids_differ",
    "Verif.Props.C117.event_traced_iff",
    "Verif.Props.C117.field_traced_iff",
    "Verif.Props.C117.tracing_default_fails",
    "Verif.Props.C117.use_default_fails",
    "Verif.Props.C117.several_instances_fails",
    "Verif.Props.C117.unknown_member_fails",
    "Verif.Props.C117.second_binding_fails",
    "Verif.Props.C117.no_slots_fails",
    "Verif.Props.C117.same_service_id_fails"
   ],
   "note": "Proved for every file whose numbers are integers and whose objects have no member twice (as_written_partial and the theorems after it); reading the text of the file is not modelled. Where the README or the schema say something else than the parser there are concrete files (_fails): default of tracing and of getters and setters, several instances under one specifier, unknown members, further bindings, zero sample slots, equal service ids."
  },
  {
   "property": "C118",
   "status": "partial",
   "theorems": [
    "Verif.Props.C118.nothing_after",
    "Verif.Props.C118.nothing_after_here",
    "Verif.Props.C118.returns_partial",
    "Verif.Props.C118.both_wait_fails",
    "Verif.Props.C118.callback_cleans_fails",
    "Verif.Props.C118.server_thread_fails",
    "Verif.Props.C118.told_once",
    "Verif.Props.C118.endpoint_kept",
    "Verif.Props.C118.endpoint_called",
    "Verif.Props.C118.at_most_once",
    "Verif.Props.C118.command_kept",
    "Verif.Props.C118.null_owner"
   ],
   "note": "Nothing of the owner after the call (on an ordinary thread; in a callback: nothing is started again), endpoints are told once, commands run at most once and are not lost: proved for every interleaving. Missing: the call returns only if no other clean-up of the same owner is asked for meanwhile (both_wait_fails, callback_cleans_fails), and on QNX a clean-up in a callback of a server returns while a callback of the owner runs (server_thread_fails)."
  },
  {
   "property": "C119",
   "status": "partial",
   "theorems": [
    "Verif.Props.C119.no_lost_wakeup",
    "Verif.Props.C119.in_order",
    "Verif.Props.C119.bounded",
    "Verif.Props.C119.counts",
    "Verif.Props.C119.resolves",
    "Verif.Props.C119.try_receive",
    "Verif.Props.C119.giving_up",
    "Verif.Props.C119.handler_refused",
    "Verif.Props.C119.stream_begins",
    "Verif.Props.C119.validation",
    "Verif.Props.C119.cancellation",
    "Verif.Props.C119.cancel_wakes",
    "Verif.Props.C119.stream_complete",
    "Verif.Props.C119.next_item",
    "Verif.Props.C119.no_panic_partial",
    "Verif.Props.C119.several_polls_fails",
    "Verif.Props.C119.small_container_fails",
    "Verif.Props.C119.full_window_fails",
    "Verif.Props.C119.not_shrunk_fails",
    "Verif.Props.C119.full_stream_fails"
   ],
   "note": "Every clause is proved for all interleavings except two. The process does not end only with a container that can hold all samples subscribed for (no_panic_partial, small_container_fails). The container at the end of a receive over several polls does not hold the samples that were counted (several_polls_fails); resolves says exactly what each poll does to it. full_window_fails, not_shrunk_fails and full_stream_fails show where the documentation is not met."
  },
  {
   "property": "C120",
   "status": "partial",
   "theorems": [
    "Verif.Props.C120.no_lost_wakeup",
    "Verif.Props.C120.poll_result",
    "Verif.Props.C120.result_is_latest",
    "Verif.Props.C120.stopped_partial",
    "Verif.Props.C120.error_means_not_started",
    "Verif.Props.C120.not_polled_fails",
    "Verif.Props.C120.closure_leaks_fails"
   ],
   "note": "Proved for every interleaving, except that a future that is dropped before its first poll does not stop the search (stopped_partial, not_polled_fails) and that the memory of the callback is never released (closure_leaks_fails). That no callback starts after the search is stopped is taken from C62."
  },
  {
   "property": "C121",
   "status": "partial",
   "theorems": [
    "Verif.Props.C121.path_named",
    "Verif.Props.C121.path_missing",
    "Verif.Props.C121.used_is_expected",
    "Verif.Props.C121.one_runtime",
    "Verif.Props.C121.kept_is_read",
    "Verif.Props.C121.ignored_only_after_use",
    "Verif.Props.C121.call_returns",
    "Verif.Props.C121.goes_on",
    "Verif.Props.C121.used_is_valid_partial",
    "Verif.Props.C121.used_is_valid_fails"
   ],
   "note": "Configurations are values of any type with the result of Validate; parsing is C117, add-ons are C102. Violated in part: the default file is not validated (used_is_valid_fails)."
  },
  {
   "property": "C122",
   "status": "partial",
   "theorems": [
    "Verif.Props.C122.handlers_one_at_a_time",
    "Verif.Props.C122.no_call_after_stop",
    "Verif.Props.C122.quiet_after_stop_partial",
    "Verif.Props.C122.second_stop_fails",
    "Verif.Props.C122.handles_unique",
    "Verif.Props.C122.start_result",
    "Verif.Props.C122.known_is_told",
    "Verif.Props.C122.news_is_told",
    "Verif.Props.C122.unknown_name_fails",
    "Verif.Props.C122.calls_return"
   ],
   "note": "Proved for every interleaving, except: quiet_after_stop_partial needs that nobody else is already stopping the search; second_stop_fails shows that it is false otherwise. unknown_name_fails: an unknown name is not an error. The destructor of the service discovery is not modelled."
  },
  {
   "property": "C123",
   "status": "partial",
   "theorems": [
    "Verif.Props.C123.gateway_as_written",
    "Verif.Props.C123.socket_as_written",
    "Verif.Props.C123.comes_up_iff",
    "Verif.Props.C123.accepted_iff",
    "Verif.Props.C123.forwarded_searched",
    "Verif.Props.C123.schema_accepted_partial",
    "Verif.Props.C123.port_fails",
    "Verif.Props.C123.no_layer_fails",
    "Verif.Props.C123.misspelled_fails"
   ],
   "note": "Parser and specification are equivalent for every file. Partial because files of the schemas are not always accepted (port_fails, no_layer_fails) and files that the schema forbids are not refused (misspelled_fails). The IP address is kept as text."
  },
  {
   "property": "C124",
   "status": "partial",
   "theorems": [
    "Verif.Props.C124.no_call_after_destructor",
    "Verif.Props.C124.handlers_on_known_thread",
    "Verif.Props.C124.nothing_bad",
    "Verif.Props.C124.in_order",
    "Verif.Props.C124.events_handled",
    "Verif.Props.C124.destructor_returns_partial",
    "Verif.Props.C124.lost_pulse_fails",
    "Verif.Props.C124.own_thread_fails"
   ],
   "note": "Everything but the return of the destructor holds without conditions. The destructor returns if no handler calls it and the quit pulse is sent; both exceptions are proved as violations."
  },
  {
   "property": "C125",
   "status": "partial",
   "theorems": [
    "Verif.Props.C125.in_force",
    "Verif.Props.C125.samples_within",
    "Verif.Props.C125.subscribe_result",
    "Verif.Props.C125.giving_up_partial",
    "Verif.Props.C125.process_lives_partial",
    "Verif.Props.C125.held_samples_fails",
    "Verif.Props.C125.forgotten_future_fails",
    "Verif.Props.C125.many_samples_fails"
   ],
   "note": "What is in force, the result of subscribe and the samples hold for all sequences. Giving up without ending the process holds without held samples and forgotten futures; the exceptions are proved as violations."
  }
 ]
}