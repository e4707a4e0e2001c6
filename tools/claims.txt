C01 | proved | Maf.serialize_roundtrip, Maf.default_is_fresh | Fresh = default-initialised target; stale_target_is_appended and empty_tuple_never_succeeds record the exclusions.
C02 | proved | Maf.deserialize_consumes_exactly, Maf.sequence_roundtrip |
C03 | proved | Maf.serialize_prefix_free, Maf.serialize_injective |
C04 | proved | Maf.serializedSize_eq, Maf.serializedSize_exact, Maf.serializedSize_defined |
C05 | partial | Maf.truncation_fails_stream_partial, Maf.truncated_scalar_rejected, Maf.truncated_string_rejected, Maf.truncated_vector_accepted, Maf.truncated_tuple_accepted, Maf.truncated_pointer_accepted | The failed state is proved for every type and cut. The boolean result is refuted for containers, tuples and pointers (proved on witnesses), proved for scalars and strings.
C06 | proved | Maf.deserialize_safe, Maf.read_inside, Maf.read_refused, Maf.read_refused_iff |
C07 | proved | Maf.IPC.payload_reads_repeatable |
C08 | proved | Maf.variant_decode, Maf.variant_bad_index |
C09 | proved | Maf.ostream_concatenates | write_after_move_pads: writes after the bytes were moved out are outside the claim.
C10 | partial | Maf.decoded_sequence_bounded_partial, Maf.decoded_set_bounded_partial, Maf.decoded_map_bounded_partial, Maf.decoded_string_bounded_partial, Maf.hostile_size_accepted, Maf.hostile_string_size | Refuted in general (hostile_size_accepted, hostile_string_size); sequences, sets, maps and strings are bounded whenever the stream has not failed.
C11 | proved | Maf.IPC.message_roundtrip |
C12 | proved | Maf.IPC.truncated_header_rejected, Maf.IPC.truncated_error_rejected |
C13 | partial | Maf.Framing.recv_only_exact_partial, Maf.Framing.recv_delivers_partial, Maf.Framing.split_length_prefix_dropped, Maf.Framing.send_recv | Refuted when the 4-byte prefix itself is split over two reads; proved for every chunking of the body.
C14 | partial | Maf.Framing.send_success_partial, Maf.Framing.failed_write_reported_as_success | Refuted when a body write fails (status overwritten with Success).
C50 | proved | Maf.IPC.truncated_payload_not_success |
C51 | partial | Maf.Framing.recv_no_overflow_partial, Maf.Framing.overlong_peer_overflows | Refuted for a peer that sends more than it announced.
C52 | partial | Maf.Framing.dead_peer_never_delivered_partial, Maf.Framing.dead_peer_spins | Never delivered: proved; receiver keeps serving: refuted (spins on end of file).
C53 | proved | Maf.decoded_set_ordered, Maf.decoded_map_ordered |
C15 | proved | Maf.Q.push_accounted, Maf.Q.queue_fifo, Maf.Q.queue_conserves |
C16 | partial | Maf.Q.false_result_reason, Maf.Q.got_was_pushed, Maf.Q.no_pop_from_empty_partial, Maf.Q.reopen_pops_empty | Results are justified in every run; "never pops an empty container" is refuted with reOpen, proved for all runs without it.
C17 | partial | Maf.Q.close_releases_partial, Maf.Q.closed_wait_returns, Maf.Q.close_loses_wakeup | Refuted: close notifies without the mutex, a consumer about to block misses it; proved for all runs that avoid this window.
C54 | proved | Maf.Q.no_sleep_while_work |
C46 | partial | Maf.Pool.tasks_conserved, Maf.Pool.submissions_settled, Maf.Pool.ran_then_done, Maf.Pool.pool_no_ub, Maf.Pool.shutdown_finishes_all_partial, Maf.Pool.late_push_lost, Maf.Pool.fixed_pool_size, Maf.Pool.dynamic_pool_size_partial, Maf.Pool.dynamic_pool_raised_partial, Maf.Pool.dynamic_pool_exceeds_max, Maf.Pool.lowered_exceeds | Never run twice, never both run and dropped: proved for every run. Refuted: a submission overlapping shutdown can be lost; concurrent submissions to a dynamic pool exceed its maximum, and lowering the maximum ends no thread.
C47 | proved | Maf.Pool.most_urgent_first, Maf.Q.priority_served_first |
C55 | partial | Maf.Pool.fixed_pool_destroyed_cleanly_partial, Maf.Pool.joined_ended, Maf.Pool.dynamic_pool_terminates | Proved for fixed-size pools; refuted for the dynamic pool (task submitted after shutdown).
C56 | proved | Maf.Pool.stop_exactly_running, Maf.Pool.stop_only_at_shutdown |
C23 | proved | Maf.Sig.emission_exact, Maf.Sig.emission_rules |
C24 | proved | Maf.Sig.disconnected_not_called, Maf.Sig.disconnect_truthful |
C25 | proved | Maf.Sig.connected_truthful, Maf.Sig.disconnect_truthful, Maf.Sig.reconnect_truthful, Maf.Sig.connected_once, Maf.Sig.connect_connected, Maf.Sig.handle_stable |
C57 | partial | Maf.Sig.reentrancy_safe_partial, Maf.Sig.self_disconnect_undefined, Maf.Sig.nested_emit_undefined | Proved for programs that do not clear, destroy, or emit from within a slot and keep the connection they disconnect themselves through; refuted otherwise.
C58 | proved | Maf.Sig.scope_end_disconnects |
C26 | proved | Maf.Obs.change_notifies_each_once, Maf.Obs.notified_only_on_change, Maf.Obs.set_same, Maf.Obs.set_get, Maf.Obs.setAt_get, Maf.Obs.silent_set, Maf.Obs.received_exactly |
C27 | partial | Maf.Obs.observers_up_to_date_partial, Maf.Obs.connect_calls_at_once, Maf.Obs.reconnect_stale, Maf.Obs.nested_reference_stale | Proved for histories without reconnects and nested references; refuted for those. connect with an argument that is exactly a std::function of the slot type selects the inherited overload and does not notify.
C28 | partial | Maf.Compound.compound_mirrors_partial, Maf.Compound.compound_notifies_on_change, Maf.Compound.compound_lags | Equal whenever no source is being changed, without silent sets; 'always' is refuted.
C59 | partial | Maf.Compound.async_compound_mirrors_partial, Maf.Compound.reordering_executor_stale | Proved for executors that keep the order; refuted for others.
C18 | proved | Maf.Proc.order_exactly_once, Maf.Proc.accepted_in_program_order, Maf.Proc.begun_is_run, Maf.Proc.on_run_thread, Maf.Proc.one_at_a_time, Maf.Proc.single_runner, Maf.Proc.next_is_taken | Queue and dispatch loop of one processor, any threads. "one at a time" needs run calls that are not nested (runOnceFor inside an execution is legal and nests on purpose).
C19 | partial | Maf.Proc.true_means_queued_partial, Maf.Proc.stopped_executes_nothing, Maf.Proc.stop_clears, Maf.Proc.pending_is_gone, Maf.Proc.false_means_refused, Maf.Proc.true_though_dropped, Maf.Proc.taken_runs_after_stop, Maf.Proc.late_push_runs_after_reuse | The full property is false: true_though_dropped, taken_runs_after_stop and late_push_runs_after_reuse are counterexamples. Proved: after a stop nothing leaves the queue, everything pending is gone for good, calls made after it return false, true means queued unless a stop happened during the call.
C20 | partial | Maf.Proc.post_result_partial, Maf.Proc.handlers_kept, Maf.Proc.dispatch_exact, Maf.Proc.own_type, Maf.Proc.post_true_no_handler, Maf.Proc.disconnect_during_dispatch | The dispatch half is proved in full (dispatch_exact, own_type; handlers_kept: only a disconnect takes a handler away). The result of post: false is exact; true may be returned although the last handler has disconnected itself during a dispatch (post_true_no_handler refutes the full statement).
C60 | partial | Maf.Proc.lock_chains_partial, Maf.Proc.can_go_on, Maf.Proc.someone_moves_partial, Maf.Proc.waiting_stands, Maf.Proc.circle_forever, Maf.Proc.post_connect_deadlock | The full property is false: post_connect_deadlock. Proved: a thread in a call can make its next step, or waits for a lock, or for work (can_go_on, unconditional); no circular wait, and a thread that can go on at the end of the chain, as long as handlers themselves do not wait for a lock.
C21 | partial | Maf.Route.joined_unique, Maf.Route.joined_named, Maf.Route.anonymous_unreachable, Maf.Route.create_result, Maf.Route.create_in_use_null, Maf.Route.anonymous_ids_partial, Maf.Route.anonymous_ids_repeat, Maf.Route.create_race, Maf.Route.stop_evicts_other | uniqueness of joined ids, null for an id in use and unreachability of anonymous ones proved for all schedules. Refuted in the code: two concurrent creates of one id both return a processor (create_race), anonymous ids repeat after 2^32 (anonymous_ids_repeat; distinct before), stop of a reused processor evicts the one that has its id now.
C22 | partial | Maf.Route.post_result, Maf.Route.to_all, Maf.Route.to_all_reaches, Maf.Route.join_told_partial, Maf.Route.joins_once, Maf.Route.leave_told, Maf.Route.stopped_not_joined, Maf.Route.new_not_told, Maf.Route.new_not_told_case | post, postToAll and the announcements to the joined ones proved for all schedules; refuted: a new processor is told about the ones already joined (new_not_told: it never is).
C61 | proved | Maf.Route.router_goes_on | 
C29 | proved | Maf.Tmr.not_early_start, Maf.Tmr.not_early_restart, Maf.Tmr.fired_was_set | 
C30 | partial | Maf.Tmr.fires_once, Maf.Tmr.running_is, Maf.Tmr.no_drift_partial, Maf.Tmr.drift | one-shot part proved for all histories. Deadlines start + k*duration proved for calm histories (no job operating on timers lasts past the deadline being waited for; restart only of running timers); refuted without that (drift).
C31 | partial | Maf.Tmr.stopped_silent, Maf.Tmr.own_deadline_partial, Maf.Tmr.lost_timer_spins | silence after stop proved for all histories. Independence of timers proved for calm histories; refuted otherwise: a start during the wait for another timer can lose the started timer and make the thread spin for ever (lost_timer_spins).
C32 | partial | Maf.Tmr.earliest_first_partial, Maf.Tmr.records_exact_partial, Maf.Tmr.restart_not_recorded, Maf.Tmr.restart_undefined, Maf.Tmr.lost_timer_spins | proved for calm histories; refuted otherwise (restart of an idle timer is not recorded, or undefined; lost_timer_spins). Heap algorithms taken by their specification.
C62 | partial | Maf.Tmr.attended, Maf.Tmr.due_can_fire_partial, Maf.Tmr.waits_for_earliest_partial, Maf.Tmr.lost_timer_spins, Maf.Tmr.reuse_forgets | attended for all histories without a stop of the processor; the rest for calm ones; refuted otherwise (lost_timer_spins), and after stop and reuse (reuse_forgets).
C33 | proved | Maf.Ids.never_invalid, Maf.Ids.distinct, Maf.Ids.repeats, Maf.Ids.soon | allocateNewID as an atomic fetch-and-add loop over all interleavings; 'repeats' gives the exact period after which ids recur.
C44 | partial | Maf.Addr.eq_iff, Maf.Addr.order_iff_partial, Maf.Addr.order_broken, Maf.Addr.regid_order_partial, Maf.Addr.regid_order_broken, Maf.Addr.set_good, Maf.Addr.set_partial, Maf.Addr.same_port_ok, Maf.Addr.set_loses | Equality is as stated; the order is refuted in general (order_broken, regid_order_broken, set_loses) and proved for the addresses of which no two are ordered oppositely by name and port.
C48 | proved | Maf.Guard.tuple_diff_bits, Maf.Guard.tuple_diff_zero | For tuples of any length and types.
C49 | partial | Maf.Guard.exit_once_partial, Maf.Guard.exit_copied_twice, Maf.Guard.exit_assigned_lost, Maf.Guard.time_at_most_once_partial, Maf.Guard.time_exactly_once_partial, Maf.Guard.time_twice, Maf.Guard.time_lost | Proved without copies of scope guards, and without operations on a measurement from its own callback; refuted in general.
C34 | partial | Maf.Req.answer_reaches_its_request, Maf.Req.answer_delivered, Maf.Req.final_once, Maf.Req.never_after_final_partial, Maf.Req.partial_after_final | Routing of responses and at most one final response proved for all schedules. Refuted: a partial update that has already been looked up is delivered after the final response (partial_after_final); proved when the deliveries do not overlap.
C35 | partial | Maf.Req.abort_sent, Maf.Req.abort_iff_pending, Maf.Req.abort_no_answer, Maf.Req.abort_no_callback_partial, Maf.Req.answered_after_abort | The Abort sent is as stated, for all schedules. Refuted: an answer taken before the abort is still delivered after it (answered_after_abort); proved for every answer whose delivery begins after the abort.
C40 | partial | Maf.Req.update_calls_all, Maf.Req.late_subscriber_cached, Maf.Req.cache_is_latest_partial, Maf.Req.late_subscriber_stale, Maf.Req.stale_after_loss, Maf.Req.null_status_undefined | Every update reaches all callbacks registered when it is delivered. The cached value is the latest one received when deliveries do not overlap; refuted otherwise (late_subscriber_stale), after a loss of the service (stale_after_loss) and for a null status (null_status_undefined).
C41 | partial | Maf.Req.register_asks, Maf.Req.unregister_asks, Maf.Req.mirror_partial, Maf.Req.registrations_cross, Maf.Req.failed_register_strands, Maf.Req.unregister_unknown_asks | Register iff first callback, proved for all schedules. The mirror is proved when operations on one operation id do not overlap and sends do not fail; refuted otherwise.
C42 | partial | Maf.Req.loss_clears, Maf.Req.lost_requests, Maf.Req.lost_registrations, Maf.Req.lost_no_callback_partial, Maf.Req.callback_after_loss, Maf.Req.request_survives_loss, Maf.Cli.change_is_change, Maf.Cli.told_is_status, Maf.Cli.changes_alternate, Maf.Cli.observer_told, Maf.Cli.observer_told_exact, Maf.Cli.change_told_to_all, Maf.Cli.dropped_before_told, Maf.Cli.greeted_iff, Maf.Cli.told_twice, Maf.Cli.stale_greeting, Maf.Cli.lookup_blocks, Maf.Cli.throwing_observer | Refuted in general: an answer already taken is delivered after the loss (callback_after_loss), and a request stored between the change of the status and the clearing or after it survives (request_survives_loss). Observers: every change is told to every registered observer exactly once and in order, never a non-change, for all schedules; an observer that registers while a change is worked off is told it twice (told_twice), or hears of the loss before its greeting (stale_greeting); an observer that looks up a requester blocks the client (lookup_blocks), one that throws ends the program (throwing_observer).
C43 | proved | Maf.Cli.one_requester, Maf.Cli.same_requester, Maf.Cli.different_requesters, Maf.Cli.dispatched, Maf.Cli.has_requester, Maf.Srv.one_provider, Maf.Srv.same_provider, Maf.Srv.different_providers, Maf.Srv.provider_dispatched, Maf.Srv.has_provider | Both halves, all schedules. Until the server or client is shut down, which forgets all of them.
C45 | partial | Maf.Req.sync_exchange, Maf.Req.sync_request_partial, Maf.Req.sync_final_partial, Maf.Req.sync_get_partial, Maf.Req.waiting_goes_on, Maf.Req.partial_update_returned | Refuted: a partial update is returned as the final response (partial_update_returned). Proved for responses without partial updates, for all orders of response, timeout and loss.
C36 | partial | Maf.Prov.reply_addressed, Maf.Prov.completes_own_partial, Maf.Prov.respond_completes_partial, Maf.Prov.wrong_completed | Replies are addressed to the client that asked, for all histories. A reply completes its own request if no two requests have the same operation and id; refuted otherwise (wrong_completed: ids of two clients collide).
C37 | partial | Maf.Prov.final_once_partial, Maf.Prov.refused_after, Maf.Prov.after_final_partial, Maf.Prov.completes_invalidates, Maf.Prov.crash_needs_overlap, Maf.Prov.no_crash_partial, Maf.Prov.racing_replies_crash, Maf.Prov.abort_reply_crash, Maf.Prov.update_after_final | Refuted in general: two racing replies, or a reply racing an abort, dereference a null pointer; a partial reply may follow the final one. Proved for distinct ids and calls that do not overlap.
C38 | partial | Maf.Prov.set_status, Maf.Prov.equal_iff_partial, Maf.Prov.changed_iff_partial, Maf.Prov.change_not_missed, Maf.Prov.get_status, Maf.Prov.status_is, Maf.Prov.same_object_broadcast, Maf.Prov.null_broadcast | All schedules. Refuted for one in-process payload object set twice and for null values, which count as changed; proved for all others.
C39 | partial | Maf.Prov.broadcast_reaches_partial, Maf.Prov.clients_nodup, Maf.Prov.registered_iff, Maf.Prov.registration_by, Maf.Prov.result_inverted, Maf.Prov.result_inverted_busy | Receivers, retries and drops are as stated, for all registration histories and send outcomes. Refuted: the result is inverted.
C63 | partial | Maf.Prov.abort_calls, Maf.Prov.on_aborted, Maf.Prov.abort_not_missed, Maf.Prov.abort_once_partial, Maf.Prov.aborted_again_partial, Maf.Prov.answered_silent_partial, Maf.Prov.aborted_twice, Maf.Prov.called_though_answered, Maf.Prov.callback_blocks | Never missed, for all interleavings. Once, as long as the provider is not ended; in general it is called again only after the end of the provider has called it (aborted_again_partial; aborted_twice: it does happen). After a reply has completed the request, only onAborted itself calls it (answered_silent_partial; it does: called_though_answered). Callback called with the request's lock.
C64 | proved | Maf.Prov.request_handled, Maf.Prov.handler_once, Maf.Prov.register_handler, Maf.Prov.handler_is | All interleavings.
C65 | proved | Maf.Prov.register_gets_status, Maf.Prov.get_answered, Maf.Prov.no_lost_update | All interleavings.
C66 | proved | Maf.Prov.listeners_are, Maf.Prov.listeners_called, Maf.Prov.listener_by, Maf.Prov.listeners_serial, Maf.Prov.listener_blocks | All interleavings. listener_blocks: a listener that broadcasts or registers a listener deadlocks.
C67 | partial | Maf.Prov.client_current_partial, Maf.Prov.crossed_values, Maf.Prov.crossed_registration | Proved when calls that set the property or register the client do not overlap; refuted otherwise.
C68 | partial | Maf.Cli.status_agrees_partial, Maf.Cli.status_of_client, Maf.Cli.status_of_requester, Maf.Cli.overlap_disagrees, Maf.Cli.end_disagrees | Proved when the news come one after the other (requesters may be asked for at any time). Refuted in general: news of a service and the loss of the server come on different threads, and a requester may believe for ever that a lost service is available (overlap_disagrees); so may one that is asked for during deinit (end_disagrees).
C69 | proved | Maf.Cli.available_registered, Maf.Cli.registers_again | All schedules of monitoring calls.
C70 | partial | Maf.Srv.learns, Maf.Srv.status_known_partial, Maf.Srv.crossed_changes, Maf.Srv.deinit_silent, Maf.Srv.deinit_untold, Maf.Srv.busy_untold | The first half is proved for all schedules (learns). The second is proved if the changes of the provider do not overlap and there is no deinit (status_known_partial), everything else interleaved arbitrarily; in general it is refuted: overlapping startServing and stopServing are told in the wrong order (crossed_changes), deinit tells nobody that services stop (deinit_silent, deinit_untold), a busy client is not told again (busy_untold).
C71 | proved | Maf.Srv.change_told, Maf.Srv.told_in_turn, Maf.Srv.told_registered, Maf.Srv.unregistered_not_told, Maf.Srv.lost_not_told, Maf.Srv.unregister_one_told | All schedules and send outcomes. Unless the provider is no longer the server's. Unregistering for one service has no effect on this (unregister_one_told).
C72 | proved | Maf.Srv.end_complete, Maf.Srv.unregistered_everywhere, Maf.Srv.availability_is, Maf.Srv.serving_sets | all schedules; deliver's result (the provider's own) is the environment's
C73 | proved | Maf.Await.wait_right, Maf.Await.returns_once, Maf.Await.asked_right, Maf.Await.wakes, Maf.Await.timed_returns | all schedules. Condition variable by its specification; a status that comes and goes before the waiter looks is not noticed (as designed)
C74 | partial | Maf.SyncT.not_early, Maf.SyncT.again_if_cyclic, Maf.SyncT.one_shot, Maf.SyncT.start_returns, Maf.SyncT.fires, Maf.SyncT.stop_silences_partial, Maf.SyncT.stop_waits, Maf.SyncT.stop_ends_partial, Maf.SyncT.callback_kept_partial, Maf.SyncT.restart_ignored, Maf.SyncT.both_run, Maf.SyncT.empty_called, Maf.SyncT.nested_unstoppable | Times, at most once, return and exclusion of stop and callback proved for all schedules. A stop is not missed if threads use the timer one after the other. Refuted: restart has no effect (restart_ignored), starting a running timer may leave both runs active (both_run), a one-shot timer made cyclic from its callback gives an empty function to the executor (empty_called; proved if the mode does not change), a start from within a callback cannot be stopped from outside (nested_unstoppable).
C75 | partial | Maf.Listen.delivered_once, Maf.Listen.in_order, Maf.Listen.leaks_only_full, Maf.Listen.closed_only, Maf.Listen.arrives_partial, Maf.Listen.goes_on, Maf.Listen.sent_to_stopped, Maf.Listen.message_leaked | At most once, unchanged, order and progress proved for all schedules; arrival within 300 steps of the listening thread unless the connection finds no slot or the receiver is stopped (arrives_partial). Refuted: with 30 idle connections the next message is lost although its sender is told success (message_leaked); messages to a stopped receiver are accepted and lost (sent_to_stopped).
C76 | partial | Maf.Listen.stop_ends_partial, Maf.Listen.stop_waits_for, Maf.Listen.stop_silences, Maf.Listen.ends_only, Maf.Listen.goes_on, Maf.Listen.stop_lost, Maf.Listen.stop_blocks | Proved if the thread was running when stop is called. Refuted: a stop between the creation of the thread and its first look at the state is lost and waits for ever (stop_lost); with six connections waiting to be accepted stop waits for ever (stop_blocks).
C77 | partial | Maf.Ends.init_iff, Maf.Ends.reaches_name, Maf.Ends.reaches_address_partial, Maf.Ends.looks_right, Maf.Ends.never_overflows, Maf.Ends.live_unique, Maf.Ends.client_names_differ, Maf.Ends.client_init_partial, Maf.Ends.wrong_port, Maf.Ends.client_clash, Maf.Ends.no_restart, Maf.Ends.stopped_still_owns | Names (up to a zero byte) count, ports do not: exact characterisations init_iff, reaches_name, looks_right; the property as stated if no name has a zero byte and no name is used with two ports (reaches_address_partial). Refuted: wrong_port, client_clash (name + pid is ambiguous), no_restart / stopped_still_owns (the socket of a stopped server stays open).
C78 | partial | Maf.Fac.got_right, Maf.Fac.got_null, Maf.Fac.init_once, Maf.Fac.started_when, Maf.Fac.same_instance, Maf.Fac.different_instances, Maf.Fac.asked_again_partial, Maf.Fac.close_complete, Maf.Fac.closed_server_not_given, Maf.Fac.not_given_again, Maf.Fac.stopped_given, Maf.Fac.no_server_again | Proved for all histories: address, initialisation, uniqueness, closing. That asking again gives it again holds if the addresses asked for are ordered properly (asked_again_partial: the order of Address is no order, C44). Refuted: not_given_again (a running client is not given again), stopped_given (the client factory gives out stopped clients after close), no_server_again (a closed local server can not be made again in the same process).
C79 | partial | Maf.Async.launch_one, Maf.Async.ignored_why, Maf.Async.only_alive, Maf.Async.ends_once, Maf.Async.returned_ended, Maf.Async.returned_silent, Maf.Async.stop_stops, Maf.Async.running_iff, Maf.Async.joined_ended, Maf.Async.is_processor, Maf.Async.stopped_quiet, Maf.Async.wait_progress_partial, Maf.Async.idle_ends, Maf.Async.self_wait, Maf.Async.stop_in_function, Maf.Async.launch_again_idle, Maf.Async.launch_ignored, Maf.Async.stop_lost | Threads, ends, stop and running proved for all schedules; progress of the wait as far as no lock is missing (wait_progress_partial, idle_ends). Refuted: stopAndWait called by a function of the processor never returns (stop_in_function, self_wait); after stopAndWait a launch without reuse executes nothing (launch_again_idle); after the thread has ended by another's stop, running is true and launch is ignored (launch_ignored); a reuse by another thread before the new thread runs makes the wait go on (stop_lost).
C80 | partial | Maf.Hdl.to_right_client, Maf.Hdl.update_to_right_client, Maf.Hdl.one_client, Maf.Hdl.numbered, Maf.Hdl.handled_in_order, Maf.Hdl.success_sent, Maf.Hdl.unique_handle, Maf.Hdl.no_failure, Maf.Hdl.no_ub_partial, Maf.Hdl.once_partial, Maf.Hdl.update_open_partial, Maf.Hdl.every_partial, Maf.Hdl.respond_answers_partial, Maf.Hdl.destroy_answers_partial, Maf.Hdl.invalid_over_partial, Maf.Hdl.overwritten_unanswered, Maf.Hdl.refused_unanswered, Maf.Hdl.collision, Maf.Hdl.moved_from_crash | Proved for all programs: order, at most one call, right client, meaning of success. Proved if no two open requests share operation and id: at most one answer, answered when no handle is left and none was overwritten, what destruction and respond do. Refuted: overwritten_unanswered (move assignment onto a handle drops its request), refused_unanswered (executor refuses the task), collision (two clients with the same id), moved_from_crash. Calls one at a time; overlapping replies are C37.
C81 | partial | Maf.Typed.response_arrives, Maf.Typed.sync_response, Maf.Typed.notification_arrives, Maf.Typed.input_arrives, Maf.Typed.response_of_any, Maf.Typed.damaged_refused_partial, Maf.Typed.local_response, Maf.Typed.bare_differs, Maf.Typed.corrupt_delivered, Maf.Typed.error_input_crash | Proved end to end (translation, message, frame, socket and back) for every supported type, value and splitting of the body. Refuted: corrupt_delivered (only DestSrcMismatch is refused, SourceCorrupted values reach the user), error_input_crash (a request whose content is an error), bare_differs (answers without data look different over ipc and itc).
C82 | partial | Maf.Shared.got_current_partial, Maf.Shared.cloned_current_partial, Maf.Shared.cloned_new, Maf.Shared.sent_iff_partial, Maf.Shared.ipc_calls, Maf.Shared.itc_calls_partial, Maf.Shared.all_called, Maf.Shared.changed_unseen, Maf.Shared.stale_call, Maf.Shared.client_changes | Proved if nobody changes an object that was given to setStatus; what clients over ipc are called with is proved without this. Refuted: changed_unseen (an object changed and set again is not sent), stale_call and client_changes (same process: the callback gets the service's object itself).
C83 | partial | Maf.Clo.never_empty, Maf.Clo.right_function, Maf.Clo.everyone_partial, Maf.Clo.only_these, Maf.Clo.comes_in, Maf.Clo.ended, Maf.Clo.in_order, Maf.Clo.all_called, Maf.Clo.called_after_unregister, Maf.Clo.refused_lost | Proved while the executor takes tasks. Refuted: called_after_unregister (a task that was submitted before is executed after unregister has returned), refused_lost (what the executor refuses is dropped, nobody is told).
C84 | partial | Maf.Reent.exclusive, Maf.Reent.no_deadlock_partial, Maf.Reent.progress_partial, Maf.Reent.called_without_mutex_partial, Maf.Reent.released, Maf.Reent.observer_registers, Maf.Reent.observer_creates, Maf.Reent.listener_broadcasts, Maf.Reent.drop_answers, Maf.Reent.late_abort_asks, Maf.Reent.end_answers, Maf.Reent.crossing | Proved for programs that call anything from threads, request, status and signal callbacks, handlers and abort callbacks, and a stated set of functions from the places the library calls with a mutex held (observers, listeners, destructors, abort callbacks at the end). Refuted beyond: observer_registers, observer_creates, listener_broadcasts, drop_answers, late_abort_asks, end_answers, crossing.
C85 | partial | Maf.Log.once, Maf.Log.only_calls, Maf.Log.to_function, Maf.Log.logged_allowed, Maf.Log.allowed_logged, Maf.Log.returns, Maf.Log.levels_change, Maf.Log.enable_partial, Maf.Log.enable_allows_nothing, Maf.Log.enable_forbids, Maf.Log.init_functions, Maf.Log.init_loses_err, Maf.Log.functions_stay, Maf.Log.after_stop, Maf.Log.none_after_stop, Maf.Log.compiled_partial, Maf.Log.debug_compiled, Maf.Log.verbose_compiled, Maf.Log.verbose_compiles, Maf.Log.silence_compiles, Maf.Log.file_name | Proved except: enable never allows anything and forbids all others (enable_allows_nothing, enable_forbids, for every state); after_stop (a call that has passed its check writes after stopLogging has returned); init_loses_err; debug_compiled, verbose_compiled, verbose_compiles, silence_compiles (the macros' minimum does not follow the levels).
C86 | partial | Maf.E2E.right_answer, Maf.E2E.silent_after, Maf.E2E.arrive_in_order, Maf.E2E.handled_once, Maf.E2E.respond_defined, Maf.E2E.success_answers, Maf.E2E.first_succeeds_partial, Maf.E2E.value_arrives_partial, Maf.E2E.none_lost_partial, Maf.E2E.abort_told_partial, Maf.E2E.respond_once_partial, Maf.E2E.one_client, Maf.E2E.swallowed, Maf.E2E.foreign_abort | The first six hold for every history. The others hold if no two clients have requests of the same operation with the same id at the same time (Apart), in particular with one client (one_client); beyond they are refuted: swallowed (a client never gets its answer), foreign_abort (one client's abort ends another's request).
C87 | partial | Maf.News.told_why, Maf.News.told_in_order, Maf.News.numbered, Maf.News.status_last, Maf.News.status_there, Maf.News.none_missed, Maf.News.registered_iff, Maf.News.get_current, Maf.News.up_to_date_partial, Maf.News.get_answered, Maf.News.answered_once, Maf.News.get_fresh, Maf.News.asked_when, Maf.News.cached_made, Maf.News.late_second, Maf.News.skipped, Maf.News.get_nothing | All hold for every history except that each callback was last called with the current value: this holds if no callback is registered while its client delivers a value of the same operation (up_to_date_partial) and is refuted otherwise (late_second). Also shown: a callback may miss a value between two it is told, after a re-registration (skipped); getStatus right after registering gives nothing (get_nothing).
C88 | partial | Maf.Wait.runs_once, Maf.Wait.quiet_after_get, Maf.Wait.get_true, Maf.Wait.value_true_partial, Maf.Wait.ends_once, Maf.Wait.refused_iff, Maf.Wait.inline_at_once, Maf.Wait.waits_for, Maf.Wait.ready_goes, Maf.Wait.no_deadlock, Maf.Wait.stop_releases_partial, Maf.Wait.stuck_forever, Maf.Wait.value_made_up, Maf.Wait.cross_deadlock, Maf.Wait.nested_deadlock | Refuted: stop during a call leaves the caller waiting for ever (stuck_forever; stop_releases_partial holds if no call is half-way when the queue is closed); the variant that returns a value returns an initial value if the function threw or is never run (value_made_up; value_true_partial). no_deadlock has the ranking as its hypothesis; without it cross_deadlock and nested_deadlock.
C89 | partial | Maf.Up.get_result, Maf.Up.wait_result, Maf.Up.valid_chain, Maf.Up.invalid_use, Maf.Up.consumed, Maf.Up.called_once, Maf.Up.lazy, Maf.Up.poll_result_partial, Maf.Up.not_PollsReady | All but polling proved. Refuted (not_PollsReady): waitFor/waitUntil on a chain answer deferred until somebody calls wait; poll_result_partial says exactly when they report ready.
C90 | proved | Maf.Atom.exclusive, Maf.Atom.read_latest, Maf.Atom.uninterrupted, Maf.Atom.no_lost_update, Maf.Atom.open_iff, Maf.Atom.no_deadlock | Sessions stay on the thread that made them; assigning to a session is undefined behaviour in the code (no return) and not modelled, nor is access that bypasses the session (lockee(), Lockable::operator->). no_deadlock has the order of the mutexes as its hypothesis (crosswise nesting and a second session on a plain mutex in one expression block, shown by examples).
C91 | partial | Maf.Exe.false_never_partial, Maf.Exe.ran_once_there, Maf.Exe.direct_says, Maf.Exe.served, Maf.Exe.runs_next, Maf.Exe.lost_forever, Maf.Exe.waits_for_it, Maf.Exe.left_because, Maf.Exe.terminates_when, Maf.Exe.will_once, Maf.Exe.true_though_never, Maf.Exe.direct_false_though_run, Maf.Exe.wait_true_though_dropped, Maf.Exe.will_twice_breaks_loop, Maf.Exe.will_blocking_throws, Maf.Exe.default_inline_terminates | Refuted: the asynchronous and the default executor return true on a stopped processor though the function will never be run (true_though_never, for every continuation); the direct executor returns false though it ran the function, when that threw; the blocking executor returns true though the function was dropped by stop; a will-function called twice hands over an empty function whose bad_function_call leaves the loop; the default executor on its own thread with a throwing function ends the process (noexcept). Proved: everything else in the statement.
C92 | proved | Maf.SBuf.empty_is_file, Maf.SBuf.filled_is_file, Maf.SBuf.written_is_read, Maf.SBuf.append_overwrites | Refinement of the specification File for all runs. The class relies on internals of MSVC's standard library, its move and swap do not compile when used (swap calls itself with two arguments), and nothing else in maf includes it; those are left out. append_overwrites: a mode with app does not make every write an append, though the comment on Append_ says so; the specification says what the code does.
C93 | partial | Maf.SBuf.writes_succeed_partial, Maf.SBuf.text_is_written, Maf.SBuf.putc_gives_one, Maf.SBuf.flush_fails | Refuted: sputc returns 1, the number of characters, instead of the character (putc_gives_one), and overflow(eof) reports failure (flush_fails). Proved: the text, sputn, and that sputc does not report failure.
C94 | partial | Maf.Pipe.at_most_once_partial, Maf.Pipe.delivered_is_sent, Maf.Pipe.failure_not_delivered, Maf.Pipe.one_result, Maf.Pipe.read_after_success, Maf.Pipe.lost_though_success, Maf.Pipe.slow_client_corrupts, Maf.Pipe.empty_twice, Maf.Pipe.huge_is_cut | Refuted: a read that is pending is taken for one of 0 bytes, so a message is dropped although send returns Success (lost_though_success), and the header then arrives in a variable of a function that has returned (slow_client_corrupts); an empty buffer may be delivered twice (empty_twice); the length is cut to 32 bits (huge_is_cut). Proved for all runs: whatever is delivered is what that call sent (below 4 GiB), nothing after a failed send, non-empty buffers at most once, delivery if the receiver looks after the client has finished.
C95 | partial | Maf.Pipe.gives_up_partial, Maf.Pipe.never_gives_up, Maf.Pipe.retries_for_ever, Maf.Pipe.fill_rounds, Maf.Pipe.stuck_by_others, Maf.Pipe.stuck_for_ever, Maf.Pipe.five_bytes, Maf.Pipe.init_fails_only, Maf.Pipe.init_fails, Maf.Pipe.raced_after_stop, Maf.Pipe.stop_races, Maf.Pipe.busy_is_unavailable | Refuted: ++retryTimes is an argument of a log macro, so without warnings being logged (the default) nothing is counted (never_gives_up); failed writes are not counted at all (retries_for_ever); a foreign message of five bytes leaves the receiver in fillbuffer for ever (five_bytes); init fails if a client connects between CreateNamedPipe and ConnectNamedPipe (init_fails); stop races with the listening thread, start after stop uses an empty vector (stop_races); ten connected clients make it unavailable (busy_is_unavailable). Proved: the bound with logging, that clients of this library do not cause the endless loop, that initialisation fails only if somebody is sending, that races need stop.
C96 | partial | Maf.Conn.reconnect_partial, Maf.Conn.no_leak_partial, Maf.Conn.one_owner, Maf.Conn.no_misuse, Maf.Conn.moves_change_nothing, Maf.Conn.moved, Maf.Conn.added, Maf.Conn.connect_adds, Maf.Conn.disconnect_exact, Maf.Conn.group_exact, Maf.Conn.disconnectMsg_exact, Maf.Conn.endProc_exact, Maf.Conn.called_once, Maf.Conn.connected_truth, Maf.Conn.dead_for_good, Maf.Conn.reconnect_lost, Maf.Conn.assign_leaks | Refuted: disconnect(msgid) for any message also destroys the signals that have no handler at that moment, so a disconnected handle of another message cannot be reconnected (reconnect_lost); assigning to a handle leaks what it referred to and leaves it connected, and a handle moved onto itself loses its connection (assign_leaks). All else is proved for every run, reconnect_partial as long as the processor's disconnect(msgid) is not called in between, no_leak_partial without assignment onto a handle in use.
C97 | partial | Maf.Watch.called_exactly_partial, Maf.Watch.changes_told, Maf.Watch.told_all, Maf.Watch.none_between, Maf.Watch.called_at_most, Maf.Watch.called_there, Maf.Watch.greeted_once, Maf.Watch.removed_because, Maf.Watch.terminates_when, Maf.Watch.lost_when_stopped, Maf.Watch.greeting_ends_program, Maf.Watch.removed_for_throwing, Maf.Watch.called_after_unregister, Maf.Watch.default_overtakes, Maf.Watch.throwing_ends_program, Maf.Watch.stale_greeting | Proved: every change is given once, in order, to the executor of everybody in the list; if the processor is not stopped or let go, the callback is called with exactly that (in order for direct and asynchronous executors), by the right thread; what ends a registration or the program. Refuted: lost_when_stopped, greeting_ends_program, removed_for_throwing, called_after_unregister, default_overtakes, throwing_ends_program, stale_greeting.
C98 | partial | Maf.OpId.contract_differ, Maf.OpId.contract_prefix_partial, Maf.OpId.prefix_collides, Maf.OpId.simple_differ_partial, Maf.OpId.simple_collides, Maf.OpId.delivered_right, Maf.OpId.pointer_inverted | Proved: ids of a contract with one prefix determine name and kind; with several prefixes if each ends with a character outside names; simple requests with the same classes, or parts of the same lengths. Refuted: prefix_collides, simple_collides (undefined behaviour), pointer_inverted.
C99 | partial | Maf.Dump.text_determines_partial, Maf.Dump.compact_one_line, Maf.Dump.brackets_nested, Maf.Dump.lines_indented, Maf.Dump.levels_agree, Maf.Dump.strings_collide, Maf.Dump.empty_collides, Maf.Dump.null_collides, Maf.Dump.variant_collides, Maf.Dump.bits_collide, Maf.Dump.enums_collide, Maf.Dump.byte_no_number, Maf.Dump.never_json | Proved: injective at every level for all types, on values whose strings are not empty and have no delimiters and whose pointers are not null; one line, indentation and nesting. Refuted: strings_collide, empty_collides, null_collides, variant_collides, bits_collide, enums_collide, byte_no_number, never_json.
C100 | partial | Maf.Json.loads_all_partial, Maf.Json.each_member, Maf.Json.member_set, Maf.Json.nothing_loaded, Maf.Json.bad_text_silent, Maf.Json.nested_replaced, Maf.Json.elements_made_up, Maf.Json.element_made_up, Maf.Json.big_undefined, Maf.Json.small_wraps | Proved: loading the JSON of a value gives it (integers in the range of their type and of int up to 32 bits); per member: kept or replaced. Refuted below the first level and for wrong elements and large numbers: nested_replaced (indeterminate members), elements_made_up, big_undefined, small_wraps.
C101 | partial | Maf.Obj.made, Maf.Obj.set_get, Maf.Obj.eq_iff_partial, Maf.Obj.lt_orders, Maf.Obj.first_decides, Maf.Obj.sent_arrives_partial, Maf.Obj.default_indeterminate, Maf.Obj.base_ignored | Proved without base classes. Refuted: base_ignored (members of a base class count neither for ==, < nor for sending), default_indeterminate (declared without arguments).
C102 | partial | Maf.Wire.print_name, Maf.Wire.print_iff, Maf.Wire.print_inj, Maf.Wire.library_enums, Maf.Wire.server_ub, Maf.Wire.server_does_partial, Maf.Wire.server_bytes, Maf.Wire.server_silent, Maf.Wire.client_ub, Maf.Wire.client_hears_partial, Maf.Wire.client_handled, Maf.Wire.client_bytes, Maf.Wire.client_silent, Maf.Wire.peer_safe, Maf.Wire.incoming_payload, Maf.Wire.input_ub, Maf.Wire.stranger_crashes | Proved: exactly which effects and when undefined behaviour; none without logging, none for declared codes. Refuted otherwise: stranger_crashes (a code that is not declared is printed from behind the array of names when warnings, information or errors are logged); input_ub (input of a request that came with an error).
C103 | partial | Maf.Chain.applies_in_order_partial, Maf.Chain.fluent_applies, Maf.Chain.reuse_breaks, Maf.Chain.connected_inverted | Proved for programs that do nothing more with an object once something was added to it. Refuted otherwise: reuse_breaks (the object is emptied; a second addition gives a chain that throws), connected_inverted.
C104 | proved | Maf.Agg.view_is_all_members, Maf.Agg.view_of_std_array, Maf.Agg.view_never_drops_a_member, Maf.Agg.too_many_members, Maf.Agg.array_member_does_not_compile | "Does not compile" is an outcome of the model.
C105 | partial | Maf.Agg.compare_is_memberwise_partial, Maf.Agg.equal_iff_same_value_partial, Maf.Agg.order_laws_partial, Maf.Agg.array_members_compared_by_address | Proved for aggregates without C arrays (at most 100 members at each level). Refuted for a C array of one element, which compiles and is compared by address.
C106 | partial | Maf.Strm.stream_reads_its_bytes, Maf.Strm.refuses_for_good, Maf.Strm.cleared_good, Maf.Strm.view_reads_its_bytes_partial, Maf.Strm.made_like_source, Maf.Strm.view_of_changed_stream | Proved for streams and copies in full, for views while the stream they were made from is only read. Refuted for views otherwise: view_of_changed_stream (undefined behaviour after its destruction).
C107 | proved | Maf.Strm.every_recipient_decodes_alone, Maf.Strm.recipient_finishes | Decoders are trees of reads; the shared stream is reachable only through views (stream() itself, which would allow changing it, is not used by the library).
C108 | partial | Maf.Err.errors_are_values_partial, Maf.Err.copies_are_not_values, Maf.Err.copy_outlives_its_data | Proved (refinement of a value semantics) for programs that use clone. Refuted for the compiler-generated copy operations, which share the data: changes show through, the data is deleted twice.
C109 | partial | Maf.Life.used_while_alive_partial, Maf.Life.safe_iff, Maf.Life.shutdown_deletes_all_partial, Maf.Life.flag_not_initialised, Maf.Life.twice_is_undefined, Maf.Life.refused_is_leaked | Proved for all schedules when every flag was set and no object to be deleted is submitted twice. Refuted otherwise: the flag has no initial value; a task refused or overtaken by shutdown is never deleted.
C110 | partial | Maf.Mon.in_order, Maf.Mon.intervals, Maf.Mon.interval_range, Maf.Mon.all_handled_partial, Maf.Mon.look_comes_partial, Maf.Mon.one_client_looks_partial, Maf.Mon.stop_freezes, Maf.Mon.stop_unheard, Maf.Mon.look_after_destruction, Maf.Mon.message_after_destruction, Maf.Mon.two_clients_lose | Order and intervals are proved for every run. That all is handled and looks go on is proved while no client is stopped or destroyed (looks: with one client, or as long as no look overruns another's time). Refuted otherwise: stop of a client by another thread leaves the IPC thread in an endless loop that handles nothing any more; a destroyed client is used by its queued messages and its timer; with two clients one can lose its timer for good.
C111 | partial | Maf.Tcb.called_last_given, Maf.Tcb.never_empty, Maf.Tcb.dropped_once, Maf.Tcb.dropped_silent, Maf.Tcb.kept_alive, Maf.Tcb.all_dropped, Maf.Tcb.destroyed_silent, Maf.Tcb.dropped_running, Maf.Tcb.kept_running_partial, Maf.Tcb.rearm_drops, Maf.Tcb.whole_log | All parts are proved for every run, except that the function is not destroyed while it is executed: that is proved as long as the timer is not started again meanwhile. Refuted otherwise: start from the timer's own callback replaces, and so destroys, the function object that is being executed (rearm_drops).
C112 | partial | Maf.failed_keeps_partial, Maf.failed_pointer_null, Maf.failed_stays, Maf.read_good_or_failed, Maf.number_kept, Maf.variant_kept, Maf.smart_kept | Proved for all types of which no pointer is a part (also containers of pointers). Refuted for pointers: from a failed stream every pointer is decoded as null, deserialize returns true, and the old pointer is lost (failed_pointer_null).
C113 | partial | Maf.Net.tracked_alive_partial, Maf.Net.signal_rules, Maf.Net.one_kind, Maf.Net.called_runs, Maf.Net.runs_called, Maf.Net.tracked_kept, Maf.Net.queued_at_most_once, Maf.Net.dead_object_undefined, Maf.Net.queued_after_death, Maf.Net.queued_after_disconnect | Proved: when and where functions run, that objects outlive the calls, that executors get each call once. Refuted: the first emission after the object's death is undefined behaviour (the slot disconnects itself while the emission walks over the list, dead_object_undefined); with an executor, functions run after their object is gone (queued_after_death) and after disconnect (queued_after_disconnect).
C114 | partial | Maf.Net.forwarded_emits_partial, Maf.Net.no_deadlock_partial, Maf.Net.emissions_end_partial, Maf.Net.forward_only, Maf.Net.skipped_empty, Maf.Net.dead_target_undefined, Maf.Net.cycle_undefined, Maf.Net.crossed_forever, Maf.Net.crossing_deadlock | Proved: forwarding is exact; without circles of signals and with functions that do not use signals, any number of threads emit without deadlock and come to an end after boundedly many steps under every schedule. Refuted: the first emission after the target's destruction is undefined behaviour (dead_target_undefined); two signals connected to each other: undefined behaviour with one thread (cycle_undefined), deadlock with two (crossing_deadlock).
C115 | partial | Maf.One.reconnect_partial, Maf.One.rules, Maf.One.emission_exact, Maf.One.connect_truthful, Maf.One.connected_truthful, Maf.One.disconnect_truthful, Maf.One.disconnected_not_called, Maf.One.scope_end_disconnects, Maf.One.called_exists, Maf.One.failed_reconnect_loses, Maf.One.self_destroyed | Proved: one connection at a time, exact emissions, truthful connect, connected, disconnect, reconnect. Refuted: a failed reconnect loses the function for ever (failed_reconnect_loses); a function that clears or destroys its signal, or ends its scoped connection, is destroyed while it is called (self_destroyed).
C116 | partial | Maf.Fut.wait_true_partial, Maf.Fut.rules, Maf.Fut.first_emission, Maf.Fut.no_emission_missed, Maf.Fut.wait_false, Maf.Fut.valid_truthful, Maf.Fut.wait_returns, Maf.Fut.firing_undefined, Maf.Fut.invocation_lost, Maf.Fut.cancelled_wait_forever, Maf.Fut.wait_in_emission_forever | Proved: which emission is received, exact results, that wait can return once the slot has fired or been dropped. Refuted: the slot destroys itself while it runs whenever it fires and nobody happens to hold it (firing_undefined); an emission during waitableConnect is lost (invocation_lost); after cancel() wait() never returns (cancelled_wait_forever); waiting during one's own emission blocks for ever (wait_in_emission_forever).
C117 | partial | Maf.Bcast.get_all_handled_partial, Maf.Bcast.rules, Maf.Bcast.all_asked, Maf.Bcast.set_unchanged, Maf.Bcast.tasks_settled, Maf.Bcast.handled_at_most_once, Maf.Bcast.get_first_failure, Maf.Bcast.asks, Maf.Bcast.get_returns, Maf.Bcast.get_leaves_running, Maf.Bcast.router_in_handler_forever, Maf.Bcast.cross_wait_forever | Proved: who is asked and when, at-most-once handling, what a returning or throwing get means, that get returns once its tasks are over. Refuted: get throws while other handlers still run (get_leaves_running); a handler that is called inline and uses the router blocks for ever, with everybody else who uses the router (router_in_handler_forever); two processors waiting in their own threads for each other wait for ever (cross_wait_forever).
C118 | partial | Maf.Fd.own_only_partial, Maf.Fd.closed_once_partial, Maf.Fd.open_iff_held_partial, Maf.Fd.none_left_open_partial, Maf.Fd.moves, Maf.Fd.resets, Maf.Fd.foreign_closed, Maf.Fd.given_is_closed, Maf.Fd.construct_harmless_iff | Proved for all histories without move construction, or in which the new object's memory holds no descriptor number. Refuted: the move constructor closes whatever number is in the uninitialised member (foreign_closed, given_is_closed; exactly then: construct_harmless_iff). connectToSocket returns its handle by value: whether that moves is up to the compiler.
C119 | partial | Maf.Req.request_result, Maf.Req.valid_pending, Maf.Req.invalid_never, Maf.Req.get_result_partial, Maf.Req.get_unsent_success | sendRequestAsync is as stated, for all schedules. Refuted for getStatus: it ignores what became of its message, so it returns Success though nothing was sent and the callback is never called, however the run goes on (get_unsent_success).
C120 | partial | Maf.Drop.events_ok, Maf.Drop.none_leaked, Maf.Drop.queued_is_whole, Maf.Drop.kept_while_waiting, Maf.Drop.kept_while_idle, Maf.Drop.drop_deadlock, Maf.Drop.stop_deadlock, Maf.Drop.stuck_forever, Maf.Drop.stuck_in_destructor, Maf.Drop.progress_partial, Maf.Drop.lock_released_partial, Maf.Drop.polite_not_stuck_partial | Life of a function as stated, for all schedules. Refuted for destructors: the queue's wait destroys the function executed before with the mutex locked, and clear the queued ones; a destructor there that calls executeAsync (or pendingCout, or a run loop) waits for ever for its own mutex (drop_deadlock, stop_deadlock), and with it the processor and everybody who uses it (stuck_forever). Without such calls everybody gets on (progress_partial, lock_released_partial). An idle processor keeps the last function alive (kept_while_idle).
C121 | partial | Maf.Xtm.alone_partial, Maf.Xtm.stopped_silent_partial, Maf.Xtm.not_early_partial, Maf.Xtm.spins, Maf.Xtm.stopped_elsewhere_spins, Maf.Xtm.destroyed_fires, Maf.Xtm.restart_elsewhere, Maf.Xtm.start_elsewhere_late | Proved for calls made on the timer's own thread: each thread then behaves as if it were alone, so C29-C32 and C62 carry over (alone_partial). Refuted otherwise: a Timer stopped or destroyed on another thread while it runs stays in its thread's records and makes that thread spin for ever, running no job and no timer (spins, stopped_elsewhere_spins); one destroyed before the job of start(..., processor) has run fires afterwards (destroyed_fires); restart elsewhere is undefined behaviour; start elsewhere with a shorter time is late (start_elsewhere_late). Data races on the timer's data are not modelled: calls are atomic.
C122 | partial | Maf.Tl.events_ok, Maf.Tl.instance_partial, Maf.Tl.out_of_loops, Maf.Tl.stale_forever, Maf.Tl.init_failed_stale, Maf.Tl.dropped_without, Maf.Tl.dropped_late, Maf.Tl.run_drops_before, Maf.Tl.all_dropped, Maf.Tl.throw_ends | Proved for all nestings and exceptions of functions: the order of threadInit, functions and threadDeinit (events_ok), and as long as no threadInit has thrown, instance() is the outermost open loop's processor and null outside (instance_partial, out_of_loops). Refuted: run sets the pointer before threadInit and builds the guard after it, so a threadInit that throws leaves the pointer set for ever: every later loop on that thread runs its functions under the wrong processor (init_failed_stale, stale_forever); in runUntil and runOnceUntil the last function is destroyed after the pointer has been cleared, so what it owns is destroyed with instance() null (dropped_without); run destroys it before (run_drops_before). An exception out of threadDeinit or a destructor ends the program.
C123 | partial | Maf.Enm.plain_written_partial, Maf.Enm.plain_compiles, Maf.Enm.right_iff, Maf.Enm.last_right, Maf.Enm.initialiser_written, Maf.Enm.accepted_swapped, Maf.Enm.accepted_out_of_bounds | Proved for all declarations without initialisers, which compile if and only if they have 1 to 125 enumerators and the underlying type can count them. Refuted with initialisers: the check looks at the value after the last enumerator only (last_right), so custom values compile whose enumerators are written as others (accepted_swapped) or read outside of the array (accepted_out_of_bounds); an enumerator is written correctly if and only if its value is its position (right_iff), and then with its initialiser (initialiser_written).
C124 | partial | Maf.Stm.expiry_calls, Maf.Stm.expiry_emits, Maf.Stm.emission_is_expiry, Maf.Stm.call_has_expiry, Maf.Stm.not_early, Maf.Stm.stopped_rest, Maf.Stm.stopped_silent_partial, Maf.Stm.destroyed_silent, Maf.Stm.parts, Maf.Stm.misuse, Maf.Stm.stop_in_slot, Maf.Stm.destroy_in_slot, Maf.Stm.loop_in_slot | Calls exactly at expiries, order, time and silence after destruction proved for all histories. Silence after stop proved unless stop is called by a slot of the same emission; refuted then: the slots left are still called (stop_in_slot). Refuted: a slot that destroys its SignalTimer, or runs the processor's loop until the timer expires again, leads to undefined behaviour (destroy_in_slot, loop_in_slot). misuse: there are no other ways to undefined behaviour but those of the timers themselves.
C125 | partial | Maf.Sso.parts, Maf.Sso.posted_at_once, Maf.Sso.told_all, Maf.Sso.told_in_walk, Maf.Sso.queued_once_in_order, Maf.Sso.dispatched_in_order, Maf.Sso.one_dispatcher, Maf.Sso.handled, Maf.Sso.outcome_partial, Maf.Sso.settled_for_good, Maf.Sso.register_waits, Maf.Sso.no_handler_yet, Maf.Sso.lost_by_stop, Maf.Sso.gone_still_listed, Maf.Sso.after_unregister, Maf.Sso.stale_greeting, Maf.Sso.handler_registers, Maf.Sso.accounted, Maf.Sso.change_waits | Proved for all histories: who is told what and when, one post per notification by the same thread, order and uniqueness in the queue and in dispatch, handlers called only by such dispatches, no later making up. Refuted: that every message reaches the handlers: one that finds no handler connected, a stopped or a gone processor is lost for good (no_handler_yet, lost_by_stop, gone_still_listed); handlers are called after unregistering (after_unregister); a greeting may be queued after the change that contradicts it (stale_greeting); a handler that registers or unregisters an observer while a change is told deadlocks (handler_registers).
C126 | partial | Maf.Exn.used_after_exceptions, Maf.Exn.counts_enough, Maf.Exn.none_connected, Maf.Exn.count_wrong, Maf.Exn.exact_until_exception_partial, Maf.Exn.right_again, Maf.Exn.ends_program, Maf.Exn.emission_aborts, Maf.Exn.empty_goes_on, Maf.Exn.one_right, Maf.Exn.one_until_exception_partial, Maf.Exn.one_ends_program | Proved for all histories without asserts: everything except connectionCount and connected, which never say too little. Refuted: an exception leaves notifying_ set, so afterwards slots that are disconnected still count (count_wrong) until an emission that calls slots ends normally (right_again), and with asserts the next emission with slots ends the program (ends_program, emission_aborts). All is right up to and including the first exception (exact_until_exception_partial). Single-connection signals: right in every history without asserts (one_right); with asserts as above (one_until_exception_partial, one_ends_program).
C127 | partial | Maf.OExn.set_throws_partial, Maf.OExn.set_tells_all, Maf.OExn.retry_tells_nobody, Maf.OExn.second_never_told, Maf.OExn.failed_connect_connects, Maf.OExn.connected_though_failed, Maf.OExn.reference_ends_program, Maf.OExn.checked_aborts | Proved, asserts compiled out, for all histories in which observers throw only when values are set: every call gives what it should, and a set of another value that returns normally has told everybody. Refuted otherwise: a connect that throws has connected its function, with no handle left to disconnect it; an observer that throws when a reference is let go ends the program; after an exception setting the value again tells nobody, so observers after the one that threw are never told. With asserts the next notification after an exception ends the program (C126).
C128 | partial | Maf.Tth.can_fire_partial, Maf.Tth.silent_after_function, Maf.Tth.all_timers_lost, Maf.Tth.silent_after_callback, Maf.Tth.other_timers_lost, Maf.Tth.stopped_not_called, Maf.Tth.called_at_most_started | Refuted: if a function throws while the thread's timers wait, TimerMgr stays in state Waiting, and no timer of the thread is called any more, not even one started later, as long as nobody stops one (silent_after_function, all_timers_lost); if a callback throws, the remaining timers are not called until one is started (silent_after_callback, other_timers_lost). Proved: from any point where no timer is running, whatever happened before, as long as exceptions come out only while no timer is running, every running timer will still be called (can_fire_partial); and for every history, with any exceptions: a stopped timer is not called until it is started again, and one that is not cyclic at most as often as it was started.
C129 | partial | Maf.MExn.dispatch_right, Maf.MExn.post_accepts, Maf.MExn.posted_to_nobody, Maf.MExn.right_without_exceptions_partial, Maf.MExn.dispatch_aborts, Maf.MExn.other_types_unaffected | Proved, asserts compiled out, for all histories with any exceptions: dispatching, connecting and disconnecting; post never refuses a message that has a handler. Refuted: after an exception post may accept a message that has none (posted_to_nobody); with asserts the next message of the type ends the program (dispatch_aborts). Without exceptions all is right in both builds (right_without_exceptions_partial), and one exception does not affect messages of the other types in either build (other_types_unaffected).
