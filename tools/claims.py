c("C01", "proved", ["C01_membership"])
c("C02", "proved", ["C02_events", "C02_departure"])
c("C03", "proved", ["C03_broadcast", "C03_broadcast_nil", "C03_fetchSockets", "C03_allSockets"])
c("C06", "proved", ["C06_socketsJoin", "C06_socketsLeave"])
c("C09", "proved", ["C09_replay_rule", "C09_replay_rule_agrees"])
c("C10", "proved", ["C10_replay_exact", "C10_offset_unique", "C10_restores"])
c("C11", "proved", ["C11_not_late", "C11_unknown", "C11_not_early", "C11_cleanup"])
c("C12", "proved", ["C12_stored_iff", "C12_offsets_distinct"])
c("C13", "partial", ["C13_single_use_false", "C13_reused_false", "C13_single_use_partial"],
  "False as stated: RestoreSession does not delete the session, shown by C13_single_use_false; C13_reused_false shows that every restored session can be restored again any number of times within the retention time. Proved: the id is unusable once the retention time has passed.")
c("C04", "partial", ["C04_sender_partial", "C04_sender_false"],
  "False after the socket left the room named after its own id (C04_sender_false). Proved for every chain of operator calls while the socket is in that room.")
c("C05", "proved", ["C05_immutable", "C05_chain", "C05_start", "C05_order", "C05_emit", "C05_emit_ack"])
c("C34", "proved", ["C34_one_emission", "C34_one_emission_ack", "C34_used_up"])
c("C36", "proved", ["C36_reserved", "C36_accepted", "C36_parent"])
c("C57", "partial", ["C57_emit_only_self_partial", "C57_emit_only_self_false", "C57_server_partial", "C57_server_fails", "C57_before_fails"],
  "With recovery, Emit is a broadcast to the room named after the socket id; another socket in that room also receives it, and a socket that is not in it (left it, or is still "
  "with the middlewares, C57_before_fails) receives nothing. C57_server_partial is about every history of a running server; without recovery it has no further hypothesis.")
c("C58", "partial", ["C58_reconnect_in_time_partial", "C58_reconnect_in_time_false"],
  "False for an idle client whose last packet has been pruned.")
c("C29", "partial", ["C29_outcome_partial", "C29_at_most_once_partial", "C29_broadcast_partial", "C29_interleaved_partial", "C29_client_partial", "C29_in_time_partial",
   "C29_concurrent_false", "C29_in_turn", "C29_genuine", "C29_answered", "C29_expired", "C29_single", "C29_returns", "C29_answered_in_the_end", "C29_expired_in_the_end"],
  "For every interleaving of the map operations: a callback is only called with answers to its own number or by its own timer "
  "(C29_genuine), an answer or an expiry after the emission has returned does lead to a call (C29_answered, C29_expired), and one answer "
  "without a timeout to exactly one, with its arguments (C29_single). Proved in full when packets and timers are handled one at a time (exact fate of every callback). "
  "False for the goroutines the code starts: C29_concurrent_false gives three schedules (duplicate answer, "
  "timer/answer race, timer before Store) that call the callback twice. C29_interleaved_partial is the bound that "
  "does hold in every schedule: calls <= answers received with the id + 1 if there is a timeout.")
c("C30", "proved", ["C30_distinct", "C30_owner", "C30_server"],
  "Every interleaving of fewer than 2^64 requests, 64-bit counter; C30_server: in every history of a running server, with the packets sent.")
c("C31", "proved", ["C31_once", "C31_first_wins", "C31_returns"], "Every interleaving of any number of calls; sync.Once by its contract. C31_returns: the calls return and the packet is sent, if no goroutine is forgotten by the scheduler.")
c("C35", "proved", ["C35_drop_reason", "C35_all_written", "C35_returns", "C35_order"],
  "Every interleaving of writers and transport changes. C35_returns: writes come to an end, if no goroutine is forgotten by the scheduler and a write to the transport returns.")
c("C46", "proved", ["C46_whole_packets", "C46_contiguous"], "Every interleaving of writers; mutex by its contract.")
c("C32", "partial", ["C32_complete_partial", "C32_timeout_partial", "C32_interleaved_partial", "C32_fired_partial", "C32_over", "C32_payload_false", "C32_concurrent_false", "C32_in_turn", "C32_one_at_a_time", "C32_in_the_end_partial"],
  "False as stated: the completion test compares the number of values received with the number of clients, so answers of "
  "zero or several values complete too early, twice or never (C32_payload_false), and two answers handled concurrently can "
  "complete twice (C32_concurrent_false). Proved for one value per answer: exact behaviour for every arrival order and timer "
  "instant when events are handled one at a time; in every interleaving every call is complete and completion is never missed.")
c("C33", "partial", ["C33_answer_partial", "C33_answer_false"],
  "False: a single non-array answer (or a vanished socket) panics, other answers time out. Exact behaviour for every payload proved.")
c("C07", "proved", ["C07_disconnectSockets"], "one namespace; listeners of the disconnect events are not run inside the call")
c("C37", "proved", ["C37_options_roundtrip"])
c("C38", "proved", ["C38_exactly_once", "C38_never_more", "C38_can_drain", "C38_clients"], "transport contract: every published message is delivered once to every other server")
c("C39", "proved", ["C38_exactly_once", "C39_join", "C39_leave", "C39_disconnect"])
c("C44", "proved", ["C38_exactly_once", "C44_others_once", "C44_reserved", "C44_answer_once"])
c("C45", "partial", ["C45_complete_partial", "C45_once_partial", "C45_expired", "C45_local_false"], "proved when all servers are known to the caller and every client answers with one value, closures one at a time; false with the Local flag (C45_local_false), and for other payloads as C32")
c("C40", "proved", ["C40_count", "C40_steady", "C40_silent", "C40_never_self", "C40_answers"], "messages and clean-ups handled one at a time, any order of visiting the nodes")
c("C41", "partial", ["C41_waits_partial", "C41_resolves_partial", "C41_timeout_partial", "C41_once_partial", "C41_called_partial", "C41_values", "C41_twice_false", "C41_in_turn", "C41_in_the_end_partial"],
  "Proved in full when responses, departures and timers are handled one at a time. False for concurrent responses "
  "(C41_twice_false: the callback is called twice); in every interleaving it is called at least once (C41_called_partial).")
c("C42", "partial", ["C42_false", "C42_plain_partial", "C42_broadcast_partial"],
  "False for the heartbeat adapter: fetch and server-side-emit responses given to OnMessage are lost (C42_false).")
c("C43", "partial", ["C43_false", "C43_heartbeat_partial"],
  "False for the base cluster adapter, for every reported count (C43_false); holds for the heartbeat adapter.")

TW = "Assumes that no two open sockets share an id (C61_honest_partial: so if clients ask for a namespace only while they have no open socket there and for a session only by a private id that no open socket has). "
c("C08", "proved", ["C08_gone", "C08_next_twice_fails"], "for every socket whose own next functions are called at most once each; C08_next_twice_fails shows that this is needed; steps are atomic (C49 has the race)")
c("C19", "proved", ["C19_lifecycle"], "steps are atomic (C49 has the race)")
c("C20", "partial", ["C20_transport_close_partial", "C20_twins_fail"],
  TW + "Otherwise false: C20_twins_fail, with protocol 3 a socket is left connected.")
c("C22", "proved", ["C22_consistent", "C22_listed", "C22_ok"], "the converse C22_listed assumes that no two open sockets share an id")
c("C27", "partial", ["C27_close_partial", "C27_removed_fail", "C20_twins_fail"],
  TW + "Covers the namespaces the server still lists; false for a dynamic namespace that was removed as empty "
  "while a client was being connected to it (C27_removed_fail).")
c("C28", "proved", ["C28_timeout", "C28_cancelled"], "")
c("C60", "partial", ["C60_partial", "C60_rejected_partial", "C60_double_next_fails", "C60_reject_then_accept"], "false as stated; both counterexamples are proved. Proved for every socket whose own next functions are called at most once each, whatever happens to the others.")

c("C16", "proved", ["C16_gate", "C16_visible", "C16_order", "C16_error_stops"], "only C16_error_stops assumes that no middleware calls next twice for this socket (C60)")
c("C17", "proved", ["C17_rejected", "C17_reported"], "that the socket never connects assumes that no middleware calls next twice for this socket (C60)")
c("C18", "proved", ["C18_dispatch", "C18_no_crossing", "C18_created", "C18_delivered"],
  "C18_delivered (the positive direction) assumes that no two open sockets share an id and that clients do not ask for a namespace twice (C61); "
  "the order of delivery is C47")
c("C21", "partial", ["C21_connect_first_partial", "C21_recovered_fail", "C21_early_emit_fail"],
  "False for recovered sockets (C21_recovered_fail) and when a middleware emits to the socket (C21_early_emit_fail); proved for every other socket for which no middleware calls next twice, whatever happens to other sockets.")
c("C15", "proved", ["C15_recovered", "C15_fresh", "C15_ids", "C15_identity", "C15_origin"], "")
c("C61", "partial", ["C61_one_each_partial", "C61_ids_partial", "C61_honest_partial", "C61_fail", "C61_unnoticed_fail"], "False: a second CONNECT while the middlewares of the first are running gives a second socket (C61_fail). "
  "Proved for clients that do not ask for a namespace while they have an open socket there. With recovery, a client that comes back before the server has noticed the loss of its previous, recovered connection gets a second socket with the same id and is then dropped from the namespace (C61_unnoticed_fail); no two open sockets share an id if clients ask for sessions only by private ids that no open socket has (C61_honest_partial).")
c("C62", "proved", ["C62_end_to_end", "C62_sound", "C62_no_panic"], "atomic steps (C56 has the race)")

c("C14", "proved", ["C14_iff", "C14_explicit", "C14_contents"], "C14_iff is for every socket whose own next functions are called at most once each; C14_contents assumes that no two open sockets share an id and that the "
  "listeners of \"disconnecting\" touch only the rooms of their own socket")
c("C23", "proved", ["C23_isolated", "C23_ids"], "listeners of \"disconnecting\" touch only the rooms of their own socket; "
  "closing a whole connection or the server is not an operation on one namespace")
c("C26", "partial", ["C26_removed", "C26_kept_partial", "C26_pending_fail", "C26_name_fail"],
  "Removal of empty children is proved. Keeping is false while a client is being connected (C26_pending_fail), and the removal by name hits other "
  "namespaces (C26_name_fail); proved when nobody is being connected to a namespace at the moment a socket leaves it. " + TW)
c("C55", "partial", ["C55_keeps_receiving_partial", "C55_twins_fail"], TW + "Otherwise false (C55_twins_fail): two sockets recovered from one session.")

c("C24", "partial", ["C24_partial", "C24_iff_partial", "C24_existing", "C24_late_fail", "C24_silent_fail", "C24_twice_fail"],
  "Proved for matchers that call next exactly once before they return. False otherwise: late answers (C24_late_fail), no answer before "
  "returning (C24_silent_fail), two answers (C24_twice_fail).")
c("C25", "partial", ["C25_names", "C25_result", "C25_stable", "C25_announced", "C25_handler_partial", "C25_handler_fail"],
  "Everything is proved except that the listener is not registered when a regular expression matches a new name (C25_handler_fail).")
c("C63", "partial", ["C63_partial", "C63_registered", "C63_of_fail", "C63_join_fail", "C63_in_turn"], "False: Load and Store are separate. Proved for calls that start after the namespace exists "
  "while nobody else is creating it, and for goroutines that do not overlap (C63_in_turn).")
c("C53", "partial", ["C53_all", "C53_select", "C53_kept", "C53_select_partial", "C53_offsets_fail", "C53_ack_fail"],
  "Emitting without a selection is proved; with a selection it is proved without recovery. With recovery in several children the offsets accumulate "
  "(C53_select says how, C53_offsets_fail that this differs); with an acknowledgement nothing is delivered (C53_ack_fail).")
c("C54", "partial", ["C54_registered", "C54_gate", "C54_error", "C54_one_outcome", "C54_reaches", "C54_refused", "C54_disconnected_partial", "C54_race_fail"],
  "C54_registered and C54_gate need no assumption; C54_error and C54_one_outcome assume that no middleware calls next twice. "
  "The check for disconnection is a separate step (C54_race_fail).")
c("C47", "partial", ["C47_partial", "C47_fail"], "False: every event is dispatched in a goroutine of its own. Proved when an event comes to its end before the next arrives.")

c("C48", "partial", ["C48_partial", "C48_stays_partial", "C48_joins_partial", "C48_nobody_leaves_partial", "C48_joined_partial", "C48_left", "C48_cleared", "C48_in_turn", "C48_returns", "C48_lost_fail", "C48_same_socket_fail"],
  "False: a leave that saw the room empty deletes it after a concurrent join (C48_lost_fail), and concurrent calls about one socket mix up the two "
  "tables (C48_same_socket_fail). Proved for calls made one after the other per socket, interleaving between sockets, in rooms not deleted meanwhile; "
  "C48_stays_partial: a room somebody stays in is not deleted; C48_joins_partial, C48_nobody_leaves_partial: joins succeed however the calls overlap, also those about one socket, as long as no call takes the socket out of the room and nobody makes it empty. C48_joined_partial, C48_left, C48_cleared: what one call has done when it returns, whatever happened before and whatever else happens meanwhile that does not undo it. C48_in_turn: calls that do not overlap do what the call-level model of C01 does.")
c("C49", "partial", ["C49_partial", "C49_every_partial", "C49_in_the_end", "C49_later", "C49_fail", "C49_session_fail", "C49_handler_fail", "C49_in_turn"],
  "False: the check and the flag are separate steps (C49_fail); the second closer saves a session without rooms (C49_session_fail); a \"disconnecting\" "
  "handler that disconnects never returns (C49_handler_fail). Proved when nobody starts closing while another call is under way; under every interleaving "
  "each call emits at most once, all of them together at least once, and later calls nothing.")
c("C50", "partial", ["C50_order_partial", "C50_notified", "C50_fail"],
  "Proved if the listeners are made from different function literals; closures of the same literal are confused (C50_fail).")
c("C51", "partial", ["C51_methods", "C51_which", "C51_not_modified", "C51_file_partial", "C51_inside_partial", "C51_fail", "C51_setPath"],
  "Methods and entity tags are proved. A path with a question mark opens other names in the directory or, ending in .., the directory above (C51_fail); "
  "C51_inside_partial: nothing beyond that.")
c("C52", "proved", ["C52_assign", "C52_twice", "C52_cluster"], "the options of the engine are a parameter with the same contract")
c("C59", "partial", ["C59_exact_partial", "C59_sequential_partial", "C59_fail"],
  "False for slices with spare capacity (C59_fail). Proved for slices without, under every interleaving; and for calls one after the other.")
c("C64", "partial", ["C64_respected", "C64_defaults_partial", "C64_defaults_fail", "C64_attach", "C64_attach_path", "C64_heartbeat"],
  "The defaults of the recovery are missing when an adapter is chosen explicitly (C64_defaults_fail); everything else is proved.")
c("C56", "partial", ["C56_partial", "C56_replay_partial", "C56_live_partial", "C56_once", "C56_lost_fail", "C56_twice_fail", "C56_cleaned_fail", "C56_panic_fail", "C56_in_turn"],
  "False: a packet broadcast between the collection of the missed packets and the registration of the socket is lost (C56_lost_fail), one that "
  "surrounds both is sent twice (C56_twice_fail), and the clean-up timer makes the collection skip packets or panic (C56_cleaned_fail, C56_panic_fail). "
  "Proved when nobody broadcasts during the recovery (C56_partial); C56_replay_partial and C56_live_partial say what holds whatever is broadcast meanwhile.")
c("C65", "partial", ["C65_partial", "C65_quiet_partial", "C65_saved_partial", "C65_fail", "C65_lost_fail", "C65_join_in_turn", "C65_close_in_turn", "C65_returns", "C65_closed_in_the_end", "C65_too_late", "C65_no_more"],
  "False: a Join that overlaps the close leaves the dead socket in a room for good (C65_fail), and a Join that returned before the disconnection may be "
  "missing from the saved session (C65_lost_fail). Proved: only rooms of overlapping Joins can stay, and everything joined before the close began is saved if one goroutine closes.")
c("C66", "partial", ["C66_partial", "C66_local_partial", "C66_fail", "C66_decoder_fail"],
  "False: a client answering an acknowledgement asked through a RemoteSocket with one value that is not an array crashes the process (C66_fail). Otherwise proved, "
  "assuming that the decoder gives data of the shape of the packet type; the assumption is needed (C66_decoder_fail).")
c("C67", "partial", ["C67_partial", "C67_fail", "C67_error_fail"],
  "Proved for disconnecting and disconnect if the decoder refuses reserved names; the server itself does not (C67_fail). error is not reserved and can always be forged (C67_error_fail).")
c("C68", "proved", ["C68", "C68_any", "C68_packet", "C68_proto3"], "payloads are those of JSON; clients of protocol 3 never ask for recovery")
c("C69", "partial", ["C69_fetch", "C69_join_partial", "C69_leave_partial", "C69_disconnect_partial", "C69_emit_partial", "C69_others_fail", "C69_left_fail"],
  "A remote socket addresses the room named after the id: other sockets that joined this room are affected too (C69_others_fail), and a socket that left it is not reached "
  "(C69_left_fail). Proved for programs that join and leave no room named like a socket id; C69_fetch is the part on what FetchSockets returns.")
c("C70", "partial", ["C70_partial", "C70_static_partial", "C70_fail", "C70_empty_fail"],
  "Proved for names that begin with a slash. False for others: the lookup by the client does not normalise the name and the second lookup does, so the client is connected to a "
  "namespace without parent and without the middlewares of the parent that admitted it (C70_fail), or to \"/\" (C70_empty_fail).")
c("C71", "partial", ["C71_farewell", "C71_disconnect", "C71_idle", "C71_close_partial", "C71_twins_fail", "C71_after_fail"],
  "Disconnect(true) is proved for histories in which no two open sockets share an id; with a protocol 3 client that asks twice for a namespace one socket is told nothing "
  "(C71_twins_fail). Emit on a disconnected socket still writes (C71_after_fail). Engine close reasons are assumed not to be \"server namespace disconnect\".")
c("C72", "partial", ["C72_one_server_partial", "C72_one_caller", "C72_one_at_a_time", "C72_at_once_fails"],
  "Proved if messages reach each server in order and a server that makes a call has received those of the earlier calls; this is so if all calls are made on one server "
  "(C72_one_caller) or each after the effects of the previous one (C72_one_at_a_time). False for calls made at the same time on two servers, even with an ordered transport "
  "(C72_at_once_fails). Publishing must not fail.")
c("C73", "partial", ["C73_counted_partial", "C73_gone_partial", "C73_silent", "C73_running_fails", "C73_broadcaster_fails", "C73_gone_fails"],
  "Proved for a server whose heartbeats were started, if timeout >= interval + timer slack + message delay. Nothing in the repository calls Init, so a server that asks nothing is "
  "never counted (C73_silent, C73_running_fails); broadcasts go through the Publish of the base adapter and start no heartbeats, so a server that only broadcasts is given up while it "
  "runs (C73_broadcaster_fails). A closed adapter still answers INITIAL_HEARTBEAT and is then counted again, unless the transport stops delivering to it (C73_gone_fails).")
c("C74", "partial", ["C74_once", "C74_reached_partial", "C74_reached_in_the_end_partial", "C74_all_partial", "C74_all_in_the_end_partial", "C74_elsewhere_partial", "C74_excepted_partial", "C74_absent", "C74_present", "C74_unknown", "C74_alone", "C74_in_turn", "C74_moved_fails", "C74_except_fails"],
  "Nobody is reached twice and nobody who is not in the namespace is reached (no assumption). Proved for sockets that stay in one of the rooms broadcast to until they are reached, stay in one of the excepted "
  "rooms, or have nothing to do with them during the call. False for a socket that moves from one of the rooms to another (missed, C74_moved_fails) or that joins the excepted room first "
  "and then the room broadcast to (reached, C74_except_fails): the rooms are read one after the other. Range is assumed to go through the keys there are when it begins.")
c("C75", "partial", ["C75_settled_partial", "C75_bounded_partial", "C75_event_fails", "C75_catchall_fails", "C75_ack_fails"],
  "True once no goroutine is at work for the socket (C75_settled_partial); in general the calls made after disconnect are bounded by the packets already received and the deliveries already "
  "begun (C75_bounded_partial). False as stated: the test of Connected and the call of the listeners are two steps (C75_event_fails), and catch-all listeners and acknowledgement callbacks "
  "are called without any test (C75_catchall_fails, C75_ack_fails).")
c("C76", "proved", ["C76_only", "C76_here", "C76_there", "C76_once", "C76_called", "C76_settled", "C76_error_once", "C76_over"],
  "C76_once needs that no id is used on two servers meanwhile; C76_called, that publishing does not fail and the timer has not fired")
c("C77", "partial", ["C77_nothing_left_partial", "C77_told_partial", "C77_refused", "C77_connected", "C77_left_partial", "C77_out", "C77_ghost_fails", "C77_clear_fails", "C77_order_fails", "C77_name_fails", "C77_in_turn", "C77_leave_in_turn", "C77_close_in_turn", "C77_in_the_end_partial"],
  "False: if the connection closes between the test that it is open and the moment the client knows the socket, the socket stays connected for ever "
  "(C77_ghost_fails, C77_clear_fails); if it closes just after, disconnect is emitted before connection (C77_order_fails); a socket disconnected before the client has noted its namespace leaves its name with the client (C77_name_fails). Proved if it closes at any other moment. C77_out holds in every interleaving.")
c("C78", "partial", ["C78_fetch", "C78_join", "C78_leave", "C78_disconnect", "C78_all_partial", "C78_all_fails"],
  "False for AllSockets, which ignores the exceptions (C78_all_fails: socket.To(room).AllSockets() contains the socket itself); proved for operators without exceptions. The other calls are proved.")
c("C79", "proved", ["C79_parent", "C79_child", "C79_static", "C79_children"],
  "Over all histories of Model/Registry, where calls are atomic; the listeners of an existing namespace may also come from a further Of with a listener (C25_handler_partial).")
c("C80", "proved", ["C80_violation", "C80_handled", "C80_deaf", "C80_invalid", "C80_error"],
  "C80_error over all histories of Model/World; the others over all histories of Model/Inbound that do not panic and in which the client is let into a namespace only when it is not in it (C61 says when the code ensures this).")
c("C81", "partial", ["C81_alone_partial", "C81_origin", "C81_leak", "C81_lost", "C81_both"],
  "Holds for a chain that is alone while it runs, after any history (C81_alone_partial). Fails with two chains at the same time: a modifier is taken by the other emission (C81_leak), gets lost (C81_lost) or acts on both (C81_both). In every interleaving a modifier is never left behind for chains that begin after its own has ended (C81_origin).")
c("C82", "partial", ["C82_disconnecting_partial", "C82_disconnect_partial", "C82_disconnecting_fail", "C82_disconnect_fail"],
  "False when two goroutines close the socket, the second fires disconnecting after the rooms are gone (C82_disconnecting_fail), and when a Join is under way during the close (C82_disconnect_fail). Proved in every interleaving with one close, and for disconnect when every Join that overlaps the close returns before the handlers of disconnecting have.")
c("C83", "proved", ["C83_catchall", "C83_listeners", "C83_plain", "C83_once", "C83_twice_fails"],
  "As conservation of events up to order, with packets as the decoder gives them. C83_twice_fails: the condition on next is needed.")
c("C84", "partial", ["C84_ignored", "C84_own", "C84_acts", "C84_answers", "C84_given_up", "C84_asked", "C84_waits", "C84_answered", "C84_partial", "C84_cluster", "C84_nil", "C84_fails"],
  "Holds in a cluster of servers that run this code (C84_cluster) and for messages that make sense (C84_partial). Fails for arbitrary messages: C84_fails shows that each of the five conditions of C84_partial is needed (nil data pointer, no packet, event without argument list, nil socket, answer of the wrong kind).")
c("C85", "partial", ["C85_partial", "C85_own", "C85_created", "C85_stale_fails"],
  "Proved for all histories in which every middleware calls next once, no two open sockets have the same id and disconnecting listeners touch only their own socket. False without the exclusion of stale objects: Leave on a socket that is over takes the socket that recovered its session out of the room (C85_stale_fails).")
c("C86", "partial", ["C86_partial", "C86_join_partial", "C86_leave_partial", "C86_disconnect_partial", "C86_rest_partial", "C86_recovery_partial", "C86_lost", "C86_closed", "C86_fails", "C86_socket_fails", "C86_recovery_fails", "C86_close_fails"],
  "False: a socket keeps the adapter there was when it was made, so after SetAdapter io.Emit and FetchSockets miss the sockets that are connected, sockets made before and after do not hear each other, sessions are looked for in the wrong adapter and the old adapter is never closed (the _fails theorems). Proved for all histories: a call concerns exactly the selected sockets made under the adapter it goes through, the session is found iff the adapter is the same, and everything is as claimed when the adapter is only changed while no socket is open.")
c("C87", "partial", ["C87_emitTo", "C87_emit", "C87_listed", "C87_kept", "C87_nothing", "C87_fetch", "C87_join_fails", "C87_disconnect_fails", "C87_fetch_fails"],
  "Proved for Emit without acknowledgement, over all histories with in-memory adapters. False for the rest: the adapter of a parent only overrides Broadcast, so SocketsJoin, SocketsLeave and DisconnectSockets do nothing and say nothing, and In(room).FetchSockets hands over an empty list without an error (the _fails theorems). Connections under way when a child is removed are C26.")
c("C88", "partial", ["C88_emitter", "C88_all", "C88_same_partial", "C88_order_fails"],
  "False when goroutines broadcast at the same time: each writes to one socket after the other, so two sockets may get two packets in different orders (C88_order_fails). Proved in every interleaving: the packets of one goroutine arrive in the order of its calls, none twice (C88_emitter), none is missing (C88_all); and the same order for all if no call begins before the others have returned (C88_same_partial).")
c("C89", "partial", ["C89_partial", "C89_emitter", "C89_lost_fails", "C89_twice_fails"],
  "False when goroutines broadcast at the same time: packets are stored in one order and may be written in another, so that the packet last received does not tell what is missing; one is lost (C89_lost_fails) or comes twice (C89_twice_fails). Proved if no call begins before the others have returned (C89_partial), and in every interleaving for the packets of the goroutine whose packet came last (C89_emitter).")
c("C90", "partial", ["C90_which", "C90_partial", "C90_after_partial", "C90_two_servers_fails", "C90_handler_fails"],
  "False when the server listens in several ways: Close shuts the http server attached last only, or, if none was attached, the handler or engine made last; connections through the others stay open, and their clients may enter namespaces again (C90_which says just which; C90_two_servers_fails, C90_handler_fails). Proved for one http server, or one handler or engine (C90_partial), also for all that happens afterwards (C90_after_partial, for a handler under the assumption that a closed engine takes no connections).")
c("C91", "partial", ["C91_partial", "C91_overwrites", "C91_callback_partial", "C91_fails", "C91_callback_fails"],
  "False: EmitWithAck appends the callback to the slice it is given, so with room behind the slice it overwrites the element of the program that is there (C91_overwrites says exactly what; C91_fails), and two goroutines that share such a slice both register the second callback (C91_callback_fails). Proved for everything else: arrays into which the program does not write itself and which it does not pass with room behind to EmitWithAck never change (C91_partial), and without room the right callback is registered and the right arguments are sent under every interleaving (C91_callback_partial).")
c("C92", "partial", ["C92_cast", "C92_partial", "C92_ack_partial", "C92_received_partial", "C92_runs_partial", "C92_sent_fails", "C92_seen_fails", "C92_replay_fails", "C92_name_fails", "C92_crash"],
  "False: listeners are called with the slice of the library itself, which is then sent to the client (C92_sent_fails), given to the next listeners (C92_seen_fails), sent again on recovery (C92_replay_fails) and looked at for the event name (C92_name_fails), with a crash if that is no string any more (C92_crash). Proved: what a broadcast sends is right whatever listeners do (C92_cast); all of it is right as long as the program does not write into the slices its listeners get, for emissions (C92_partial, C92_ack_partial), for events (C92_received_partial) and for the process (C92_runs_partial).")
c("C93", "partial", ["C93_partial", "C93_room_partial", "C93_shows_partial", "C93_snapshot_fails", "C93_ghost_fails", "C93_unseen_fails"],
  "False: Rooms() returns the set in the adapter's table. It changes with later calls (C93_snapshot_fails); removing a room from it leaves the socket in the room for good, even after it is gone (C93_ghost_fails); adding one makes Rooms() claim a membership that deliveries do not know (C93_unseen_fails). Proved: a change concerns only the socket and the room it is about; for all others Rooms() and the deliveries go by the calls (C93_partial) and rooms exist just while they have members (C93_room_partial); and exactly what a set that was got shows later (C93_shows_partial: it follows the socket until it leaves all rooms and keeps what it had then).")
c("C94", "partial", ["C94_called_partial", "C94_prompt_partial", "C94_in_the_end_partial", "C94_prompt_in_the_end_partial", "C94_values", "C94_error", "C94_once_partial", "C94_in_turn", "C94_left_fails", "C94_empty_fails", "C94_early_fails", "C94_both_fails", "C94_twins_fail"],
  "False: a server that leaves while the request is made is waited for until the timeout (C94_left_fails), as is nobody at all if the last one does (C94_empty_fails); if the timer goes off before the request is stored and a server is silent, the callback is never called (C94_early_fails); an answer at the moment of the timeout gives two calls (C94_both_fails), as do the last two answers at the same time (C94_twins_fail; also C41_twice_false). Proved for every interleaving: otherwise the callback is called (C94_called_partial), and at most once if no two work on the request at the same time (C94_once_partial), without the timer once all asked have answered or left after the request was stored (C94_prompt_partial); every call without error has a whole answer of every server that has not left and nothing else (C94_values); there is an error only if the timer went off before any success (C94_error). When nothing overlaps, the model agrees with that of whole calls (C94_in_turn).")
c("C95", "partial", ["C95_partial", "C95_stopped_partial", "C95_returned", "C95_closed_partial", "C95_in_turn", "C95_beats_fails", "C95_twins_fail"],
  "False: a heartbeat that starts just before Close stops the timer refreshes it afterwards, and if that starts a stopped timer, heartbeats go on for ever (C95_beats_fails); two first messages at the same time make two timers of which Close stops one (C95_twins_fail, whatever Refresh does). Proved: if the first message is published alone and nothing is under way when Close stops the timer, nothing is sent after (C95_partial); if Refresh does not start a stopped timer, no heartbeat begins after Close, whatever overlaps it (C95_stopped_partial, C95_closed_partial); a Close that has returned has stopped the timer (C95_returned). When no two calls overlap, the model agrees with that of the servers in time (C95_in_turn).")
c("C96", "proved", ["C96_identity", "C96_secret", "C96_told", "C96_users"],
  "Over all histories of Model/World. C96_users assumes that no two private ids made are the same, and that a private id is sent by a client only if a connection of the same user was told it. Payloads of DISCONNECT and protocol-3 CONNECT are empty in the model as in the code.")
c("C97", "partial", ["C97_stays", "C97_idle", "C97_idle_in_the_end", "C97_partial", "C97_cleared_partial", "C97_setup_in_turn", "C97_connect_in_turn", "C97_fires_in_turn", "C97_fails", "C97_late_fails", "C97_setup_fails"],
  "False: the function of the timer looks at the namespaces the client has noted, which happens after the CONNECT packet was written (C97_fails), and it looks and closes in several steps (C97_late_fails). Proved: a socket that the client has noted before the timer looks is safe while it stays (C97_stays); no connected socket is cut off if none is halfway while the timer is at work (C97_partial). A socket connected before the timer has been stored leaves the timer running (C97_setup_fails; whether packets can arrive that early depends on engine.io); otherwise the timer is stopped for good (C97_cleared_partial). When nothing overlaps, the model agrees with that of the whole server (C97_setup_in_turn, C97_connect_in_turn, C97_fires_in_turn).")
c("C98", "proved", ["C98_agree", "C98_server", "C98_client", "C98_reason"],
  "API calls, callbacks and goroutines are atomic steps (C77, C59 have the races). Engine close reasons are assumed not to be \"server namespace disconnect\".")
c("C99", "proved", ["C99_once", "C99_wait", "C99_answered", "C99_attempt", "C99_twice_fails"],
  "API calls, callbacks and goroutines are atomic steps. C99_twice_fails: the condition on next is needed. A middleware that never calls next leaves its client without answer.")
c("C100", "proved", ["C100_set", "C100_kept", "C100_new", "C100_carried"],
  "API calls, callbacks and goroutines are atomic steps. The data are one value: what a program does to the insides of a value it has set is not followed. Listeners of disconnecting that call SetData are not modelled.")
c("C101", "partial", ["C101_kept_partial", "C101_idle_partial", "C101_twin_fail"],
  "False if two open sockets of one namespace have the same id: a client of the old protocol that sends a CONNECT for the main namespace while it is being connected to it (C101_twin_fail). Proved if that never happens and every middleware calls next at most once. API calls, callbacks and goroutines are atomic steps; what overlapping calls can leave is C65 and C77. The session store is not part of it (C11).")
c("C102", "partial", ["C102_once", "C102_partial", "C102_late_fails", "C102_kept_fails"],
  "False for a transport that encodes the message after PublishAndReturnOffset has returned (C102_late_fails: the offset is already appended, so the others get it twice) or that hands the object itself to several servers (C102_kept_fails). Proved for transports that copy the packet when they are given it, and whenever no offset is added. That the message arrives is C38.")
c("C103", "proved", ["C103_own", "C103_kept", "C103_recovered"],
  "Model/World with the payloads of Model/Inbound. The fields of the handshake other than Auth stand for the request of the client, whose fields are set once (the handshake, including Time and Issued, is a snapshot). Names of namespaces begin with a slash (C70 for those that do not).")
c("C104", "partial", ["C104_partial", "C104_refused_fails", "C104_unknown_fails"],
  "False for codings that are refused (gzip;q=0 is sent gzip) and for unknown ones whose name contains br and the like. Proved for all lists of usual codings of which none is refused, with the order of preference. utils.Contains is outside /repo: it is taken to return the first of the codings that is a part of the header. The data themselves are not modelled.")
c("C105", "proved", ["C105_prefix", "C105_all", "C105_progress", "C105_consumed_fails"],
  "Encoder, buffers and transports are outside /repo: an encoded packet is a list of buffers that reading empties, and a clone has what is unread. The frame prepared for WebSocket is the one buffer that connections share: the proof takes it that transports do not consume it, and C105_consumed_fails shows that this is needed.")
c("C106", "partial", ["C106_ordered_partial", "C106_returns_partial", "C106_reentry_fails", "C106_crossed_fails"],
  "Proved, for all calls and all schedules that go on giving turns, if listeners that a program has registered on a connection and that are called while a packet is written to its client send only to clients that come later in some order (C106_ordered_partial), in particular if they send nothing (C106_returns_partial). Otherwise false: the mutex of the client is held during conn.Write, so a listener that is called there and emits to the same client waits for itself for ever, and everybody else who sends to this client with it (C106_reentry_fails); and two listeners that emit to each other's clients wait for each other (C106_crossed_fails). conn.Write is outside /repo: it is taken to return, and to be free to call listeners before it does.")
c("C107", "partial", ["C107_once", "C107_calls", "C107_refused", "C107_selected_partial", "C107_everybody_partial", "C107_untouched_partial", "C107_joined_partial", "C107_joined_in_the_end_partial", "C107_left", "C107_left_in_the_end_partial", "C107_in_turn", "C107_ghost_fails"],
  "False for a socket that disconnects meanwhile: canJoin is tested before the rooms are changed and set to false after the socket has left its rooms, so it may be put into a room after it has left all, for good (C107_ghost_fails). Proved without assumption: nobody is dealt with twice, and for whom it comes to, the call makes exactly the calls asked for. C107_selected_partial, C107_everybody_partial: it comes to every socket that is selected all the time until it does (the selection may change afterwards, also by the call itself). C107_joined_partial, C107_left: such a socket is in the rooms (out of them) when the call returns, unless another call takes it out (makes it join) or, for joins, the room is deleted meanwhile, which C48_lost_fail shows to be needed. If nothing else happens during the call it does what Model/Delivery does in one step, so that C06 says exactly what the rooms are (C107_in_turn).")
c("C108", "partial", ["C108_gone_partial", "C108_closed_partial", "C108_in_the_end_partial", "C108_everybody_partial", "C108_event", "C108_spared", "C108_returns", "C108_in_turn", "C108_missed_fails", "C108_early_fails"],
  "False for a socket that is in the namespace but not yet marked connected when the call comes to it: _onclose does nothing, and the socket is connected afterwards, for good (C108_missed_fails). Proved for all that were connected when the call began: out of the namespace when the call has returned (C108_gone_partial, C108_everybody_partial), and, unless another call is just closing the same socket (needed: C108_early_fails), not connected, unable to join, with its event fired (C108_closed_partial). Without restriction: what the disconnect event implies (C108_event), that other sockets are untouched (C108_spared), and that the call returns within seven steps of its own per socket (C108_returns). If nothing else happens meanwhile it does what Server.Close of Model/World does in one step (C108_in_turn). Rooms and sessions are in C107 and C49.")
c("C109", "partial", ["C109_gate_partial", "C109_kept_partial", "C109_ordered_partial", "C109_cleaned_partial", "C109_answered", "C109_answered_in_the_end", "C109_one", "C109_bypass_fails", "C109_orphan_fails", "C109_split_fails", "C109_leak_fails", "C109_come_in_turn", "C109_leave_in_turn"],
  "False in four ways. With a parent made with a function the child may be removed between the two lookups of a client, and Of makes a namespace without the middlewares of the parent: a client they refuse is let in (C109_bypass_fails). A client may be connected to a namespace that is just being removed, and stays in it (C109_orphan_fails). The removal is by name and may unregister a newer namespace with clients in it (C109_split_fails). Two clients that come at once may leave a child that is never removed (C109_leak_fails). Proved for every interleaving: everybody is answered, is in one namespace at most; refused clients stay out with a regular expression, or without clean-up, or if no removal falls between two lookups (C109_gate_partial); without clean-up every connected client is in an open child (C109_kept_partial). All the rest if lookups do not overlap one another or departures, nor entries a clean-up (C109_ordered_partial, C109_cleaned_partial). When nothing else happens, the steps come to what the call-level model of the registry says (C109_come_in_turn, C109_leave_in_turn).")
c("C110", "partial", ["C110_counted_partial", "C110_forgotten", "C110_forgotten_in_the_end", "C110_closed_partial", "C110_closed_in_the_end_partial", "C110_message_in_turn", "C110_cleanup_in_turn", "C110_dropped_fails", "C110_ghost_fails"],
  "False in two ways. The clean-up tests a server and removes it in two steps: a message recorded between them is lost, and a server just heard from is not counted (C110_dropped_fails). A message taken before the server announced its end and recorded after it makes the server counted again until the timeout (C110_ghost_fails). Proved for every interleaving: a server heard from at least every gap milliseconds, recorded at most delay after the clock was read, gap + delay within the timeout, is counted at every moment (C110_counted_partial); a silent one is gone when a clean-up that began after the timeout returns (C110_forgotten); one that closes is gone unless another of its messages is recorded during or after (C110_closed_partial). Calls that do not overlap do what Model/Heartbeat does in one step (C110_message_in_turn, C110_cleanup_in_turn).")
c("C111", "partial", ["C111_restored_partial", "C111_valid", "C111_cleaned", "C111_cleaned_in_the_end", "C111_only", "C111_persist_in_turn", "C111_restore_in_turn", "C111_timer_in_turn", "C111_swept_fails", "C111_dropped_fails"],
  "False: an old session stays in the table after the client has come back (C13), and the timer, or somebody who asks for it, tests it and deletes what is saved under its id in two steps: a new session of the same client saved between them is lost (C111_swept_fails, C111_dropped_fails). Proved for every interleaving: a saved session is found until its time is up if nobody had looked at an earlier one of the same id and not finished with it (C111_restored_partial); what is found was saved under that id and is not too old (C111_valid); old sessions are removed (C111_cleaned) and nobody else removes anything (C111_only). Calls that do not overlap do what Model/Session does in one step (C111_persist_in_turn, C111_restore_in_turn, C111_timer_in_turn). The packets have a clean-up of their own (C11, C56, C58).")
c("C112", "partial", ["C112_used_partial", "C112_closed_partial", "C112_recovery_stays", "C112_removed_fails", "C112_closed_fails", "C112_replaced_fails"],
  "False in two ways. The adapter with recovery never stops its timer (C112_recovery_stays): removed child namespaces accumulate without bound (C112_removed_fails) and the timers outlive Close (C112_closed_fails). SetAdapter does not close the adapters it replaces: one with heartbeats goes on for ever (C112_replaced_fails). Proved for the other adapters, if they are replaced only while idle. Calls are atomic (C95 and C109 have the races); that a timer fires once after Close is C95.")
c("C113", "partial", ["C113_race_free_partial", "C113_otherwise_fails", "C113_modifier_fails", "C113_answer_fails", "C113_cors_fails", "C113_settings_fails"],
  "False: Compress, Volatile and Timeout write to a structure that Emit reads (C113_modifier_fails); a broadcast with an acknowledgement stores the number of servers after it has sent the packets, while answers read it (C113_answer_fails); the constructor stores the cors handler after the server has been attached (C113_cors_fails); setters of a running server are not synchronised (C113_settings_fails). Proved exactly: no data race under any schedule if no two goroutines make calls one of which changes what the other changes or needs (C113_race_free_partial), and one under some schedule whenever two do (C113_otherwise_fails).")
c("C114", "partial", ["C114_fates", "C114_patient_partial", "C114_recovered", "C114_cut_fails", "C114_lost_fails", "C114_gate_fails"],
  "False: CONNECT is sent before the client's table knows the socket, so an event that arrives at once closes the connection (C114_cut_fails); before the program's handler has returned, events miss the listeners (C114_lost_fails) or pass by the middlewares (C114_gate_fails) it adds. Proved: what becomes of each packet under every interleaving (C114_fates); the claim if the handler has returned before a packet is read (C114_patient_partial); the whole claim for recovered connections that skip the middlewares (C114_recovered).")
c("C115", "proved", ["C115_rooms", "C115_broadcast", "C115_bulk", "C115_sessions", "C115_cluster"],
  "On the step-by-step models RoomRace, CastRace, BulkRace, SessRace and NodeRace: a measure that every step of the goroutine makes smaller and no other changes. C108_returns and C109_answered say the same for closing calls and for clients that ask for a dynamic namespace.")
c("C116", "partial", ["C116_once", "C116_only", "C116_reached_partial", "C116_reached_in_the_end_partial", "C116_returns", "C116_orphan_fails"],
  "False with CleanupEmptyChildNamespaces: a client connected to a child that is removed at the same moment (C109_orphan_fails) stays connected and no event sent through the parent reaches it any more (C116_orphan_fails). Proved: the claim without the option, or if clients do not come and go at the same moment (C116_reached_partial); and, for every interleaving, that nobody gets the event twice (C116_once), that who gets it was admitted and connected (C116_only), and that the call returns (C116_returns). One child is served in one step; C74 has the steps of that.")
c("C117", "partial", ["C117_once", "C117_events", "C117_selected_partial", "C117_everybody_partial", "C117_untouched_partial", "C117_disconnected_partial", "C117_disconnected_in_the_end_partial", "C117_cleared_partial", "C117_already", "C117_overtaken", "C117_returns", "C117_in_turn", "C117_early_fails", "C117_cleared_fails"],
  "False for a socket that is in the namespace and in the room but not yet marked connected when its turn comes: Disconnect does nothing and the socket stays connected (C117_early_fails); and for one that has begun to join a room: it is disconnected and in that room for good (C117_cleared_fails). Proved without assumption: nobody is dealt with twice, what is done to a socket is one of three possible sequences, the call returns if it is scheduled again and again, and a socket somebody else has disconnected is left alone (C117_already, C117_overtaken). C117_selected_partial, C117_everybody_partial, C117_untouched_partial: whom it deals with, if the selection of that socket does not change before its turn. C117_disconnected_partial: a socket that nobody else disconnects before the call announces it is disconnected completely. C117_cleared_partial: and is in no room, if no other call of the adapter is for it meanwhile. C117_in_turn: if nothing else happens during the call it does what Model/Delivery does in one step (C06). Disconnect(true), which closes the connection, is C49 and C108.")
c("C118", "partial", ["C118_once", "C118_selected_partial", "C118_returned_in_the_end_partial", "C118_everybody_partial", "C118_absent_partial", "C118_kept", "C118_foreign", "C118_rooms_partial", "C118_alone", "C118_returns", "C118_rooms_fails"],
  "False for a socket that is taken out of all rooms between the moment its set of rooms is loaded and the moment it is copied, while another goroutine makes it join a room: the rooms shown are rooms the socket had at no moment together (C118_rooms_fails). C118_rooms_partial: true if nobody takes the socket out of all rooms meanwhile. C118_selected_partial, C118_everybody_partial, C118_absent_partial: who is returned, if the selection of that socket does not change before its turn (C74_moved_fails and C74_except_fails show that it must not). Proved without assumption: nobody is returned twice, rooms the socket has all the time are shown and rooms it is never near are not, and the call returns if it is scheduled again and again. AllSockets is the same loop without the rooms.")
c("C119", "partial", ["C119_once", "C119_selected_partial", "C119_reached_in_the_end_partial", "C119_everybody_partial", "C119_untouched_partial", "C119_alone", "C119_counted", "C119_heard", "C119_complete_partial", "C119_waits_partial", "C119_in_turn_partial", "C119_returns", "C119_twice_fails"],
  "False for the number of calls: two answers that are handled at the same time may both find that all are there, so that the callback is called twice (C119_twice_fails), and false for answers of other than one value (C32_payload_false). C119_complete_partial, C119_waits_partial: true for what the callback gets and when, with one value per answer. C119_in_turn_partial: called exactly once if the answers are handled one at a time. C119_selected_partial, C119_everybody_partial, C119_untouched_partial: to whom the event is sent, if the selection of that socket does not change before its turn (C74_moved_fails, C74_except_fails). Proved without assumption: no socket gets the event twice, of each client it was sent to exactly the first answer is counted whenever it comes, and the call returns if it is scheduled again and again. One server; on a cluster C45. ExpectSingleResponse is C33.")
c("C120", "partial", ["C120_rooms", "C120_left", "C120_in_turn", "C120_members_partial", "C120_members_fails", "C120_twice_fails", "C120_order_fails", "C120_absent_fails"],
  "False in three ways: join-room may come before create-room of the room, if the goroutine that has created it is interrupted before it emits (C120_order_fails); if two goroutines make one socket join, join-room may come twice (C120_twice_fails); and if a room is deleted while a socket joins it, join-room comes last for a socket that is not in the room (C120_members_fails; the same race as in C48). Proved for every interleaving: create-room and delete-room balance, and leave-room never comes more often than join-room. The latter, and C120_members_partial, suppose that Set.Delete of the library gives false for an absent key, which /repo does not show; if it gives true, leave-room comes for sockets that were not in the room (C120_absent_fails). C120_members_partial: who is in a room, if the calls for each socket are made one after the other and the room has not been deleted. When no calls overlap, the events are those of Model/Adapter, of which C02 speaks (C120_in_turn).")
c("C121", "partial", ["C121_moment", "C121_sofar", "C121_throughout_partial", "C121_throughout_in_the_end_partial", "C121_absent_partial", "C121_returns", "C121_in_turn", "C121_removed_fails"],
  "False for a listener that is removed while an event is being handled: it may be called after OffAny has returned, since the goroutine goes through a copy (C121_removed_fails). C121_throughout_partial and C121_absent_partial are about listeners made from different function literals, as C50. Proved without assumption: an event calls exactly what ListenersAny would have returned at one moment during the call, in order (C121_moment).")
c("C122", "partial", ["C122_kept_partial", "C122_cleaned", "C122_cleaned_in_the_end", "C122_behind", "C122_exact", "C122_once", "C122_only", "C122_cast_in_turn", "C122_timer_in_turn", "C122_early_fails"],
  "False as it stands: a packet that is overtaken between time.Now() and packets.Push takes those stored before it along when its own time is up, before theirs is (C122_early_fails). C122_kept_partial shows that a packet is removed too early by no more than the longest time between these two steps. The rest is proved without assumption.")
c("C123", "partial", ["C123_exact", "C123_broadcast", "C123_answered", "C123_expired_partial", "C123_kept", "C123_forgotten_in_the_end", "C123_early_fails"],
  "False as it stands in one case: registerAckCallback starts the timer before it stores the callback, so if the timer fires in between the callback is stored after it has been called and stays (C123_early_fails). C123_exact and C123_broadcast say exactly what is held when calls are made in turn; the others hold in every interleaving.")
c("C124", "partial", ["C124_steps", "C124_in_the_end_partial", "C124_let_in_partial", "C124_endless_fails"],
  "False under an endless load: the loop that collects the missed packets asks for the number of packets anew in every round, so that somebody who broadcasts as fast as it collects keeps it going for ever (C124_endless_fails, a fair schedule). C124_steps bounds the steps by the packets there were and the broadcasts begun since, in every interleaving; so the client is let in once no more broadcasts begin. The panic of C56_panic_fail is excluded in C124_let_in_partial.")
c("C125", "proved", ["C125_goes_on"],
  "Assumes of the timers of the utils package, whose source is not in /repo, that Refresh starts a timer again that has gone off; proved whether or not it starts one that was stopped. Publishing to the transport is taken to succeed.")
c("C126", "proved", ["C126_guarded", "C126_before", "C126_order", "C126_refused", "C126_course", "C126_once", "C126_others", "C126_let_in_in_the_end"],
  "Assumes of types.Slice, whose source is not in /repo, that Push and All are atomic and that All returns a copy. Being let in or refused means that the final function is called without or with an error; what it does then is C16, C17 and C99, and that it may be called more than once C60.")
