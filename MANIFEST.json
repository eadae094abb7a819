{
 "claims": [
  {
   "property": "C01",
   "status": "proved",
   "theorems": [
    "Verif.Props.C01_membership"
   ],
   "note": ""
  },
  {
   "property": "C02",
   "status": "proved",
   "theorems": [
    "Verif.Props.C02_events",
    "Verif.Props.C02_departure"
   ],
   "note": ""
  },
  {
   "property": "C03",
   "status": "proved",
   "theorems": [
    "Verif.Props.C03_broadcast",
    "Verif.Props.C03_broadcast_nil",
    "Verif.Props.C03_fetchSockets",
    "Verif.Props.C03_allSockets"
   ],
   "note": ""
  },
  {
   "property": "C04",
   "status": "partial",
   "theorems": [
    "Verif.Props.C04_sender_partial",
    "Verif.Props.C04_sender_false"
   ],
   "note": "False after the socket left the room named after its own id (C04_sender_false). Proved for every chain of operator calls while the socket is in that room."
  },
  {
   "property": "C05",
   "status": "proved",
   "theorems": [
    "Verif.Props.C05_immutable",
    "Verif.Props.C05_chain",
    "Verif.Props.C05_start",
    "Verif.Props.C05_order",
    "Verif.Props.C05_emit",
    "Verif.Props.C05_emit_ack"
   ],
   "note": ""
  },
  {
   "property": "C06",
   "status": "proved",
   "theorems": [
    "Verif.Props.C06_socketsJoin",
    "Verif.Props.C06_socketsLeave"
   ],
   "note": ""
  },
  {
   "property": "C07",
   "status": "proved",
   "theorems": [
    "Verif.Props.C07_disconnectSockets"
   ],
   "note": "one namespace; listeners of the disconnect events are not run inside the call"
  },
  {
   "property": "C08",
   "status": "proved",
   "theorems": [
    "Verif.Props.C08_gone",
    "Verif.Props.C08_next_twice_fails"
   ],
   "note": "for every socket whose own next functions are called at most once each; C08_next_twice_fails shows that this is needed; steps are atomic (C49 has the race)"
  },
  {
   "property": "C09",
   "status": "proved",
   "theorems": [
    "Verif.Props.C09_replay_rule",
    "Verif.Props.C09_replay_rule_agrees"
   ],
   "note": ""
  },
  {
   "property": "C10",
   "status": "proved",
   "theorems": [
    "Verif.Props.C10_replay_exact",
    "Verif.Props.C10_offset_unique",
    "Verif.Props.C10_restores"
   ],
   "note": ""
  },
  {
   "property": "C100",
   "status": "proved",
   "theorems": [
    "Verif.Props.C100_set",
    "Verif.Props.C100_kept",
    "Verif.Props.C100_new",
    "Verif.Props.C100_carried"
   ],
   "note": "API calls, callbacks and goroutines are atomic steps. The data are one value: what a program does to the insides of a value it has set is not followed. Listeners of disconnecting that call SetData are not modelled."
  },
  {
   "property": "C101",
   "status": "partial",
   "theorems": [
    "Verif.Props.C101_kept_partial",
    "Verif.Props.C101_idle_partial",
    "Verif.Props.C101_twin_fail"
   ],
   "note": "False if two open sockets of one namespace have the same id: a client of the old protocol that sends a CONNECT for the main namespace while it is being connected to it (C101_twin_fail). Proved if that never happens and every middleware calls next at most once. API calls, callbacks and goroutines are atomic steps; what overlapping calls can leave is C65 and C77. The session store is not part of it (C11)."
  },
  {
   "property": "C102",
   "status": "partial",
   "theorems": [
    "Verif.Props.C102_once",
    "Verif.Props.C102_partial",
    "Verif.Props.C102_late_fails",
    "Verif.Props.C102_kept_fails"
   ],
   "note": "False for a transport that encodes the message after PublishAndReturnOffset has returned (C102_late_fails: the offset is already appended, so the others get it twice) or that hands the object itself to several servers (C102_kept_fails). Proved for transports that copy the packet when they are given it, and whenever no offset is added. That the message arrives is C38."
  },
  {
   "property": "C103",
   "status": "proved",
   "theorems": [
    "Verif.Props.C103_own",
    "Verif.Props.C103_kept",
    "Verif.Props.C103_recovered"
   ],
   "note": "Model/World with the payloads of Model/Inbound. The fields of the handshake other than Auth stand for the request of the client, whose fields are set once (the handshake, including Time and Issued, is a snapshot). Names of namespaces begin with a slash (C70 for those that do not)."
  },
  {
   "property": "C104",
   "status": "partial",
   "theorems": [
    "Verif.Props.C104_partial",
    "Verif.Props.C104_refused_fails",
    "Verif.Props.C104_unknown_fails"
   ],
   "note": "False for codings that are refused (gzip;q=0 is sent gzip) and for unknown ones whose name contains br and the like. Proved for all lists of usual codings of which none is refused, with the order of preference. utils.Contains is outside /repo: it is taken to return the first of the codings that is a part of the header. The data themselves are not modelled."
  },
  {
   "property": "C105",
   "status": "proved",
   "theorems": [
    "Verif.Props.C105_prefix",
    "Verif.Props.C105_all",
    "Verif.Props.C105_progress",
    "Verif.Props.C105_consumed_fails"
   ],
   "note": "Encoder, buffers and transports are outside /repo: an encoded packet is a list of buffers that reading empties, and a clone has what is unread. The frame prepared for WebSocket is the one buffer that connections share: the proof takes it that transports do not consume it, and C105_consumed_fails shows that this is needed."
  },
  {
   "property": "C106",
   "status": "partial",
   "theorems": [
    "Verif.Props.C106_ordered_partial",
    "Verif.Props.C106_returns_partial",
    "Verif.Props.C106_reentry_fails",
    "Verif.Props.C106_crossed_fails"
   ],
   "note": "Proved, for all calls and all schedules that go on giving turns, if listeners that a program has registered on a connection and that are called while a packet is written to its client send only to clients that come later in some order (C106_ordered_partial), in particular if they send nothing (C106_returns_partial). Otherwise false: the mutex of the client is held during conn.Write, so a listener that is called there and emits to the same client waits for itself for ever, and everybody else who sends to this client with it (C106_reentry_fails); and two listeners that emit to each other's clients wait for each other (C106_crossed_fails). conn.Write is outside /repo: it is taken to return, and to be free to call listeners before it does."
  },
  {
   "property": "C107",
   "status": "partial",
   "theorems": [
    "Verif.Props.C107_once",
    "Verif.Props.C107_calls",
    "Verif.Props.C107_refused",
    "Verif.Props.C107_selected_partial",
    "Verif.Props.C107_everybody_partial",
    "Verif.Props.C107_untouched_partial",
    "Verif.Props.C107_joined_partial",
    "Verif.Props.C107_joined_in_the_end_partial",
    "Verif.Props.C107_left",
    "Verif.Props.C107_left_in_the_end_partial",
    "Verif.Props.C107_in_turn",
    "Verif.Props.C107_ghost_fails"
   ],
   "note": "False for a socket that disconnects meanwhile: canJoin is tested before the rooms are changed and set to false after the socket has left its rooms, so it may be put into a room after it has left all, for good (C107_ghost_fails). Proved without assumption: nobody is dealt with twice, and for whom it comes to, the call makes exactly the calls asked for. C107_selected_partial, C107_everybody_partial: it comes to every socket that is selected all the time until it does (the selection may change afterwards, also by the call itself). C107_joined_partial, C107_left: such a socket is in the rooms (out of them) when the call returns, unless another call takes it out (makes it join) or, for joins, the room is deleted meanwhile, which C48_lost_fail shows to be needed. If nothing else happens during the call it does what Model/Delivery does in one step, so that C06 says exactly what the rooms are (C107_in_turn)."
  },
  {
   "property": "C108",
   "status": "partial",
   "theorems": [
    "Verif.Props.C108_gone_partial",
    "Verif.Props.C108_closed_partial",
    "Verif.Props.C108_in_the_end_partial",
    "Verif.Props.C108_everybody_partial",
    "Verif.Props.C108_event",
    "Verif.Props.C108_spared",
    "Verif.Props.C108_returns",
    "Verif.Props.C108_in_turn",
    "Verif.Props.C108_missed_fails",
    "Verif.Props.C108_early_fails"
   ],
   "note": "False for a socket that is in the namespace but not yet marked connected when the call comes to it: _onclose does nothing, and the socket is connected afterwards, for good (C108_missed_fails). Proved for all that were connected when the call began: out of the namespace when the call has returned (C108_gone_partial, C108_everybody_partial), and, unless another call is just closing the same socket (needed: C108_early_fails), not connected, unable to join, with its event fired (C108_closed_partial). Without restriction: what the disconnect event implies (C108_event), that other sockets are untouched (C108_spared), and that the call returns within seven steps of its own per socket (C108_returns). If nothing else happens meanwhile it does what Server.Close of Model/World does in one step (C108_in_turn). Rooms and sessions are in C107 and C49."
  },
  {
   "property": "C109",
   "status": "partial",
   "theorems": [
    "Verif.Props.C109_gate_partial",
    "Verif.Props.C109_kept_partial",
    "Verif.Props.C109_ordered_partial",
    "Verif.Props.C109_cleaned_partial",
    "Verif.Props.C109_answered",
    "Verif.Props.C109_answered_in_the_end",
    "Verif.Props.C109_one",
    "Verif.Props.C109_bypass_fails",
    "Verif.Props.C109_orphan_fails",
    "Verif.Props.C109_split_fails",
    "Verif.Props.C109_leak_fails",
    "Verif.Props.C109_come_in_turn",
    "Verif.Props.C109_leave_in_turn"
   ],
   "note": "False in four ways. With a parent made with a function the child may be removed between the two lookups of a client, and Of makes a namespace without the middlewares of the parent: a client they refuse is let in (C109_bypass_fails). A client may be connected to a namespace that is just being removed, and stays in it (C109_orphan_fails). The removal is by name and may unregister a newer namespace with clients in it (C109_split_fails). Two clients that come at once may leave a child that is never removed (C109_leak_fails). Proved for every interleaving: everybody is answered, is in one namespace at most; refused clients stay out with a regular expression, or without clean-up, or if no removal falls between two lookups (C109_gate_partial); without clean-up every connected client is in an open child (C109_kept_partial). All the rest if lookups do not overlap one another or departures, nor entries a clean-up (C109_ordered_partial, C109_cleaned_partial). When nothing else happens, the steps come to what the call-level model of the registry says (C109_come_in_turn, C109_leave_in_turn)."
  },
  {
   "property": "C11",
   "status": "proved",
   "theorems": [
    "Verif.Props.C11_not_late",
    "Verif.Props.C11_unknown",
    "Verif.Props.C11_not_early",
    "Verif.Props.C11_cleanup"
   ],
   "note": ""
  },
  {
   "property": "C110",
   "status": "partial",
   "theorems": [
    "Verif.Props.C110_counted_partial",
    "Verif.Props.C110_forgotten",
    "Verif.Props.C110_forgotten_in_the_end",
    "Verif.Props.C110_closed_partial",
    "Verif.Props.C110_closed_in_the_end_partial",
    "Verif.Props.C110_message_in_turn",
    "Verif.Props.C110_cleanup_in_turn",
    "Verif.Props.C110_dropped_fails",
    "Verif.Props.C110_ghost_fails"
   ],
   "note": "False in two ways. The clean-up tests a server and removes it in two steps: a message recorded between them is lost, and a server just heard from is not counted (C110_dropped_fails). A message taken before the server announced its end and recorded after it makes the server counted again until the timeout (C110_ghost_fails). Proved for every interleaving: a server heard from at least every gap milliseconds, recorded at most delay after the clock was read, gap + delay within the timeout, is counted at every moment (C110_counted_partial); a silent one is gone when a clean-up that began after the timeout returns (C110_forgotten); one that closes is gone unless another of its messages is recorded during or after (C110_closed_partial). Calls that do not overlap do what Model/Heartbeat does in one step (C110_message_in_turn, C110_cleanup_in_turn)."
  },
  {
   "property": "C111",
   "status": "partial",
   "theorems": [
    "Verif.Props.C111_restored_partial",
    "Verif.Props.C111_valid",
    "Verif.Props.C111_cleaned",
    "Verif.Props.C111_cleaned_in_the_end",
    "Verif.Props.C111_only",
    "Verif.Props.C111_persist_in_turn",
    "Verif.Props.C111_restore_in_turn",
    "Verif.Props.C111_timer_in_turn",
    "Verif.Props.C111_swept_fails",
    "Verif.Props.C111_dropped_fails"
   ],
   "note": "False: an old session stays in the table after the client has come back (C13), and the timer, or somebody who asks for it, tests it and deletes what is saved under its id in two steps: a new session of the same client saved between them is lost (C111_swept_fails, C111_dropped_fails). Proved for every interleaving: a saved session is found until its time is up if nobody had looked at an earlier one of the same id and not finished with it (C111_restored_partial); what is found was saved under that id and is not too old (C111_valid); old sessions are removed (C111_cleaned) and nobody else removes anything (C111_only). Calls that do not overlap do what Model/Session does in one step (C111_persist_in_turn, C111_restore_in_turn, C111_timer_in_turn). The packets have a clean-up of their own (C11, C56, C58)."
  },
  {
   "property": "C112",
   "status": "partial",
   "theorems": [
    "Verif.Props.C112_used_partial",
    "Verif.Props.C112_closed_partial",
    "Verif.Props.C112_recovery_stays",
    "Verif.Props.C112_removed_fails",
    "Verif.Props.C112_closed_fails",
    "Verif.Props.C112_replaced_fails"
   ],
   "note": "False in two ways. The adapter with recovery never stops its timer (C112_recovery_stays): removed child namespaces accumulate without bound (C112_removed_fails) and the timers outlive Close (C112_closed_fails). SetAdapter does not close the adapters it replaces: one with heartbeats goes on for ever (C112_replaced_fails). Proved for the other adapters, if they are replaced only while idle. Calls are atomic (C95 and C109 have the races); that a timer fires once after Close is C95."
  },
  {
   "property": "C113",
   "status": "partial",
   "theorems": [
    "Verif.Props.C113_race_free_partial",
    "Verif.Props.C113_otherwise_fails",
    "Verif.Props.C113_modifier_fails",
    "Verif.Props.C113_answer_fails",
    "Verif.Props.C113_cors_fails",
    "Verif.Props.C113_settings_fails"
   ],
   "note": "False: Compress, Volatile and Timeout write to a structure that Emit reads (C113_modifier_fails); a broadcast with an acknowledgement stores the number of servers after it has sent the packets, while answers read it (C113_answer_fails); the constructor stores the cors handler after the server has been attached (C113_cors_fails); setters of a running server are not synchronised (C113_settings_fails). Proved exactly: no data race under any schedule if no two goroutines make calls one of which changes what the other changes or needs (C113_race_free_partial), and one under some schedule whenever two do (C113_otherwise_fails)."
  },
  {
   "property": "C114",
   "status": "partial",
   "theorems": [
    "Verif.Props.C114_fates",
    "Verif.Props.C114_patient_partial",
    "Verif.Props.C114_recovered",
    "Verif.Props.C114_cut_fails",
    "Verif.Props.C114_lost_fails",
    "Verif.Props.C114_gate_fails"
   ],
   "note": "False: CONNECT is sent before the client's table knows the socket, so an event that arrives at once closes the connection (C114_cut_fails); before the program's handler has returned, events miss the listeners (C114_lost_fails) or pass by the middlewares (C114_gate_fails) it adds. Proved: what becomes of each packet under every interleaving (C114_fates); the claim if the handler has returned before a packet is read (C114_patient_partial); the whole claim for recovered connections that skip the middlewares (C114_recovered)."
  },
  {
   "property": "C115",
   "status": "proved",
   "theorems": [
    "Verif.Props.C115_rooms",
    "Verif.Props.C115_broadcast",
    "Verif.Props.C115_bulk",
    "Verif.Props.C115_sessions",
    "Verif.Props.C115_cluster"
   ],
   "note": "On the step-by-step models RoomRace, CastRace, BulkRace, SessRace and NodeRace: a measure that every step of the goroutine makes smaller and no other changes. C108_returns and C109_answered say the same for closing calls and for clients that ask for a dynamic namespace."
  },
  {
   "property": "C116",
   "status": "partial",
   "theorems": [
    "Verif.Props.C116_once",
    "Verif.Props.C116_only",
    "Verif.Props.C116_reached_partial",
    "Verif.Props.C116_reached_in_the_end_partial",
    "Verif.Props.C116_returns",
    "Verif.Props.C116_orphan_fails"
   ],
   "note": "False with CleanupEmptyChildNamespaces: a client connected to a child that is removed at the same moment (C109_orphan_fails) stays connected and no event sent through the parent reaches it any more (C116_orphan_fails). Proved: the claim without the option, or if clients do not come and go at the same moment (C116_reached_partial); and, for every interleaving, that nobody gets the event twice (C116_once), that who gets it was admitted and connected (C116_only), and that the call returns (C116_returns). One child is served in one step; C74 has the steps of that."
  },
  {
   "property": "C117",
   "status": "partial",
   "theorems": [
    "Verif.Props.C117_once",
    "Verif.Props.C117_events",
    "Verif.Props.C117_selected_partial",
    "Verif.Props.C117_everybody_partial",
    "Verif.Props.C117_untouched_partial",
    "Verif.Props.C117_disconnected_partial",
    "Verif.Props.C117_disconnected_in_the_end_partial",
    "Verif.Props.C117_cleared_partial",
    "Verif.Props.C117_already",
    "Verif.Props.C117_overtaken",
    "Verif.Props.C117_returns",
    "Verif.Props.C117_in_turn",
    "Verif.Props.C117_early_fails",
    "Verif.Props.C117_cleared_fails"
   ],
   "note": "False for a socket that is in the namespace and in the room but not yet marked connected when its turn comes: Disconnect does nothing and the socket stays connected (C117_early_fails); and for one that has begun to join a room: it is disconnected and in that room for good (C117_cleared_fails). Proved without assumption: nobody is dealt with twice, what is done to a socket is one of three possible sequences, the call returns if it is scheduled again and again, and a socket somebody else has disconnected is left alone (C117_already, C117_overtaken). C117_selected_partial, C117_everybody_partial, C117_untouched_partial: whom it deals with, if the selection of that socket does not change before its turn. C117_disconnected_partial: a socket that nobody else disconnects before the call announces it is disconnected completely. C117_cleared_partial: and is in no room, if no other call of the adapter is for it meanwhile. C117_in_turn: if nothing else happens during the call it does what Model/Delivery does in one step (C06). Disconnect(true), which closes the connection, is C49 and C108."
  },
  {
   "property": "C118",
   "status": "partial",
   "theorems": [
    "Verif.Props.C118_once",
    "Verif.Props.C118_selected_partial",
    "Verif.Props.C118_returned_in_the_end_partial",
    "Verif.Props.C118_everybody_partial",
    "Verif.Props.C118_absent_partial",
    "Verif.Props.C118_kept",
    "Verif.Props.C118_foreign",
    "Verif.Props.C118_rooms_partial",
    "Verif.Props.C118_alone",
    "Verif.Props.C118_returns",
    "Verif.Props.C118_rooms_fails"
   ],
   "note": "False for a socket that is taken out of all rooms between the moment its set of rooms is loaded and the moment it is copied, while another goroutine makes it join a room: the rooms shown are rooms the socket had at no moment together (C118_rooms_fails). C118_rooms_partial: true if nobody takes the socket out of all rooms meanwhile. C118_selected_partial, C118_everybody_partial, C118_absent_partial: who is returned, if the selection of that socket does not change before its turn (C74_moved_fails and C74_except_fails show that it must not). Proved without assumption: nobody is returned twice, rooms the socket has all the time are shown and rooms it is never near are not, and the call returns if it is scheduled again and again. AllSockets is the same loop without the rooms."
  },
  {
   "property": "C119",
   "status": "partial",
   "theorems": [
    "Verif.Props.C119_once",
    "Verif.Props.C119_selected_partial",
    "Verif.Props.C119_reached_in_the_end_partial",
    "Verif.Props.C119_everybody_partial",
    "Verif.Props.C119_untouched_partial",
    "Verif.Props.C119_alone",
    "Verif.Props.C119_counted",
    "Verif.Props.C119_heard",
    "Verif.Props.C119_complete_partial",
    "Verif.Props.C119_waits_partial",
    "Verif.Props.C119_in_turn_partial",
    "Verif.Props.C119_returns",
    "Verif.Props.C119_twice_fails"
   ],
   "note": "False for the number of calls: two answers that are handled at the same time may both find that all are there, so that the callback is called twice (C119_twice_fails), and false for answers of other than one value (C32_payload_false). C119_complete_partial, C119_waits_partial: true for what the callback gets and when, with one value per answer. C119_in_turn_partial: called exactly once if the answers are handled one at a time. C119_selected_partial, C119_everybody_partial, C119_untouched_partial: to whom the event is sent, if the selection of that socket does not change before its turn (C74_moved_fails, C74_except_fails). Proved without assumption: no socket gets the event twice, of each client it was sent to exactly the first answer is counted whenever it comes, and the call returns if it is scheduled again and again. One server; on a cluster C45. ExpectSingleResponse is C33."
  },
  {
   "property": "C12",
   "status": "proved",
   "theorems": [
    "Verif.Props.C12_stored_iff",
    "Verif.Props.C12_offsets_distinct"
   ],
   "note": ""
  },
  {
   "property": "C120",
   "status": "partial",
   "theorems": [
    "Verif.Props.C120_rooms",
    "Verif.Props.C120_left",
    "Verif.Props.C120_in_turn",
    "Verif.Props.C120_members_partial",
    "Verif.Props.C120_members_fails",
    "Verif.Props.C120_twice_fails",
    "Verif.Props.C120_order_fails",
    "Verif.Props.C120_absent_fails"
   ],
   "note": "False in three ways: join-room may come before create-room of the room, if the goroutine that has created it is interrupted before it emits (C120_order_fails); if two goroutines make one socket join, join-room may come twice (C120_twice_fails); and if a room is deleted while a socket joins it, join-room comes last for a socket that is not in the room (C120_members_fails; the same race as in C48). Proved for every interleaving: create-room and delete-room balance, and leave-room never comes more often than join-room. The latter, and C120_members_partial, suppose that Set.Delete of the library gives false for an absent key, which /repo does not show; if it gives true, leave-room comes for sockets that were not in the room (C120_absent_fails). C120_members_partial: who is in a room, if the calls for each socket are made one after the other and the room has not been deleted. When no calls overlap, the events are those of Model/Adapter, of which C02 speaks (C120_in_turn)."
  },
  {
   "property": "C121",
   "status": "partial",
   "theorems": [
    "Verif.Props.C121_moment",
    "Verif.Props.C121_sofar",
    "Verif.Props.C121_throughout_partial",
    "Verif.Props.C121_throughout_in_the_end_partial",
    "Verif.Props.C121_absent_partial",
    "Verif.Props.C121_returns",
    "Verif.Props.C121_in_turn",
    "Verif.Props.C121_removed_fails"
   ],
   "note": "False for a listener that is removed while an event is being handled: it may be called after OffAny has returned, since the goroutine goes through a copy (C121_removed_fails). C121_throughout_partial and C121_absent_partial are about listeners made from different function literals, as C50. Proved without assumption: an event calls exactly what ListenersAny would have returned at one moment during the call, in order (C121_moment)."
  },
  {
   "property": "C122",
   "status": "partial",
   "theorems": [
    "Verif.Props.C122_kept_partial",
    "Verif.Props.C122_cleaned",
    "Verif.Props.C122_cleaned_in_the_end",
    "Verif.Props.C122_behind",
    "Verif.Props.C122_exact",
    "Verif.Props.C122_once",
    "Verif.Props.C122_only",
    "Verif.Props.C122_cast_in_turn",
    "Verif.Props.C122_timer_in_turn",
    "Verif.Props.C122_early_fails"
   ],
   "note": "False as it stands: a packet that is overtaken between time.Now() and packets.Push takes those stored before it along when its own time is up, before theirs is (C122_early_fails). C122_kept_partial shows that a packet is removed too early by no more than the longest time between these two steps. The rest is proved without assumption."
  },
  {
   "property": "C123",
   "status": "partial",
   "theorems": [
    "Verif.Props.C123_exact",
    "Verif.Props.C123_broadcast",
    "Verif.Props.C123_answered",
    "Verif.Props.C123_expired_partial",
    "Verif.Props.C123_kept",
    "Verif.Props.C123_forgotten_in_the_end",
    "Verif.Props.C123_early_fails"
   ],
   "note": "False as it stands in one case: registerAckCallback starts the timer before it stores the callback, so if the timer fires in between the callback is stored after it has been called and stays (C123_early_fails). C123_exact and C123_broadcast say exactly what is held when calls are made in turn; the others hold in every interleaving."
  },
  {
   "property": "C124",
   "status": "partial",
   "theorems": [
    "Verif.Props.C124_steps",
    "Verif.Props.C124_in_the_end_partial",
    "Verif.Props.C124_let_in_partial",
    "Verif.Props.C124_endless_fails"
   ],
   "note": "False under an endless load: the loop that collects the missed packets asks for the number of packets anew in every round, so that somebody who broadcasts as fast as it collects keeps it going for ever (C124_endless_fails, a fair schedule). C124_steps bounds the steps by the packets there were and the broadcasts begun since, in every interleaving; so the client is let in once no more broadcasts begin. The panic of C56_panic_fail is excluded in C124_let_in_partial."
  },
  {
   "property": "C125",
   "status": "proved",
   "theorems": [
    "Verif.Props.C125_goes_on"
   ],
   "note": "Assumes of the timers of the utils package, whose source is not in /repo, that Refresh starts a timer again that has gone off; proved whether or not it starts one that was stopped. Publishing to the transport is taken to succeed."
  },
  {
   "property": "C126",
   "status": "proved",
   "theorems": [
    "Verif.Props.C126_guarded",
    "Verif.Props.C126_before",
    "Verif.Props.C126_order",
    "Verif.Props.C126_refused",
    "Verif.Props.C126_course",
    "Verif.Props.C126_once",
    "Verif.Props.C126_others",
    "Verif.Props.C126_let_in_in_the_end"
   ],
   "note": "Assumes of types.Slice, whose source is not in /repo, that Push and All are atomic and that All returns a copy. Being let in or refused means that the final function is called without or with an error; what it does then is C16, C17 and C99, and that it may be called more than once C60."
  },
  {
   "property": "C13",
   "status": "partial",
   "theorems": [
    "Verif.Props.C13_single_use_false",
    "Verif.Props.C13_reused_false",
    "Verif.Props.C13_single_use_partial"
   ],
   "note": "False as stated: RestoreSession does not delete the session, shown by C13_single_use_false; C13_reused_false shows that every restored session can be restored again any number of times within the retention time. Proved: the id is unusable once the retention time has passed."
  },
  {
   "property": "C14",
   "status": "proved",
   "theorems": [
    "Verif.Props.C14_iff",
    "Verif.Props.C14_explicit",
    "Verif.Props.C14_contents"
   ],
   "note": "C14_iff is for every socket whose own next functions are called at most once each; C14_contents assumes that no two open sockets share an id and that the listeners of \"disconnecting\" touch only the rooms of their own socket"
  },
  {
   "property": "C15",
   "status": "proved",
   "theorems": [
    "Verif.Props.C15_recovered",
    "Verif.Props.C15_fresh",
    "Verif.Props.C15_ids",
    "Verif.Props.C15_identity",
    "Verif.Props.C15_origin"
   ],
   "note": ""
  },
  {
   "property": "C16",
   "status": "proved",
   "theorems": [
    "Verif.Props.C16_gate",
    "Verif.Props.C16_visible",
    "Verif.Props.C16_order",
    "Verif.Props.C16_error_stops"
   ],
   "note": "only C16_error_stops assumes that no middleware calls next twice for this socket (C60)"
  },
  {
   "property": "C17",
   "status": "proved",
   "theorems": [
    "Verif.Props.C17_rejected",
    "Verif.Props.C17_reported"
   ],
   "note": "that the socket never connects assumes that no middleware calls next twice for this socket (C60)"
  },
  {
   "property": "C18",
   "status": "proved",
   "theorems": [
    "Verif.Props.C18_dispatch",
    "Verif.Props.C18_no_crossing",
    "Verif.Props.C18_created",
    "Verif.Props.C18_delivered"
   ],
   "note": "C18_delivered (the positive direction) assumes that no two open sockets share an id and that clients do not ask for a namespace twice (C61); the order of delivery is C47"
  },
  {
   "property": "C19",
   "status": "proved",
   "theorems": [
    "Verif.Props.C19_lifecycle"
   ],
   "note": "steps are atomic (C49 has the race)"
  },
  {
   "property": "C20",
   "status": "partial",
   "theorems": [
    "Verif.Props.C20_transport_close_partial",
    "Verif.Props.C20_twins_fail"
   ],
   "note": "Assumes that no two open sockets share an id (C61_honest_partial: so if clients ask for a namespace only while they have no open socket there and for a session only by a private id that no open socket has). Otherwise false: C20_twins_fail, with protocol 3 a socket is left connected."
  },
  {
   "property": "C21",
   "status": "partial",
   "theorems": [
    "Verif.Props.C21_connect_first_partial",
    "Verif.Props.C21_recovered_fail",
    "Verif.Props.C21_early_emit_fail"
   ],
   "note": "False for recovered sockets (C21_recovered_fail) and when a middleware emits to the socket (C21_early_emit_fail); proved for every other socket for which no middleware calls next twice, whatever happens to other sockets."
  },
  {
   "property": "C22",
   "status": "proved",
   "theorems": [
    "Verif.Props.C22_consistent",
    "Verif.Props.C22_listed",
    "Verif.Props.C22_ok"
   ],
   "note": "the converse C22_listed assumes that no two open sockets share an id"
  },
  {
   "property": "C23",
   "status": "proved",
   "theorems": [
    "Verif.Props.C23_isolated",
    "Verif.Props.C23_ids"
   ],
   "note": "listeners of \"disconnecting\" touch only the rooms of their own socket; closing a whole connection or the server is not an operation on one namespace"
  },
  {
   "property": "C24",
   "status": "partial",
   "theorems": [
    "Verif.Props.C24_partial",
    "Verif.Props.C24_iff_partial",
    "Verif.Props.C24_existing",
    "Verif.Props.C24_late_fail",
    "Verif.Props.C24_silent_fail",
    "Verif.Props.C24_twice_fail"
   ],
   "note": "Proved for matchers that call next exactly once before they return. False otherwise: late answers (C24_late_fail), no answer before returning (C24_silent_fail), two answers (C24_twice_fail)."
  },
  {
   "property": "C25",
   "status": "partial",
   "theorems": [
    "Verif.Props.C25_names",
    "Verif.Props.C25_result",
    "Verif.Props.C25_stable",
    "Verif.Props.C25_announced",
    "Verif.Props.C25_handler_partial",
    "Verif.Props.C25_handler_fail"
   ],
   "note": "Everything is proved except that the listener is not registered when a regular expression matches a new name (C25_handler_fail)."
  },
  {
   "property": "C26",
   "status": "partial",
   "theorems": [
    "Verif.Props.C26_removed",
    "Verif.Props.C26_kept_partial",
    "Verif.Props.C26_pending_fail",
    "Verif.Props.C26_name_fail"
   ],
   "note": "Removal of empty children is proved. Keeping is false while a client is being connected (C26_pending_fail), and the removal by name hits other namespaces (C26_name_fail); proved when nobody is being connected to a namespace at the moment a socket leaves it. Assumes that no two open sockets share an id (C61_honest_partial: so if clients ask for a namespace only while they have no open socket there and for a session only by a private id that no open socket has). "
  },
  {
   "property": "C27",
   "status": "partial",
   "theorems": [
    "Verif.Props.C27_close_partial",
    "Verif.Props.C27_removed_fail",
    "Verif.Props.C20_twins_fail"
   ],
   "note": "Assumes that no two open sockets share an id (C61_honest_partial: so if clients ask for a namespace only while they have no open socket there and for a session only by a private id that no open socket has). Covers the namespaces the server still lists; false for a dynamic namespace that was removed as empty while a client was being connected to it (C27_removed_fail)."
  },
  {
   "property": "C28",
   "status": "proved",
   "theorems": [
    "Verif.Props.C28_timeout",
    "Verif.Props.C28_cancelled"
   ],
   "note": ""
  },
  {
   "property": "C29",
   "status": "partial",
   "theorems": [
    "Verif.Props.C29_outcome_partial",
    "Verif.Props.C29_at_most_once_partial",
    "Verif.Props.C29_broadcast_partial",
    "Verif.Props.C29_interleaved_partial",
    "Verif.Props.C29_client_partial",
    "Verif.Props.C29_in_time_partial",
    "Verif.Props.C29_concurrent_false",
    "Verif.Props.C29_in_turn",
    "Verif.Props.C29_genuine",
    "Verif.Props.C29_answered",
    "Verif.Props.C29_expired",
    "Verif.Props.C29_single",
    "Verif.Props.C29_returns",
    "Verif.Props.C29_answered_in_the_end",
    "Verif.Props.C29_expired_in_the_end"
   ],
   "note": "For every interleaving of the map operations: a callback is only called with answers to its own number or by its own timer (C29_genuine), an answer or an expiry after the emission has returned does lead to a call (C29_answered, C29_expired), and one answer without a timeout to exactly one, with its arguments (C29_single). Proved in full when packets and timers are handled one at a time (exact fate of every callback). False for the goroutines the code starts: C29_concurrent_false gives three schedules (duplicate answer, timer/answer race, timer before Store) that call the callback twice. C29_interleaved_partial is the bound that does hold in every schedule: calls <= answers received with the id + 1 if there is a timeout."
  },
  {
   "property": "C30",
   "status": "proved",
   "theorems": [
    "Verif.Props.C30_distinct",
    "Verif.Props.C30_owner",
    "Verif.Props.C30_server"
   ],
   "note": "Every interleaving of fewer than 2^64 requests, 64-bit counter; C30_server: in every history of a running server, with the packets sent."
  },
  {
   "property": "C31",
   "status": "proved",
   "theorems": [
    "Verif.Props.C31_once",
    "Verif.Props.C31_first_wins",
    "Verif.Props.C31_returns"
   ],
   "note": "Every interleaving of any number of calls; sync.Once by its contract. C31_returns: the calls return and the packet is sent, if no goroutine is forgotten by the scheduler."
  },
  {
   "property": "C32",
   "status": "partial",
   "theorems": [
    "Verif.Props.C32_complete_partial",
    "Verif.Props.C32_timeout_partial",
    "Verif.Props.C32_interleaved_partial",
    "Verif.Props.C32_fired_partial",
    "Verif.Props.C32_over",
    "Verif.Props.C32_payload_false",
    "Verif.Props.C32_concurrent_false",
    "Verif.Props.C32_in_turn",
    "Verif.Props.C32_one_at_a_time",
    "Verif.Props.C32_in_the_end_partial"
   ],
   "note": "False as stated: the completion test compares the number of values received with the number of clients, so answers of zero or several values complete too early, twice or never (C32_payload_false), and two answers handled concurrently can complete twice (C32_concurrent_false). Proved for one value per answer: exact behaviour for every arrival order and timer instant when events are handled one at a time; in every interleaving every call is complete and completion is never missed."
  },
  {
   "property": "C33",
   "status": "partial",
   "theorems": [
    "Verif.Props.C33_answer_partial",
    "Verif.Props.C33_answer_false"
   ],
   "note": "False: a single non-array answer (or a vanished socket) panics, other answers time out. Exact behaviour for every payload proved."
  },
  {
   "property": "C34",
   "status": "proved",
   "theorems": [
    "Verif.Props.C34_one_emission",
    "Verif.Props.C34_one_emission_ack",
    "Verif.Props.C34_used_up"
   ],
   "note": ""
  },
  {
   "property": "C35",
   "status": "proved",
   "theorems": [
    "Verif.Props.C35_drop_reason",
    "Verif.Props.C35_all_written",
    "Verif.Props.C35_returns",
    "Verif.Props.C35_order"
   ],
   "note": "Every interleaving of writers and transport changes. C35_returns: writes come to an end, if no goroutine is forgotten by the scheduler and a write to the transport returns."
  },
  {
   "property": "C36",
   "status": "proved",
   "theorems": [
    "Verif.Props.C36_reserved",
    "Verif.Props.C36_accepted",
    "Verif.Props.C36_parent"
   ],
   "note": ""
  },
  {
   "property": "C37",
   "status": "proved",
   "theorems": [
    "Verif.Props.C37_options_roundtrip"
   ],
   "note": ""
  },
  {
   "property": "C38",
   "status": "proved",
   "theorems": [
    "Verif.Props.C38_exactly_once",
    "Verif.Props.C38_never_more",
    "Verif.Props.C38_can_drain",
    "Verif.Props.C38_clients"
   ],
   "note": "transport contract: every published message is delivered once to every other server"
  },
  {
   "property": "C39",
   "status": "proved",
   "theorems": [
    "Verif.Props.C38_exactly_once",
    "Verif.Props.C39_join",
    "Verif.Props.C39_leave",
    "Verif.Props.C39_disconnect"
   ],
   "note": ""
  },
  {
   "property": "C40",
   "status": "proved",
   "theorems": [
    "Verif.Props.C40_count",
    "Verif.Props.C40_steady",
    "Verif.Props.C40_silent",
    "Verif.Props.C40_never_self",
    "Verif.Props.C40_answers"
   ],
   "note": "messages and clean-ups handled one at a time, any order of visiting the nodes"
  },
  {
   "property": "C41",
   "status": "partial",
   "theorems": [
    "Verif.Props.C41_waits_partial",
    "Verif.Props.C41_resolves_partial",
    "Verif.Props.C41_timeout_partial",
    "Verif.Props.C41_once_partial",
    "Verif.Props.C41_called_partial",
    "Verif.Props.C41_values",
    "Verif.Props.C41_twice_false",
    "Verif.Props.C41_in_turn",
    "Verif.Props.C41_in_the_end_partial"
   ],
   "note": "Proved in full when responses, departures and timers are handled one at a time. False for concurrent responses (C41_twice_false: the callback is called twice); in every interleaving it is called at least once (C41_called_partial)."
  },
  {
   "property": "C42",
   "status": "partial",
   "theorems": [
    "Verif.Props.C42_false",
    "Verif.Props.C42_plain_partial",
    "Verif.Props.C42_broadcast_partial"
   ],
   "note": "False for the heartbeat adapter: fetch and server-side-emit responses given to OnMessage are lost (C42_false)."
  },
  {
   "property": "C43",
   "status": "partial",
   "theorems": [
    "Verif.Props.C43_false",
    "Verif.Props.C43_heartbeat_partial"
   ],
   "note": "False for the base cluster adapter, for every reported count (C43_false); holds for the heartbeat adapter."
  },
  {
   "property": "C44",
   "status": "proved",
   "theorems": [
    "Verif.Props.C38_exactly_once",
    "Verif.Props.C44_others_once",
    "Verif.Props.C44_reserved",
    "Verif.Props.C44_answer_once"
   ],
   "note": ""
  },
  {
   "property": "C45",
   "status": "partial",
   "theorems": [
    "Verif.Props.C45_complete_partial",
    "Verif.Props.C45_once_partial",
    "Verif.Props.C45_expired",
    "Verif.Props.C45_local_false"
   ],
   "note": "proved when all servers are known to the caller and every client answers with one value, closures one at a time; false with the Local flag (C45_local_false), and for other payloads as C32"
  },
  {
   "property": "C46",
   "status": "proved",
   "theorems": [
    "Verif.Props.C46_whole_packets",
    "Verif.Props.C46_contiguous"
   ],
   "note": "Every interleaving of writers; mutex by its contract."
  },
  {
   "property": "C47",
   "status": "partial",
   "theorems": [
    "Verif.Props.C47_partial",
    "Verif.Props.C47_fail"
   ],
   "note": "False: every event is dispatched in a goroutine of its own. Proved when an event comes to its end before the next arrives."
  },
  {
   "property": "C48",
   "status": "partial",
   "theorems": [
    "Verif.Props.C48_partial",
    "Verif.Props.C48_stays_partial",
    "Verif.Props.C48_joins_partial",
    "Verif.Props.C48_nobody_leaves_partial",
    "Verif.Props.C48_joined_partial",
    "Verif.Props.C48_left",
    "Verif.Props.C48_cleared",
    "Verif.Props.C48_in_turn",
    "Verif.Props.C48_returns",
    "Verif.Props.C48_lost_fail",
    "Verif.Props.C48_same_socket_fail"
   ],
   "note": "False: a leave that saw the room empty deletes it after a concurrent join (C48_lost_fail), and concurrent calls about one socket mix up the two tables (C48_same_socket_fail). Proved for calls made one after the other per socket, interleaving between sockets, in rooms not deleted meanwhile; C48_stays_partial: a room somebody stays in is not deleted; C48_joins_partial, C48_nobody_leaves_partial: joins succeed however the calls overlap, also those about one socket, as long as no call takes the socket out of the room and nobody makes it empty. C48_joined_partial, C48_left, C48_cleared: what one call has done when it returns, whatever happened before and whatever else happens meanwhile that does not undo it. C48_in_turn: calls that do not overlap do what the call-level model of C01 does."
  },
  {
   "property": "C49",
   "status": "partial",
   "theorems": [
    "Verif.Props.C49_partial",
    "Verif.Props.C49_every_partial",
    "Verif.Props.C49_in_the_end",
    "Verif.Props.C49_later",
    "Verif.Props.C49_fail",
    "Verif.Props.C49_session_fail",
    "Verif.Props.C49_handler_fail",
    "Verif.Props.C49_in_turn"
   ],
   "note": "False: the check and the flag are separate steps (C49_fail); the second closer saves a session without rooms (C49_session_fail); a \"disconnecting\" handler that disconnects never returns (C49_handler_fail). Proved when nobody starts closing while another call is under way; under every interleaving each call emits at most once, all of them together at least once, and later calls nothing."
  },
  {
   "property": "C50",
   "status": "partial",
   "theorems": [
    "Verif.Props.C50_order_partial",
    "Verif.Props.C50_notified",
    "Verif.Props.C50_fail"
   ],
   "note": "Proved if the listeners are made from different function literals; closures of the same literal are confused (C50_fail)."
  },
  {
   "property": "C51",
   "status": "partial",
   "theorems": [
    "Verif.Props.C51_methods",
    "Verif.Props.C51_which",
    "Verif.Props.C51_not_modified",
    "Verif.Props.C51_file_partial",
    "Verif.Props.C51_inside_partial",
    "Verif.Props.C51_fail",
    "Verif.Props.C51_setPath"
   ],
   "note": "Methods and entity tags are proved. A path with a question mark opens other names in the directory or, ending in .., the directory above (C51_fail); C51_inside_partial: nothing beyond that."
  },
  {
   "property": "C52",
   "status": "proved",
   "theorems": [
    "Verif.Props.C52_assign",
    "Verif.Props.C52_twice",
    "Verif.Props.C52_cluster"
   ],
   "note": "the options of the engine are a parameter with the same contract"
  },
  {
   "property": "C53",
   "status": "partial",
   "theorems": [
    "Verif.Props.C53_all",
    "Verif.Props.C53_select",
    "Verif.Props.C53_kept",
    "Verif.Props.C53_select_partial",
    "Verif.Props.C53_offsets_fail",
    "Verif.Props.C53_ack_fail"
   ],
   "note": "Emitting without a selection is proved; with a selection it is proved without recovery. With recovery in several children the offsets accumulate (C53_select says how, C53_offsets_fail that this differs); with an acknowledgement nothing is delivered (C53_ack_fail)."
  },
  {
   "property": "C54",
   "status": "partial",
   "theorems": [
    "Verif.Props.C54_registered",
    "Verif.Props.C54_gate",
    "Verif.Props.C54_error",
    "Verif.Props.C54_one_outcome",
    "Verif.Props.C54_reaches",
    "Verif.Props.C54_refused",
    "Verif.Props.C54_disconnected_partial",
    "Verif.Props.C54_race_fail"
   ],
   "note": "C54_registered and C54_gate need no assumption; C54_error and C54_one_outcome assume that no middleware calls next twice. The check for disconnection is a separate step (C54_race_fail)."
  },
  {
   "property": "C55",
   "status": "partial",
   "theorems": [
    "Verif.Props.C55_keeps_receiving_partial",
    "Verif.Props.C55_twins_fail"
   ],
   "note": "Assumes that no two open sockets share an id (C61_honest_partial: so if clients ask for a namespace only while they have no open socket there and for a session only by a private id that no open socket has). Otherwise false (C55_twins_fail): two sockets recovered from one session."
  },
  {
   "property": "C56",
   "status": "partial",
   "theorems": [
    "Verif.Props.C56_partial",
    "Verif.Props.C56_replay_partial",
    "Verif.Props.C56_live_partial",
    "Verif.Props.C56_once",
    "Verif.Props.C56_lost_fail",
    "Verif.Props.C56_twice_fail",
    "Verif.Props.C56_cleaned_fail",
    "Verif.Props.C56_panic_fail",
    "Verif.Props.C56_in_turn"
   ],
   "note": "False: a packet broadcast between the collection of the missed packets and the registration of the socket is lost (C56_lost_fail), one that surrounds both is sent twice (C56_twice_fail), and the clean-up timer makes the collection skip packets or panic (C56_cleaned_fail, C56_panic_fail). Proved when nobody broadcasts during the recovery (C56_partial); C56_replay_partial and C56_live_partial say what holds whatever is broadcast meanwhile."
  },
  {
   "property": "C57",
   "status": "partial",
   "theorems": [
    "Verif.Props.C57_emit_only_self_partial",
    "Verif.Props.C57_emit_only_self_false",
    "Verif.Props.C57_server_partial",
    "Verif.Props.C57_server_fails",
    "Verif.Props.C57_before_fails"
   ],
   "note": "With recovery, Emit is a broadcast to the room named after the socket id; another socket in that room also receives it, and a socket that is not in it (left it, or is still with the middlewares, C57_before_fails) receives nothing. C57_server_partial is about every history of a running server; without recovery it has no further hypothesis."
  },
  {
   "property": "C58",
   "status": "partial",
   "theorems": [
    "Verif.Props.C58_reconnect_in_time_partial",
    "Verif.Props.C58_reconnect_in_time_false"
   ],
   "note": "False for an idle client whose last packet has been pruned."
  },
  {
   "property": "C59",
   "status": "partial",
   "theorems": [
    "Verif.Props.C59_exact_partial",
    "Verif.Props.C59_sequential_partial",
    "Verif.Props.C59_fail"
   ],
   "note": "False for slices with spare capacity (C59_fail). Proved for slices without, under every interleaving; and for calls one after the other."
  },
  {
   "property": "C60",
   "status": "partial",
   "theorems": [
    "Verif.Props.C60_partial",
    "Verif.Props.C60_rejected_partial",
    "Verif.Props.C60_double_next_fails",
    "Verif.Props.C60_reject_then_accept"
   ],
   "note": "false as stated; both counterexamples are proved. Proved for every socket whose own next functions are called at most once each, whatever happens to the others."
  },
  {
   "property": "C61",
   "status": "partial",
   "theorems": [
    "Verif.Props.C61_one_each_partial",
    "Verif.Props.C61_ids_partial",
    "Verif.Props.C61_honest_partial",
    "Verif.Props.C61_fail",
    "Verif.Props.C61_unnoticed_fail"
   ],
   "note": "False: a second CONNECT while the middlewares of the first are running gives a second socket (C61_fail). Proved for clients that do not ask for a namespace while they have an open socket there. With recovery, a client that comes back before the server has noticed the loss of its previous, recovered connection gets a second socket with the same id and is then dropped from the namespace (C61_unnoticed_fail); no two open sockets share an id if clients ask for sessions only by private ids that no open socket has (C61_honest_partial)."
  },
  {
   "property": "C62",
   "status": "proved",
   "theorems": [
    "Verif.Props.C62_end_to_end",
    "Verif.Props.C62_sound",
    "Verif.Props.C62_no_panic"
   ],
   "note": "atomic steps (C56 has the race)"
  },
  {
   "property": "C63",
   "status": "partial",
   "theorems": [
    "Verif.Props.C63_partial",
    "Verif.Props.C63_registered",
    "Verif.Props.C63_of_fail",
    "Verif.Props.C63_join_fail",
    "Verif.Props.C63_in_turn"
   ],
   "note": "False: Load and Store are separate. Proved for calls that start after the namespace exists while nobody else is creating it, and for goroutines that do not overlap (C63_in_turn)."
  },
  {
   "property": "C64",
   "status": "partial",
   "theorems": [
    "Verif.Props.C64_respected",
    "Verif.Props.C64_defaults_partial",
    "Verif.Props.C64_defaults_fail",
    "Verif.Props.C64_attach",
    "Verif.Props.C64_attach_path",
    "Verif.Props.C64_heartbeat"
   ],
   "note": "The defaults of the recovery are missing when an adapter is chosen explicitly (C64_defaults_fail); everything else is proved."
  },
  {
   "property": "C65",
   "status": "partial",
   "theorems": [
    "Verif.Props.C65_partial",
    "Verif.Props.C65_quiet_partial",
    "Verif.Props.C65_saved_partial",
    "Verif.Props.C65_fail",
    "Verif.Props.C65_lost_fail",
    "Verif.Props.C65_join_in_turn",
    "Verif.Props.C65_close_in_turn",
    "Verif.Props.C65_returns",
    "Verif.Props.C65_closed_in_the_end",
    "Verif.Props.C65_too_late",
    "Verif.Props.C65_no_more"
   ],
   "note": "False: a Join that overlaps the close leaves the dead socket in a room for good (C65_fail), and a Join that returned before the disconnection may be missing from the saved session (C65_lost_fail). Proved: only rooms of overlapping Joins can stay, and everything joined before the close began is saved if one goroutine closes."
  },
  {
   "property": "C66",
   "status": "partial",
   "theorems": [
    "Verif.Props.C66_partial",
    "Verif.Props.C66_local_partial",
    "Verif.Props.C66_fail",
    "Verif.Props.C66_decoder_fail"
   ],
   "note": "False: a client answering an acknowledgement asked through a RemoteSocket with one value that is not an array crashes the process (C66_fail). Otherwise proved, assuming that the decoder gives data of the shape of the packet type; the assumption is needed (C66_decoder_fail)."
  },
  {
   "property": "C67",
   "status": "partial",
   "theorems": [
    "Verif.Props.C67_partial",
    "Verif.Props.C67_fail",
    "Verif.Props.C67_error_fail"
   ],
   "note": "Proved for disconnecting and disconnect if the decoder refuses reserved names; the server itself does not (C67_fail). error is not reserved and can always be forged (C67_error_fail)."
  },
  {
   "property": "C68",
   "status": "proved",
   "theorems": [
    "Verif.Props.C68",
    "Verif.Props.C68_any",
    "Verif.Props.C68_packet",
    "Verif.Props.C68_proto3"
   ],
   "note": "payloads are those of JSON; clients of protocol 3 never ask for recovery"
  },
  {
   "property": "C69",
   "status": "partial",
   "theorems": [
    "Verif.Props.C69_fetch",
    "Verif.Props.C69_join_partial",
    "Verif.Props.C69_leave_partial",
    "Verif.Props.C69_disconnect_partial",
    "Verif.Props.C69_emit_partial",
    "Verif.Props.C69_others_fail",
    "Verif.Props.C69_left_fail"
   ],
   "note": "A remote socket addresses the room named after the id: other sockets that joined this room are affected too (C69_others_fail), and a socket that left it is not reached (C69_left_fail). Proved for programs that join and leave no room named like a socket id; C69_fetch is the part on what FetchSockets returns."
  },
  {
   "property": "C70",
   "status": "partial",
   "theorems": [
    "Verif.Props.C70_partial",
    "Verif.Props.C70_static_partial",
    "Verif.Props.C70_fail",
    "Verif.Props.C70_empty_fail"
   ],
   "note": "Proved for names that begin with a slash. False for others: the lookup by the client does not normalise the name and the second lookup does, so the client is connected to a namespace without parent and without the middlewares of the parent that admitted it (C70_fail), or to \"/\" (C70_empty_fail)."
  },
  {
   "property": "C71",
   "status": "partial",
   "theorems": [
    "Verif.Props.C71_farewell",
    "Verif.Props.C71_disconnect",
    "Verif.Props.C71_idle",
    "Verif.Props.C71_close_partial",
    "Verif.Props.C71_twins_fail",
    "Verif.Props.C71_after_fail"
   ],
   "note": "Disconnect(true) is proved for histories in which no two open sockets share an id; with a protocol 3 client that asks twice for a namespace one socket is told nothing (C71_twins_fail). Emit on a disconnected socket still writes (C71_after_fail). Engine close reasons are assumed not to be \"server namespace disconnect\"."
  },
  {
   "property": "C72",
   "status": "partial",
   "theorems": [
    "Verif.Props.C72_one_server_partial",
    "Verif.Props.C72_one_caller",
    "Verif.Props.C72_one_at_a_time",
    "Verif.Props.C72_at_once_fails"
   ],
   "note": "Proved if messages reach each server in order and a server that makes a call has received those of the earlier calls; this is so if all calls are made on one server (C72_one_caller) or each after the effects of the previous one (C72_one_at_a_time). False for calls made at the same time on two servers, even with an ordered transport (C72_at_once_fails). Publishing must not fail."
  },
  {
   "property": "C73",
   "status": "partial",
   "theorems": [
    "Verif.Props.C73_counted_partial",
    "Verif.Props.C73_gone_partial",
    "Verif.Props.C73_silent",
    "Verif.Props.C73_running_fails",
    "Verif.Props.C73_broadcaster_fails",
    "Verif.Props.C73_gone_fails"
   ],
   "note": "Proved for a server whose heartbeats were started, if timeout >= interval + timer slack + message delay. Nothing in the repository calls Init, so a server that asks nothing is never counted (C73_silent, C73_running_fails); broadcasts go through the Publish of the base adapter and start no heartbeats, so a server that only broadcasts is given up while it runs (C73_broadcaster_fails). A closed adapter still answers INITIAL_HEARTBEAT and is then counted again, unless the transport stops delivering to it (C73_gone_fails)."
  },
  {
   "property": "C74",
   "status": "partial",
   "theorems": [
    "Verif.Props.C74_once",
    "Verif.Props.C74_reached_partial",
    "Verif.Props.C74_reached_in_the_end_partial",
    "Verif.Props.C74_all_partial",
    "Verif.Props.C74_all_in_the_end_partial",
    "Verif.Props.C74_elsewhere_partial",
    "Verif.Props.C74_excepted_partial",
    "Verif.Props.C74_absent",
    "Verif.Props.C74_present",
    "Verif.Props.C74_unknown",
    "Verif.Props.C74_alone",
    "Verif.Props.C74_in_turn",
    "Verif.Props.C74_moved_fails",
    "Verif.Props.C74_except_fails"
   ],
   "note": "Nobody is reached twice and nobody who is not in the namespace is reached (no assumption). Proved for sockets that stay in one of the rooms broadcast to until they are reached, stay in one of the excepted rooms, or have nothing to do with them during the call. False for a socket that moves from one of the rooms to another (missed, C74_moved_fails) or that joins the excepted room first and then the room broadcast to (reached, C74_except_fails): the rooms are read one after the other. Range is assumed to go through the keys there are when it begins."
  },
  {
   "property": "C75",
   "status": "partial",
   "theorems": [
    "Verif.Props.C75_settled_partial",
    "Verif.Props.C75_bounded_partial",
    "Verif.Props.C75_event_fails",
    "Verif.Props.C75_catchall_fails",
    "Verif.Props.C75_ack_fails"
   ],
   "note": "True once no goroutine is at work for the socket (C75_settled_partial); in general the calls made after disconnect are bounded by the packets already received and the deliveries already begun (C75_bounded_partial). False as stated: the test of Connected and the call of the listeners are two steps (C75_event_fails), and catch-all listeners and acknowledgement callbacks are called without any test (C75_catchall_fails, C75_ack_fails)."
  },
  {
   "property": "C76",
   "status": "proved",
   "theorems": [
    "Verif.Props.C76_only",
    "Verif.Props.C76_here",
    "Verif.Props.C76_there",
    "Verif.Props.C76_once",
    "Verif.Props.C76_called",
    "Verif.Props.C76_settled",
    "Verif.Props.C76_error_once",
    "Verif.Props.C76_over"
   ],
   "note": "C76_once needs that no id is used on two servers meanwhile; C76_called, that publishing does not fail and the timer has not fired"
  },
  {
   "property": "C77",
   "status": "partial",
   "theorems": [
    "Verif.Props.C77_nothing_left_partial",
    "Verif.Props.C77_told_partial",
    "Verif.Props.C77_refused",
    "Verif.Props.C77_connected",
    "Verif.Props.C77_left_partial",
    "Verif.Props.C77_out",
    "Verif.Props.C77_ghost_fails",
    "Verif.Props.C77_clear_fails",
    "Verif.Props.C77_order_fails",
    "Verif.Props.C77_name_fails",
    "Verif.Props.C77_in_turn",
    "Verif.Props.C77_leave_in_turn",
    "Verif.Props.C77_close_in_turn",
    "Verif.Props.C77_in_the_end_partial"
   ],
   "note": "False: if the connection closes between the test that it is open and the moment the client knows the socket, the socket stays connected for ever (C77_ghost_fails, C77_clear_fails); if it closes just after, disconnect is emitted before connection (C77_order_fails); a socket disconnected before the client has noted its namespace leaves its name with the client (C77_name_fails). Proved if it closes at any other moment. C77_out holds in every interleaving."
  },
  {
   "property": "C78",
   "status": "partial",
   "theorems": [
    "Verif.Props.C78_fetch",
    "Verif.Props.C78_join",
    "Verif.Props.C78_leave",
    "Verif.Props.C78_disconnect",
    "Verif.Props.C78_all_partial",
    "Verif.Props.C78_all_fails"
   ],
   "note": "False for AllSockets, which ignores the exceptions (C78_all_fails: socket.To(room).AllSockets() contains the socket itself); proved for operators without exceptions. The other calls are proved."
  },
  {
   "property": "C79",
   "status": "proved",
   "theorems": [
    "Verif.Props.C79_parent",
    "Verif.Props.C79_child",
    "Verif.Props.C79_static",
    "Verif.Props.C79_children"
   ],
   "note": "Over all histories of Model/Registry, where calls are atomic; the listeners of an existing namespace may also come from a further Of with a listener (C25_handler_partial)."
  },
  {
   "property": "C80",
   "status": "proved",
   "theorems": [
    "Verif.Props.C80_violation",
    "Verif.Props.C80_handled",
    "Verif.Props.C80_deaf",
    "Verif.Props.C80_invalid",
    "Verif.Props.C80_error"
   ],
   "note": "C80_error over all histories of Model/World; the others over all histories of Model/Inbound that do not panic and in which the client is let into a namespace only when it is not in it (C61 says when the code ensures this)."
  },
  {
   "property": "C81",
   "status": "partial",
   "theorems": [
    "Verif.Props.C81_alone_partial",
    "Verif.Props.C81_origin",
    "Verif.Props.C81_leak",
    "Verif.Props.C81_lost",
    "Verif.Props.C81_both"
   ],
   "note": "Holds for a chain that is alone while it runs, after any history (C81_alone_partial). Fails with two chains at the same time: a modifier is taken by the other emission (C81_leak), gets lost (C81_lost) or acts on both (C81_both). In every interleaving a modifier is never left behind for chains that begin after its own has ended (C81_origin)."
  },
  {
   "property": "C82",
   "status": "partial",
   "theorems": [
    "Verif.Props.C82_disconnecting_partial",
    "Verif.Props.C82_disconnect_partial",
    "Verif.Props.C82_disconnecting_fail",
    "Verif.Props.C82_disconnect_fail"
   ],
   "note": "False when two goroutines close the socket, the second fires disconnecting after the rooms are gone (C82_disconnecting_fail), and when a Join is under way during the close (C82_disconnect_fail). Proved in every interleaving with one close, and for disconnect when every Join that overlaps the close returns before the handlers of disconnecting have."
  },
  {
   "property": "C83",
   "status": "proved",
   "theorems": [
    "Verif.Props.C83_catchall",
    "Verif.Props.C83_listeners",
    "Verif.Props.C83_plain",
    "Verif.Props.C83_once",
    "Verif.Props.C83_twice_fails"
   ],
   "note": "As conservation of events up to order, with packets as the decoder gives them. C83_twice_fails: the condition on next is needed."
  },
  {
   "property": "C84",
   "status": "partial",
   "theorems": [
    "Verif.Props.C84_ignored",
    "Verif.Props.C84_own",
    "Verif.Props.C84_acts",
    "Verif.Props.C84_answers",
    "Verif.Props.C84_given_up",
    "Verif.Props.C84_asked",
    "Verif.Props.C84_waits",
    "Verif.Props.C84_answered",
    "Verif.Props.C84_partial",
    "Verif.Props.C84_cluster",
    "Verif.Props.C84_nil",
    "Verif.Props.C84_fails"
   ],
   "note": "Holds in a cluster of servers that run this code (C84_cluster) and for messages that make sense (C84_partial). Fails for arbitrary messages: C84_fails shows that each of the five conditions of C84_partial is needed (nil data pointer, no packet, event without argument list, nil socket, answer of the wrong kind)."
  },
  {
   "property": "C85",
   "status": "partial",
   "theorems": [
    "Verif.Props.C85_partial",
    "Verif.Props.C85_own",
    "Verif.Props.C85_created",
    "Verif.Props.C85_stale_fails"
   ],
   "note": "Proved for all histories in which every middleware calls next once, no two open sockets have the same id and disconnecting listeners touch only their own socket. False without the exclusion of stale objects: Leave on a socket that is over takes the socket that recovered its session out of the room (C85_stale_fails)."
  },
  {
   "property": "C86",
   "status": "partial",
   "theorems": [
    "Verif.Props.C86_partial",
    "Verif.Props.C86_join_partial",
    "Verif.Props.C86_leave_partial",
    "Verif.Props.C86_disconnect_partial",
    "Verif.Props.C86_rest_partial",
    "Verif.Props.C86_recovery_partial",
    "Verif.Props.C86_lost",
    "Verif.Props.C86_closed",
    "Verif.Props.C86_fails",
    "Verif.Props.C86_socket_fails",
    "Verif.Props.C86_recovery_fails",
    "Verif.Props.C86_close_fails"
   ],
   "note": "False: a socket keeps the adapter there was when it was made, so after SetAdapter io.Emit and FetchSockets miss the sockets that are connected, sockets made before and after do not hear each other, sessions are looked for in the wrong adapter and the old adapter is never closed (the _fails theorems). Proved for all histories: a call concerns exactly the selected sockets made under the adapter it goes through, the session is found iff the adapter is the same, and everything is as claimed when the adapter is only changed while no socket is open."
  },
  {
   "property": "C87",
   "status": "partial",
   "theorems": [
    "Verif.Props.C87_emitTo",
    "Verif.Props.C87_emit",
    "Verif.Props.C87_listed",
    "Verif.Props.C87_kept",
    "Verif.Props.C87_nothing",
    "Verif.Props.C87_fetch",
    "Verif.Props.C87_join_fails",
    "Verif.Props.C87_disconnect_fails",
    "Verif.Props.C87_fetch_fails"
   ],
   "note": "Proved for Emit without acknowledgement, over all histories with in-memory adapters. False for the rest: the adapter of a parent only overrides Broadcast, so SocketsJoin, SocketsLeave and DisconnectSockets do nothing and say nothing, and In(room).FetchSockets hands over an empty list without an error (the _fails theorems). Connections under way when a child is removed are C26."
  },
  {
   "property": "C88",
   "status": "partial",
   "theorems": [
    "Verif.Props.C88_emitter",
    "Verif.Props.C88_all",
    "Verif.Props.C88_same_partial",
    "Verif.Props.C88_order_fails"
   ],
   "note": "False when goroutines broadcast at the same time: each writes to one socket after the other, so two sockets may get two packets in different orders (C88_order_fails). Proved in every interleaving: the packets of one goroutine arrive in the order of its calls, none twice (C88_emitter), none is missing (C88_all); and the same order for all if no call begins before the others have returned (C88_same_partial)."
  },
  {
   "property": "C89",
   "status": "partial",
   "theorems": [
    "Verif.Props.C89_partial",
    "Verif.Props.C89_emitter",
    "Verif.Props.C89_lost_fails",
    "Verif.Props.C89_twice_fails"
   ],
   "note": "False when goroutines broadcast at the same time: packets are stored in one order and may be written in another, so that the packet last received does not tell what is missing; one is lost (C89_lost_fails) or comes twice (C89_twice_fails). Proved if no call begins before the others have returned (C89_partial), and in every interleaving for the packets of the goroutine whose packet came last (C89_emitter)."
  },
  {
   "property": "C90",
   "status": "partial",
   "theorems": [
    "Verif.Props.C90_which",
    "Verif.Props.C90_partial",
    "Verif.Props.C90_after_partial",
    "Verif.Props.C90_two_servers_fails",
    "Verif.Props.C90_handler_fails"
   ],
   "note": "False when the server listens in several ways: Close shuts the http server attached last only, or, if none was attached, the handler or engine made last; connections through the others stay open, and their clients may enter namespaces again (C90_which says just which; C90_two_servers_fails, C90_handler_fails). Proved for one http server, or one handler or engine (C90_partial), also for all that happens afterwards (C90_after_partial, for a handler under the assumption that a closed engine takes no connections)."
  },
  {
   "property": "C91",
   "status": "partial",
   "theorems": [
    "Verif.Props.C91_partial",
    "Verif.Props.C91_overwrites",
    "Verif.Props.C91_callback_partial",
    "Verif.Props.C91_fails",
    "Verif.Props.C91_callback_fails"
   ],
   "note": "False: EmitWithAck appends the callback to the slice it is given, so with room behind the slice it overwrites the element of the program that is there (C91_overwrites says exactly what; C91_fails), and two goroutines that share such a slice both register the second callback (C91_callback_fails). Proved for everything else: arrays into which the program does not write itself and which it does not pass with room behind to EmitWithAck never change (C91_partial), and without room the right callback is registered and the right arguments are sent under every interleaving (C91_callback_partial)."
  },
  {
   "property": "C92",
   "status": "partial",
   "theorems": [
    "Verif.Props.C92_cast",
    "Verif.Props.C92_partial",
    "Verif.Props.C92_ack_partial",
    "Verif.Props.C92_received_partial",
    "Verif.Props.C92_runs_partial",
    "Verif.Props.C92_sent_fails",
    "Verif.Props.C92_seen_fails",
    "Verif.Props.C92_replay_fails",
    "Verif.Props.C92_name_fails",
    "Verif.Props.C92_crash"
   ],
   "note": "False: listeners are called with the slice of the library itself, which is then sent to the client (C92_sent_fails), given to the next listeners (C92_seen_fails), sent again on recovery (C92_replay_fails) and looked at for the event name (C92_name_fails), with a crash if that is no string any more (C92_crash). Proved: what a broadcast sends is right whatever listeners do (C92_cast); all of it is right as long as the program does not write into the slices its listeners get, for emissions (C92_partial, C92_ack_partial), for events (C92_received_partial) and for the process (C92_runs_partial)."
  },
  {
   "property": "C93",
   "status": "partial",
   "theorems": [
    "Verif.Props.C93_partial",
    "Verif.Props.C93_room_partial",
    "Verif.Props.C93_shows_partial",
    "Verif.Props.C93_snapshot_fails",
    "Verif.Props.C93_ghost_fails",
    "Verif.Props.C93_unseen_fails"
   ],
   "note": "False: Rooms() returns the set in the adapter's table. It changes with later calls (C93_snapshot_fails); removing a room from it leaves the socket in the room for good, even after it is gone (C93_ghost_fails); adding one makes Rooms() claim a membership that deliveries do not know (C93_unseen_fails). Proved: a change concerns only the socket and the room it is about; for all others Rooms() and the deliveries go by the calls (C93_partial) and rooms exist just while they have members (C93_room_partial); and exactly what a set that was got shows later (C93_shows_partial: it follows the socket until it leaves all rooms and keeps what it had then)."
  },
  {
   "property": "C94",
   "status": "partial",
   "theorems": [
    "Verif.Props.C94_called_partial",
    "Verif.Props.C94_prompt_partial",
    "Verif.Props.C94_in_the_end_partial",
    "Verif.Props.C94_prompt_in_the_end_partial",
    "Verif.Props.C94_values",
    "Verif.Props.C94_error",
    "Verif.Props.C94_once_partial",
    "Verif.Props.C94_in_turn",
    "Verif.Props.C94_left_fails",
    "Verif.Props.C94_empty_fails",
    "Verif.Props.C94_early_fails",
    "Verif.Props.C94_both_fails",
    "Verif.Props.C94_twins_fail"
   ],
   "note": "False: a server that leaves while the request is made is waited for until the timeout (C94_left_fails), as is nobody at all if the last one does (C94_empty_fails); if the timer goes off before the request is stored and a server is silent, the callback is never called (C94_early_fails); an answer at the moment of the timeout gives two calls (C94_both_fails), as do the last two answers at the same time (C94_twins_fail; also C41_twice_false). Proved for every interleaving: otherwise the callback is called (C94_called_partial), and at most once if no two work on the request at the same time (C94_once_partial), without the timer once all asked have answered or left after the request was stored (C94_prompt_partial); every call without error has a whole answer of every server that has not left and nothing else (C94_values); there is an error only if the timer went off before any success (C94_error). When nothing overlaps, the model agrees with that of whole calls (C94_in_turn)."
  },
  {
   "property": "C95",
   "status": "partial",
   "theorems": [
    "Verif.Props.C95_partial",
    "Verif.Props.C95_stopped_partial",
    "Verif.Props.C95_returned",
    "Verif.Props.C95_closed_partial",
    "Verif.Props.C95_in_turn",
    "Verif.Props.C95_beats_fails",
    "Verif.Props.C95_twins_fail"
   ],
   "note": "False: a heartbeat that starts just before Close stops the timer refreshes it afterwards, and if that starts a stopped timer, heartbeats go on for ever (C95_beats_fails); two first messages at the same time make two timers of which Close stops one (C95_twins_fail, whatever Refresh does). Proved: if the first message is published alone and nothing is under way when Close stops the timer, nothing is sent after (C95_partial); if Refresh does not start a stopped timer, no heartbeat begins after Close, whatever overlaps it (C95_stopped_partial, C95_closed_partial); a Close that has returned has stopped the timer (C95_returned). When no two calls overlap, the model agrees with that of the servers in time (C95_in_turn)."
  },
  {
   "property": "C96",
   "status": "proved",
   "theorems": [
    "Verif.Props.C96_identity",
    "Verif.Props.C96_secret",
    "Verif.Props.C96_told",
    "Verif.Props.C96_users"
   ],
   "note": "Over all histories of Model/World. C96_users assumes that no two private ids made are the same, and that a private id is sent by a client only if a connection of the same user was told it. Payloads of DISCONNECT and protocol-3 CONNECT are empty in the model as in the code."
  },
  {
   "property": "C97",
   "status": "partial",
   "theorems": [
    "Verif.Props.C97_stays",
    "Verif.Props.C97_idle",
    "Verif.Props.C97_idle_in_the_end",
    "Verif.Props.C97_partial",
    "Verif.Props.C97_cleared_partial",
    "Verif.Props.C97_setup_in_turn",
    "Verif.Props.C97_connect_in_turn",
    "Verif.Props.C97_fires_in_turn",
    "Verif.Props.C97_fails",
    "Verif.Props.C97_late_fails",
    "Verif.Props.C97_setup_fails"
   ],
   "note": "False: the function of the timer looks at the namespaces the client has noted, which happens after the CONNECT packet was written (C97_fails), and it looks and closes in several steps (C97_late_fails). Proved: a socket that the client has noted before the timer looks is safe while it stays (C97_stays); no connected socket is cut off if none is halfway while the timer is at work (C97_partial). A socket connected before the timer has been stored leaves the timer running (C97_setup_fails; whether packets can arrive that early depends on engine.io); otherwise the timer is stopped for good (C97_cleared_partial). When nothing overlaps, the model agrees with that of the whole server (C97_setup_in_turn, C97_connect_in_turn, C97_fires_in_turn)."
  },
  {
   "property": "C98",
   "status": "proved",
   "theorems": [
    "Verif.Props.C98_agree",
    "Verif.Props.C98_server",
    "Verif.Props.C98_client",
    "Verif.Props.C98_reason"
   ],
   "note": "API calls, callbacks and goroutines are atomic steps (C77, C59 have the races). Engine close reasons are assumed not to be \"server namespace disconnect\"."
  },
  {
   "property": "C99",
   "status": "proved",
   "theorems": [
    "Verif.Props.C99_once",
    "Verif.Props.C99_wait",
    "Verif.Props.C99_answered",
    "Verif.Props.C99_attempt",
    "Verif.Props.C99_twice_fails"
   ],
   "note": "API calls, callbacks and goroutines are atomic steps. C99_twice_fails: the condition on next is needed. A middleware that never calls next leaves its client without answer."
  }
 ]
}