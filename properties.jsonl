{"id": "C01", "title": "Room membership is exactly what the joins and leaves say", "statement": "After any sequence of Join, Leave and leave-all calls on a namespace's sockets, Rooms() of a socket contains a room, and the room's member set contains the socket, exactly when the most recent call concerning that (socket, room) pair was a Join. The two indexes (socket to rooms, room to sockets) always agree and a room exists exactly while it has a member.", "quantifier": "every finite sequence of AddAll/Del/DelAll operations over any sockets and rooms, and every iteration order of the sets", "why_tests_cant": "the claim ranges over all operation histories; a test checks a handful", "anchors": ["socket/adapter.go: AddAll, Del, _del, DelAll, SocketRooms", "socket/socket.go: Join, Leave, leaveAll, Rooms"]}
{"id": "C02", "title": "Room lifecycle events mirror the room state", "statement": "The adapter's create-room and delete-room events for a room alternate, starting with create-room, and a room exists exactly when the last such event was create-room; a join-room event is emitted exactly when a socket becomes a member and every departure of a member emits exactly one leave-room; replaying the event stream therefore reconstructs the room table.", "quantifier": "every finite sequence of adapter operations", "why_tests_cant": "an adapter that mirrors rooms from events (Redis, clustering) relies on this for every history, not for sampled ones", "anchors": ["socket/adapter.go: AddAll, Del, _del, DelAll"]}
{"id": "C03", "title": "A broadcast reaches exactly the selected sockets, each once", "statement": "Emitting through To/In/Except reaches a socket if and only if it is connected to the namespace, is in at least one targeted room (or no room was targeted) and is in none of the excepted rooms; a socket that is in several targeted rooms is reached once.", "quantifier": "every adapter state, every set of targeted and excepted rooms, every iteration order", "why_tests_cant": "room sets overlap in unboundedly many ways", "anchors": ["socket/adapter.go: apply, computeExceptSids, Broadcast", "socket/broadcast-operator.go: Emit"]}
{"id": "C04", "title": "socket.To / socket.Broadcast never reach the sender", "statement": "An emission made through socket.To, socket.In, socket.Except, socket.Broadcast or socket.Local never reaches that same socket.", "quantifier": "every state of the rooms and every chain of operator calls", "why_tests_cant": "it must hold for every room membership, including rooms named after socket ids", "anchors": ["socket/socket.go: newBroadcastOperator, To, In, Except, Broadcast, Local", "socket/adapter.go: apply"]}
{"id": "C05", "title": "Broadcast operators are immutable values and chaining accumulates", "statement": "Each To/In/Except/Compress/Volatile/Local/Timeout call returns a new operator and leaves every operator obtained earlier unchanged, also when the socket the operator came from is modified later; To accumulates targeted rooms as a set union, Except accumulates excepted rooms, flag setters change only their flag, so the order in which independent modifiers are chained does not matter.", "quantifier": "every sequence of operator-building and socket-modifier calls, on every previously created operator", "why_tests_cant": "aliasing bugs only show up for particular call interleavings on shared pointers", "anchors": ["socket/broadcast-operator.go: To, In, Except, Compress, Volatile, Local, Timeout, Construct", "socket/socket.go: newBroadcastOperator, Compress, Volatile, Timeout"]}
{"id": "C06", "title": "Bulk join and leave act on exactly the selected sockets", "statement": "SocketsJoin(rooms) makes precisely the sockets selected at the time of the call members of all given rooms and changes no other membership; SocketsLeave(rooms) removes precisely those sockets from the given rooms and changes no other membership, even though membership changes while the selection is being iterated.", "quantifier": "every adapter state, selection and list of rooms, every iteration order", "why_tests_cant": "the operation mutates the structure it iterates; tests cover few overlaps", "anchors": ["socket/adapter.go: AddSockets, DelSockets, apply", "socket/broadcast-operator.go: SocketsJoin, SocketsLeave"]}
{"id": "C07", "title": "Bulk disconnect acts on exactly the selected sockets", "statement": "DisconnectSockets(false) disconnects every selected socket and leaves every other socket connected with its rooms unchanged.", "quantifier": "every server state, every selection", "why_tests_cant": "same as bulk join: iteration over a structure being mutated, for all states", "anchors": ["socket/adapter.go: DisconnectSockets, apply", "socket/socket.go: Disconnect, _onclose"]}
{"id": "C08", "title": "A disconnected socket is gone", "statement": "Once a socket has been disconnected it is in no room, it is not in the namespace's Sockets(), no broadcast reaches it, FetchSockets does not return it and Join has no effect on it.", "quantifier": "every reachable server state and every way of disconnecting; of the middlewares it is asked that none calls the next function it was given for this socket more than once (otherwise C60 says what happens)", "why_tests_cant": "needs an invariant over every history of connects, joins, disconnects", "anchors": ["socket/socket.go: _onclose, _cleanup, Join", "socket/namespace.go: Remove", "socket/adapter.go: DelAll, apply"]}
{"id": "C09", "title": "Recovery selects the same packets a live broadcast would", "statement": "The rule that decides whether a stored packet is replayed to a recovering session is the same rule that decides whether the broadcast reaches a connected socket with those rooms.", "quantifier": "every set of session rooms, every broadcast options, every iteration order", "why_tests_cant": "the two rules are separate pieces of code; their agreement is a statement over all room sets", "anchors": ["socket/session-aware-adapter.go: shouldIncludePacket", "socket/adapter.go: apply"]}
{"id": "C10", "title": "Recovery replays exactly the packets missed, in order", "statement": "When a session is restored with an offset, the replayed packets are exactly the stored packets emitted after that offset that match the session's rooms, in emission order, with none missing, duplicated or invented, whatever broadcasts, persists and clean-ups happened before.", "quantifier": "every history of broadcasts, session persists, clock advances and clean-up timer runs", "why_tests_cant": "depends on every interleaving of pruning with emission", "anchors": ["socket/session-aware-adapter.go: RestoreSession, Broadcast, Construct (interval)"]}
{"id": "C11", "title": "Sessions and packets live exactly as long as configured", "statement": "A session is never restored later than MaxDisconnectionDuration after the disconnection, is never discarded by the clean-up timer while it could still be restored, and a packet younger than MaxDisconnectionDuration is never discarded.", "quantifier": "every history with a non-decreasing clock, every timer schedule", "why_tests_cant": "boundary instants and timer schedules are unbounded", "anchors": ["socket/session-aware-adapter.go: Construct (interval), PersistSession, RestoreSession"]}
{"id": "C12", "title": "Which packets are stored for recovery, and the offset they carry", "statement": "With connection state recovery enabled, a broadcast is stored for replay exactly when it is an event without acknowledgement that is not volatile; exactly then one offset is appended as the last argument, the stored offset equals the one on the wire, and no two stored packets have the same offset.", "quantifier": "every sequence of broadcasts", "why_tests_cant": "offset uniqueness and agreement range over whole histories", "anchors": ["socket/session-aware-adapter.go: Broadcast"]}
{"id": "C13", "title": "A recovered session is used at most once", "statement": "A given private session id restores at most one connection: after a successful restore the same id and offset cannot be used again unless the socket disconnected again in the meantime.", "quantifier": "every history of persists and restores", "why_tests_cant": "requires reasoning over all later histories", "anchors": ["socket/session-aware-adapter.go: RestoreSession", "socket/namespace.go: _createSocket"]}
{"id": "C14", "title": "Sessions are saved exactly on recoverable disconnections", "statement": "When recovery is enabled, a socket's session (id, rooms, data) is saved if and only if the disconnect reason is one of the recoverable reasons, the saved rooms are those the socket was in when it disconnected, and an explicit disconnect by either side never saves a session.", "quantifier": "every reachable state and every disconnect reason; of the middlewares it is asked that none calls the next function it was given for this socket more than once (C60), for the contents of the session that ids are unique and listeners of disconnecting only touch the rooms of their own socket", "why_tests_cant": "holds for all reasons and all room states", "anchors": ["socket/socket.go: _onclose, RECOVERABLE_DISCONNECT_REASONS, Disconnect, ondisconnect"]}
{"id": "C15", "title": "A recovered socket gets its identity, rooms and data back", "statement": "A connection whose session is restored has the same socket id, private id and data, is in all the rooms saved in the session, is flagged as recovered, and is sent the missed packets in order; a connection without a valid session gets a fresh id and is not flagged.", "quantifier": "every session, every missed-packet list, every server state", "why_tests_cant": "ranges over all sessions and states", "anchors": ["socket/socket.go: Construct", "socket/namespace.go: _createSocket, parseSessionData", "socket/namespace-type.go: GetPid, GetOffset"]}
{"id": "C16", "title": "Middleware gate", "statement": "A socket becomes connected (CONNECT packet sent, visible in Sockets(), connection event fired) only after every middleware registered at that time called next without error in registration order, or the session was recovered with SkipMiddlewares; the first error stops the chain.", "quantifier": "every number of middlewares, every pattern and timing of next calls, every interleaving with other activity; only for the last clause (the first error stops the chain) it is asked that no middleware calls the next function it was given for this socket more than once (C60)", "why_tests_cant": "authorization must hold for every schedule", "anchors": ["socket/namespace.go: run, Add, _doConnect, Use"]}
{"id": "C17", "title": "A rejected connection leaves nothing behind", "statement": "If a middleware rejects a connection the client receives a CONNECT_ERROR carrying the error's message and data, no connection event fires, and the socket is in no room and not in Sockets(), even if the middleware made it join rooms.", "quantifier": "every state, every rejection, every room joined during the middleware; of the middlewares it is asked that none calls the next function it was given for this socket more than once (C60)", "why_tests_cant": "ranges over all intermediate room states", "anchors": ["socket/namespace.go: Add", "socket/socket.go: _cleanup, _error"]}
{"id": "C18", "title": "Client packet routing", "statement": "A CONNECT packet is only honoured for a namespace the client is not yet in, any other packet is only delivered to the socket of the namespace it names, and every other combination closes the connection; packets never cross namespaces.", "quantifier": "every client state and every packet; for the delivery to the socket, of clients that do not ask for a namespace twice at the same time (C61)", "why_tests_cant": "the full decision table over all states", "anchors": ["socket/client.go: ondecoded, connect, doConnect, close"]}
{"id": "C19", "title": "Lifecycle events of a socket are well-formed", "statement": "For every socket, disconnecting and disconnect fire in this order exactly once per connection, with the same reason, only after connection fired, and the socket is Connected() exactly between them.", "quantifier": "every reachable server history, every socket for which no middleware calls its next function twice (see C60 for those for which one does)", "why_tests_cant": "an invariant over all histories, including duplicate close causes", "anchors": ["socket/socket.go: _onconnect, _onclose, Disconnect", "socket/namespace.go: _doConnect", "socket/client.go: onclose, _disconnect"]}
{"id": "C20", "title": "Closing the transport disconnects every socket of the client", "statement": "When the underlying connection closes, every socket of that client in every namespace is disconnected with the close reason, and afterwards the client has no socket and no namespace entry left.", "quantifier": "every reachable state, every close reason", "why_tests_cant": "ranges over all sets of joined namespaces and all pending connections", "anchors": ["socket/client.go: onclose, destroy, _remove", "socket/socket.go: _onclose"]}
{"id": "C21", "title": "CONNECT comes first", "statement": "On every namespace the first packet the client receives after asking to connect is the CONNECT (or CONNECT_ERROR) packet, and events follow it.", "quantifier": "every history", "why_tests_cant": "a statement about all emission schedules", "anchors": ["socket/socket.go: Construct, _onconnect", "socket/namespace.go: Add, _createSocket"]}
{"id": "C22", "title": "Namespace registration invariant", "statement": "In every state between two events, each entry of a namespace's Sockets() is a connected socket of that namespace stored under its own id, each entry of a client's socket table belongs to that client and is connected, and each namespace's room tables are consistent.", "quantifier": "every reachable state of the server", "why_tests_cant": "an inductive invariant over unbounded histories", "anchors": ["socket/namespace.go: _doConnect, Remove", "socket/client.go: doConnect, _remove", "socket/socket.go: _onclose"]}
{"id": "C23", "title": "Namespaces are isolated", "statement": "An operation on a socket or room of one namespace changes neither the rooms, members, sessions nor acknowledgement ids of any other namespace.", "quantifier": "every state and every namespace-local operation", "why_tests_cant": "quantifies over all states and all pairs of namespaces", "anchors": ["socket/namespace.go", "socket/adapter.go", "socket/server.go: Of"]}
{"id": "C24", "title": "Dynamic namespace admission", "statement": "A client asking for a namespace that does not exist is admitted exactly when one of the registered parent matchers allows it, in which case the namespace is created once as a child of the first allowing parent; otherwise the client receives exactly one 'Invalid namespace' error and nothing is created.", "quantifier": "every set of matchers, every traversal order, every outcome of the matchers", "why_tests_cant": "all matcher behaviours, including late answers", "anchors": ["socket/server.go: _checkNamespace, Of", "socket/client.go: connect", "socket/parent-namespace.go: CreateChild"]}
{"id": "C25", "title": "Of is a stable name lookup", "statement": "Of(name) normalizes the name ('' to '/', a missing leading slash is added), is idempotent, always returns the same namespace for equivalent names, announces each created namespace once, and registers the given handler on the namespace it returns.", "quantifier": "every name and every sequence of Of calls", "why_tests_cant": "ranges over all strings and histories", "anchors": ["socket/server.go: Of"]}
{"id": "C26", "title": "Empty child namespaces are cleaned up only when empty", "statement": "With CleanupEmptyChildNamespaces, a child namespace is removed when its last socket leaves; a namespace that has a connected socket, or that a client is being connected to, is never removed.", "quantifier": "every history of connects, rejections and disconnects", "why_tests_cant": "depends on all interleavings of pending connections with departures", "anchors": ["socket/parent-namespace.go: CreateChild", "socket/namespace.go: Remove, Cleanup"]}
{"id": "C27", "title": "Server close disconnects everyone", "statement": "Server.Close disconnects every socket of every namespace with reason 'server shutting down' (saving sessions if recovery is enabled) and afterwards no namespace has sockets.", "quantifier": "every reachable state", "why_tests_cant": "ranges over all server states", "anchors": ["socket/server.go: Close"]}
{"id": "C28", "title": "Connect timeout only closes idle clients", "statement": "The connect-timeout closes a client if and only if it has joined no namespace when the timer fires; joining a namespace or closing the connection cancels the timer.", "quantifier": "every schedule of the timer relative to joins", "why_tests_cant": "timer schedules are unbounded", "anchors": ["socket/client.go: setup, doConnect, destroy"]}
{"id": "C29", "title": "Acknowledgement callbacks fire at most once", "statement": "A callback passed to socket.Emit is invoked at most once: either with the client's answer or, if a timeout was set, with an error; an answer after the timeout, a duplicate answer and an answer with an unknown id have no effect.", "quantifier": "every interleaving of answers, duplicates and timer expiry", "why_tests_cant": "all orders of network and timer events, including concurrent handling of packets", "anchors": ["socket/socket.go: Emit, registerAckCallback, onack"]}
{"id": "C30", "title": "Acknowledgement ids never collide", "statement": "No two outstanding acknowledgement requests in a namespace share an id, whether issued by socket.Emit or by broadcasts, in any interleaving of concurrent emitters (up to 2^64 requests).", "quantifier": "every interleaving of concurrent id requests", "why_tests_cant": "concurrency schedules are unbounded", "anchors": ["socket/namespace.go: Ids", "socket/socket.go: Emit", "socket/adapter.go: BroadcastWithAck"]}
{"id": "C31", "title": "An incoming event is acknowledged at most once", "statement": "The acknowledgement function handed to an event handler sends at most one ACK packet, with the id of the event and the first arguments given, however often and from however many goroutines it is called.", "quantifier": "every interleaving of calls", "why_tests_cant": "concurrency schedules", "anchors": ["socket/socket.go: ack, onevent"]}
{"id": "C32", "title": "Broadcast acknowledgements: complete, once, one response per client", "statement": "A broadcast with acknowledgement calls its callback exactly once: with one response per reached client as soon as every server has reported and every reached client has answered, or with an error and the responses so far at the timeout, whichever is first.", "quantifier": "every number of servers and clients, every arrival order of counts and answers, every answer payload, every timer instant", "why_tests_cant": "all arrival orders and payload shapes", "anchors": ["socket/broadcast-operator.go: Emit (checkCompleteness)", "socket/adapter.go: BroadcastWithAck"]}
{"id": "C33", "title": "RemoteSocket acknowledgements behave like socket.Emit", "statement": "remoteSocket.Emit with an acknowledgement calls the callback with the arguments the client answered with.", "quantifier": "every answer payload", "why_tests_cant": "all payload shapes", "anchors": ["socket/broadcast-operator.go: Emit (ExpectSingleResponse)", "socket/remote-socket.go: Construct, Emit"]}
{"id": "C34", "title": "Socket modifiers apply to exactly one emission", "statement": "Compress, Volatile and Timeout set on a socket apply to the next emission or operator creation and to no later one.", "quantifier": "every sequence of modifier and emit calls", "why_tests_cant": "sequences are unbounded", "anchors": ["socket/socket.go: Emit, newBroadcastOperator, Compress, Volatile, Timeout"]}
{"id": "C35", "title": "Volatile packets may be dropped, others never", "statement": "A packet is dropped at the server only if it is volatile and the transport is not writable, or the connection is no longer open; every other packet is handed to the transport, in order.", "quantifier": "every packet, flag combination and transport state", "why_tests_cant": "all combinations and sequences", "anchors": ["socket/client.go: _packet, WriteToEngine"]}
{"id": "C36", "title": "Reserved event names are refused without side effects", "statement": "Emitting a reserved event name returns an error, sends nothing, registers no callback, consumes no acknowledgement id and leaves pending modifiers in place; every other name is accepted.", "quantifier": "every event name and state", "why_tests_cant": "all names and states", "anchors": ["socket/socket.go: Emit, SOCKET_RESERVED_EVENTS", "socket/broadcast-operator.go: Emit", "socket/namespace.go: ServerSideEmit"]}
{"id": "C37", "title": "Cluster option encoding preserves the selection", "statement": "Encoding broadcast options for the wire and decoding them on another server selects exactly the same sockets, with the same flags, for all options including nil ones.", "quantifier": "every broadcast options value and adapter state", "why_tests_cant": "all option values", "anchors": ["adapter/util.go: EncodeOptions, DecodeOptions"]}
{"id": "C38", "title": "Cluster broadcast reaches every server exactly once", "statement": "A broadcast on one server of a cluster is applied exactly once on every server (the publisher included) for any delivery order of the published messages, only locally with the Local flag, and not at all if publishing fails.", "quantifier": "every number of servers, every delivery order, every state", "why_tests_cant": "unbounded clusters and schedules", "anchors": ["adapter/cluster-adapter.go: Broadcast, OnMessage, PublishAndReturnOffset"]}
{"id": "C39", "title": "Cluster join, leave and disconnect act on every server", "statement": "SocketsJoin, SocketsLeave and DisconnectSockets on one server act on exactly the selected sockets of every server, and only on the local ones with the Local flag.", "quantifier": "every cluster, selection, delivery order", "why_tests_cant": "unbounded clusters and schedules", "anchors": ["adapter/cluster-adapter.go: AddSockets, DelSockets, DisconnectSockets, OnMessage"]}
{"id": "C40", "title": "Cluster membership follows the heartbeats", "statement": "ServerCount() is one plus the number of distinct other servers heard from within the heartbeat timeout and not closed since; a server that keeps sending within the timeout is never dropped, a silent one is dropped at the first clean-up after the timeout, and neither the server itself nor the emitter id is ever counted. The announcement of every other server is answered with a heartbeat.", "quantifier": "every history of messages and clean-up ticks", "why_tests_cant": "histories are unbounded", "anchors": ["adapter/cluster-adapter-with-heartbeat.go: OnMessage, Construct (cleanup interval), removeNode, ServerCount"]}
{"id": "C41", "title": "Cluster requests resolve exactly once with every server's answer", "statement": "A cluster-wide FetchSockets or ServerSideEmit with acknowledgement calls its callback exactly once: successfully as soon as every server known at the time of the request has answered or left, with all the answers received, or with an error at the timeout; never twice and never before all have answered or left.", "quantifier": "every order of answers, duplicates, departures and timer expiry", "why_tests_cant": "unbounded interleavings", "anchors": ["adapter/cluster-adapter-with-heartbeat.go: FetchSockets, ServerSideEmit, OnResponse, removeNode"]}
{"id": "C42", "title": "Responses are recognised however they arrive", "statement": "A response handed to OnMessage (as the documentation allows implementations to do) has the same effect as the same response handed to OnResponse.", "quantifier": "every state and response", "why_tests_cant": "all states", "anchors": ["adapter/cluster-adapter.go: OnMessage, OnResponse", "adapter/cluster-adapter-with-heartbeat.go: OnMessage, OnResponse"]}
{"id": "C43", "title": "FetchSockets works across the cluster for every cluster adapter", "statement": "For an adapter built on ClusterAdapter that reports a ServerCount greater than one, FetchSockets returns the sockets of every server, not only the local ones.", "quantifier": "every state, every reported server count", "why_tests_cant": "all states and counts", "anchors": ["adapter/cluster-adapter.go: FetchSockets, ServerSideEmit (ServerCount)"]}
{"id": "C44", "title": "Server-side events reach the other servers only", "statement": "ServerSideEmit delivers the event exactly once to every other server and never to the sender, the acknowledgement function of a receiver answers at most once, and an empty event list or non-string event name is ignored.", "quantifier": "every cluster and delivery order", "why_tests_cant": "unbounded clusters and schedules", "anchors": ["adapter/cluster-adapter.go: ServerSideEmit, OnMessage", "socket/namespace.go: OnServerSideEmit"]}
{"id": "C45", "title": "Cluster broadcast acknowledgements are complete", "statement": "A broadcast with acknowledgement in a cluster completes exactly when every server's client count and every client's answer have arrived, for every arrival order over the network.", "quantifier": "every cluster size, client counts and delivery order", "why_tests_cant": "unbounded interleavings", "anchors": ["adapter/cluster-adapter.go: BroadcastWithAck, OnMessage, OnResponse", "socket/broadcast-operator.go: Emit"]}
{"id": "C46", "title": "Frames of one packet are contiguous on the connection", "statement": "The frames of a packet (text frame and its binary attachments) are written to the connection contiguously and in order, for any number of goroutines writing concurrently to the same client.", "quantifier": "every interleaving of concurrent writers", "why_tests_cant": "concurrency schedules", "anchors": ["socket/client.go: WriteToEngine"]}
{"id": "C47", "title": "Events of a client are handled in the order they were sent", "statement": "Two events received from a client on one namespace are dispatched to the handlers in the order in which they arrived.", "quantifier": "every schedule of the goroutines handling packets", "why_tests_cant": "goroutine schedules", "anchors": ["socket/client.go: ondecoded (go socket._onpacket)", "socket/socket.go: dispatch"]}
{"id": "C48", "title": "Concurrent joins and leaves keep room tables consistent", "statement": "When goroutines join and leave rooms concurrently, after all calls returned a socket whose Join was the last operation on a room is reached by broadcasts to that room, and the two indexes agree.", "quantifier": "every interleaving of the individual map and set operations", "why_tests_cant": "concurrency schedules", "anchors": ["socket/adapter.go: AddAll, _del, Del, DelAll"]}
{"id": "C49", "title": "A socket is disconnected at most once under concurrency", "statement": "The disconnect event of a connection fires at most once even if the client's disconnect packet and the transport close are handled concurrently.", "quantifier": "every interleaving of concurrent closers", "why_tests_cant": "concurrency schedules", "anchors": ["socket/socket.go: _onclose", "socket/client.go: onclose, ondecoded"]}
{"id": "C50", "title": "Catch-all listeners: ordered, removable individually", "statement": "Catch-all listeners are called in registration order (prepended ones first), each incoming or outgoing packet notifies each of them once, and OffAny(l) removes the first registration of l and nothing else.", "quantifier": "every sequence of registrations and removals", "why_tests_cant": "all sequences and closures", "anchors": ["socket/socket.go: OnAny, PrependAny, OffAny, OnAnyOutgoing, PrependAnyOutgoing, OffAnyOutgoing, onevent, notifyOutgoingListeners"]}
{"id": "C51", "title": "Static files are served only from the client directory", "statement": "Whatever path is requested, the static handler only answers GET and HEAD, only opens a path directly inside the client-dist directory, and answers 304 exactly when the entity tag sent matches.", "quantifier": "every request path, method and header", "why_tests_cant": "all strings", "anchors": ["socket/server.go: SetPath, attachServe, serve, sendFile"]}
{"id": "C52", "title": "Options assignment overlays only what is set", "statement": "Assign copies exactly the options that are set in the argument and keeps the others; it is idempotent, and later assignments win.", "quantifier": "all option records", "why_tests_cant": "all combinations of set and unset options", "anchors": ["socket/server-options.go: Assign", "adapter/cluster-adapter-options.go: Assign"]}
{"id": "C53", "title": "A parent namespace broadcasts the same event to every child", "statement": "Emitting on a parent (dynamic) namespace, with or without a room selection, delivers the event with the same arguments to the selected sockets of every child namespace.", "quantifier": "every set of children and every selection", "why_tests_cant": "all sets of children", "anchors": ["socket/parent-broadcast-adapter.go: Broadcast", "socket/parent-namespace.go: Emit, CreateChild"]}
{"id": "C54", "title": "Event middleware gate", "statement": "A handler sees an incoming event if and only if every socket middleware called next without error, in order, before; an error stops the chain and fires the error event; events still being processed when the socket disconnects are dropped.", "quantifier": "every number of middlewares and every pattern of next calls", "why_tests_cant": "all patterns and schedules", "anchors": ["socket/socket.go: run, dispatch, onevent, Use"]}
{"id": "C55", "title": "A socket that is never seen to leave keeps receiving", "statement": "As long as a socket is connected and in a room, every broadcast to that room made after it became visible reaches it, whatever other sockets do; in particular another socket's disconnection never affects it.", "quantifier": "every reachable history", "why_tests_cant": "needs an invariant over all histories, including session reuse", "anchors": ["socket/socket.go: _cleanup", "socket/namespace.go: Remove", "socket/session-aware-adapter.go: RestoreSession"]}
{"id": "C56", "title": "No packet is lost between recovery and reconnection", "statement": "A packet broadcast while a session is being restored is either part of the replayed packets or delivered live to the recovered socket.", "quantifier": "every interleaving of broadcasts with the recovery handshake", "why_tests_cant": "schedules of concurrent goroutines", "anchors": ["socket/namespace.go: _createSocket, _doConnect, Add", "socket/session-aware-adapter.go: RestoreSession, Broadcast"]}
{"id": "C57", "title": "socket.Emit reaches only that socket", "statement": "An event emitted with socket.Emit is sent to that socket's client and to no other, with or without connection state recovery.", "quantifier": "every program of emissions and modifiers, every room state", "why_tests_cant": "depends on which rooms other sockets have joined, over all room states", "anchors": ["socket/socket.go: Emit", "socket/adapter.go: Broadcast"]}
{"id": "C58", "title": "A client that reconnects in time is recovered", "statement": "A client that was disconnected for a recoverable reason and reconnects within MaxDisconnectionDuration with its private id and the last offset it received is recovered and gets every packet it missed.", "quantifier": "every history of broadcasts, disconnections and clean-ups with a non-decreasing clock", "why_tests_cant": "depends on the schedule of the clean-up timer relative to all earlier broadcasts", "anchors": ["socket/session-aware-adapter.go: RestoreSession, Construct"]}
{"id": "C59", "title": "EmitWithAck leaves the caller's arguments alone", "statement": "EmitWithAck(ev, args...) writes nothing into the slice given as args..., so that two emissions from one slice do not disturb each other.", "quantifier": "every slice, whatever its capacity, and every sequence of emissions sharing its array", "why_tests_cant": "depends on the aliasing of arrays, over all lengths and capacities", "anchors": ["socket/socket.go: EmitWithAck", "socket/broadcast-operator.go: EmitWithAck", "socket/namespace.go: ServerSideEmitWithAck"]}
{"id": "C60", "title": "A middleware that calls next twice does no harm", "statement": "Whatever a middleware does with its next function, a socket is connected at most once and a rejected socket is not connected afterwards.", "quantifier": "every pattern of next calls", "why_tests_cant": "every number of calls and every schedule", "anchors": ["socket/namespace.go: run, Add"]}
{"id": "C61", "title": "A client has one socket per namespace", "statement": "A client has at most one open socket in a namespace, whatever packets it sends and however slow the middlewares are.", "quantifier": "every history of packets, middlewares and disconnections", "why_tests_cant": "depends on when the middlewares answer relative to further packets, over all schedules", "anchors": ["socket/client.go: ondecoded, doConnect", "socket/namespace.go: Add"]}
{"id": "C62", "title": "Connection state recovery works end to end", "statement": "When a client comes back in time with its private id and the offset of the last packet it received, the server gives it the socket id, rooms and data it had and sends it exactly the packets broadcast or emitted to its rooms since then, in order; and no connection is ever recovered otherwise.", "quantifier": "every server history with a non-decreasing clock, any number of namespaces, clients and sockets", "why_tests_cant": "relates a whole history of broadcasts, joins, disconnections and clean-ups to what one reconnection is sent", "anchors": ["socket/namespace.go: Add, _createSocket", "socket/socket.go: _onclose, Construct", "socket/session-aware-adapter.go: Broadcast, PersistSession, RestoreSession"]}
{"id": "C63", "title": "Concurrent creation gives one namespace", "statement": "When goroutines call Of with the same new name, or clients connect to the same new dynamic namespace, at the same time, they all end up with the same namespace.", "quantifier": "every number of goroutines and every interleaving", "why_tests_cant": "goroutine schedules", "anchors": ["socket/server.go: Of, _checkNamespace", "socket/client.go: connect, doConnect", "socket/parent-namespace.go: CreateChild"]}
{"id": "C64", "title": "Every option set is respected, every other has its default", "statement": "A server uses every option it is given; options left unset have their documented defaults: path /socket.io (without slashes at the end), 45 seconds to join a namespace, the in-memory adapter or with recovery the session-aware one, recovery for 2 minutes skipping the middlewares, heartbeats every 5 seconds with a timeout of 10; Attach overlays its options with those of the server.", "quantifier": "all option records", "why_tests_cant": "all combinations of set and unset options", "anchors": ["socket/server.go: Construct, Attach, ServeHandler", "socket/session-aware-adapter.go: Construct", "adapter/cluster-adapter-with-heartbeat.go: Construct"]}
{"id": "C65", "title": "A closed socket is in no room", "statement": "Once a socket is disconnected and every call has returned, it is in no room, whatever Join calls ran meanwhile; every room it had joined before is in the session that is saved for recovery; every Join and every close returns, a close leaves the socket disconnected and out of its namespace for good, and a Join that is called after that puts it in no room.", "quantifier": "every number of concurrent Join and close calls and every interleaving", "why_tests_cant": "goroutine schedules", "anchors": ["socket/socket.go: Join, _onclose, _cleanup, leaveAll"]}
{"id": "C66", "title": "No packet of a client crashes the server", "statement": "Whatever packets a client sends, in whatever state its sockets are and whatever the server emitted before, the process does not panic: each packet is handled, ignored, or makes the server close the connection.", "quantifier": "every sequence of packets with arbitrary data, every interleaving of the goroutines handling them", "why_tests_cant": "the data of packets is chosen by an attacker; type assertions are scattered over handlers that run in goroutines", "anchors": ["socket/client.go: ondecoded, onerror", "socket/socket.go: _onpacket, onevent, onack, dispatch", "socket/broadcast-operator.go: Emit"]}
{"id": "C67", "title": "A client cannot forge lifecycle events", "statement": "Listeners for disconnecting, disconnect and error of a socket are called by the library only: the first two once each, when the socket is really disconnected, with a reason of the library.", "quantifier": "every sequence of packets, every interleaving", "why_tests_cant": "all event names a client may choose", "anchors": ["socket/socket.go: dispatch, onevent, _onclose, _onerror", "socket/typed-events.go: EmitUntyped, EmitReserved"]}
{"id": "C68", "title": "Which connection payloads ask for recovery", "statement": "A session is looked up exactly when recovery is enabled and the payload of the connection is an object with non-empty strings pid and offset, and with exactly these strings; any other payload gives a new session.", "quantifier": "every payload", "why_tests_cant": "all values a decoder can produce", "anchors": ["socket/namespace.go: parseSessionData, _createSocket", "socket/namespace-type.go: GetPid, GetOffset", "socket/client.go: ondecoded"]}
{"id": "C69", "title": "A remote socket stands for the socket with its id", "statement": "FetchSockets returns one remote socket for each selected socket, with its id and the rooms it is in at that moment. Join, Leave, Disconnect and Emit of a remote socket act on the socket that has its id, if that socket is connected, and on no other, whatever happened since it was fetched.", "quantifier": "every history of connections, disconnections, room changes and fetches, every remote socket held", "why_tests_cant": "all histories between the fetch and the use", "anchors": ["socket/remote-socket.go: Construct, Emit, Join, Leave, Disconnect", "socket/broadcast-operator.go: FetchSockets"]}
{"id": "C70", "title": "A client is connected to the namespace it asked for", "statement": "A client whose request is accepted is connected to the namespace with the name it asked for, and to no other; and a request never creates a namespace other than a child, with the parent's middlewares, of a parent whose matcher admitted the name.", "quantifier": "every name a packet can carry, every set of parent namespaces and matchers, every history of calls and of requests, matchers that call next late or repeatedly", "why_tests_cant": "all strings as names; all histories", "anchors": ["socket/client.go: ondecoded, connect, doConnect", "socket/server.go: Of, _checkNamespace", "socket/parent-namespace.go: CreateChild"]}
{"id": "C71", "title": "A client is told when the server disconnects it", "statement": "Disconnect of a connected socket whose connection is open writes exactly one DISCONNECT packet for its namespace, before \"disconnect\" is emitted, and leaves the connection open; Disconnect(true) does so for every connected socket of the client and then closes the connection. A socket that ends in any other way (the client leaves, the connection is lost or closed, the server is closed) causes no DISCONNECT packet. Disconnect of a socket that is not connected, be it no longer or not yet, has no effect. Nothing is said of the end of a socket that is connected.", "quantifier": "every history of connections, packets, calls and closings, every socket", "why_tests_cant": "all histories and all orders of the goroutines", "anchors": ["socket/socket.go: Disconnect, _onclose", "socket/client.go: _disconnect, close, onclose"]}
{"id": "C72", "title": "A cluster behaves like one server", "statement": "Broadcasts, SocketsJoin, SocketsLeave, DisconnectSockets and ServerSideEmit made on any servers of a cluster leave every socket, wherever it is connected, connected or not, in the rooms, and with the packets sent to it, in the order, that the same calls made one after the other on one single server would.", "quantifier": "every number of servers, every history of calls on any of them, every delay and order of the messages the transport allows", "why_tests_cant": "all histories, all message orders, any number of servers", "anchors": ["adapter/cluster-adapter.go: Broadcast, AddSockets, DelSockets, DisconnectSockets, OnMessage", "adapter/util.go: EncodeOptions, DecodeOptions", "socket/adapter.go: Broadcast, AddSockets, DelSockets, DisconnectSockets"]}
{"id": "C73", "title": "A running server is counted by the others", "statement": "With the adapter with heartbeats, a server that runs is counted by every other running server, from some time after both have started and until it is closed or stops (ServerCount, and the servers that FetchSockets and ServerSideEmit wait for); a server that was closed is, after the timeout, not counted any more.", "quantifier": "any number of servers, every history of starts, Init calls, requests, broadcasts and closings, every timing of timers and messages within given bounds", "why_tests_cant": "all schedules of timers and messages; unbounded time", "anchors": ["adapter/cluster-adapter-with-heartbeat.go: Construct, Init, scheduleHeartbeat, Publish, OnMessage, Close, ServerCount", "adapter/cluster-adapter.go: Publish, PublishAndReturnOffset"]}
{"id": "C74", "title": "A broadcast is not disturbed by what happens meanwhile", "statement": "While goroutines join, leave, connect and disconnect sockets, a broadcast (and FetchSockets) reaches exactly once every socket that is selected during the whole call, no socket that is selected at no moment of it, and no socket twice.", "quantifier": "every interleaving of the steps of a broadcast with those of any number of joins, leaves, connections and disconnections, every selection", "why_tests_cant": "all interleavings; any number of sockets, rooms and goroutines", "anchors": ["socket/adapter.go: apply, computeExceptSids, AddAll, Del, DelAll", "socket/namespace.go: Sockets"]}
{"id": "C75", "title": "A disconnected socket is quiet", "statement": "Once the disconnect event of a socket has fired, no listener of any kind registered on the socket and no acknowledgement callback is called on behalf of its client any more; packets that arrive later and events still in the middlewares are dropped.", "quantifier": "every sequence of packets, every order in which the goroutines of the library run, every moment of the disconnection", "why_tests_cant": "all interleavings of received packets with the disconnection", "anchors": ["socket/socket.go: _onpacket, onevent, onack, dispatch, _onclose", "socket/client.go: ondecoded, _remove"]}
{"id": "C76", "title": "FetchSockets on a cluster returns every matching socket once", "statement": "The list FetchSockets calls back with contains only sockets that matched on their server at some moment between the call and the callback; it contains every socket that matched all that time on the calling server or on a server that the calling server knew at the call and has not removed since; it contains none twice. Once every server has answered, the callback is called.", "quantifier": "every number of servers, every interleaving of the call, the requests, the answers and their handling, the removal of servers, the timer, and any changes of the sockets and rooms of every server; that none is there twice, while no id is used on two servers; that the callback is called, if the request could be published", "why_tests_cant": "all interleavings over several machines", "anchors": ["adapter/cluster-adapter-with-heartbeat.go: FetchSockets, OnResponse, removeNode", "adapter/cluster-adapter.go: OnMessage", "socket/adapter.go: FetchSockets"]}
{"id": "C77", "title": "A socket of a closed connection is disconnected", "statement": "Once a connection is closed and everything begun has come to its end, no socket of it is connected, in the namespace or in its room, at whatever moment of being connected the socket was; if the handlers of connection were called, those of disconnect are called after them.", "quantifier": "every interleaving of the connection of a socket, the closing of the connection, any number of calls of the close handler, disconnect packets and calls of Disconnect", "why_tests_cant": "the close may fall between any two steps of the connection", "anchors": ["socket/namespace.go: Add, _doConnect", "socket/client.go: doConnect, close, onclose", "socket/socket.go: _onconnect, _onclose"]}
{"id": "C78", "title": "Calls through an operator act on the sockets it selects", "statement": "AllSockets and FetchSockets called on an operator return, and SocketsJoin, SocketsLeave and DisconnectSockets act on, exactly the sockets that are in one of the rooms and in none of the excepted rooms named by the chain of calls that made the operator.", "quantifier": "every program that builds operators from namespaces, sockets and other operators, every state of the namespace", "why_tests_cant": "all chains and all room tables", "anchors": ["socket/broadcast-operator.go: AllSockets, FetchSockets, SocketsJoin, SocketsLeave, DisconnectSockets", "socket/adapter.go: Sockets, FetchSockets, AddSockets, DelSockets, DisconnectSockets"]}
{"id": "C79", "title": "Which middlewares and listeners a namespace has", "statement": "A namespace made through a parent namespace (a regular expression or a function given to Of) has the middlewares and connection listeners that parent had when it was made, in the order of their registration, followed by those registered on the namespace itself since; what is registered on the parent later does not reach it. Any other namespace has those registered on it. The namespaces an emission through a parent goes to are those it made that have not been removed since.", "quantifier": "every history of calls of Of, Use and On, of connections and of removals of empty namespaces", "why_tests_cant": "all orders of registration and creation", "anchors": ["socket/parent-namespace.go: CreateChild, Children", "socket/namespace.go: Use", "socket/server.go: Of"]}
{"id": "C80", "title": "A protocol violation ends the connection", "statement": "A packet other than CONNECT for a namespace the client is not in, or a CONNECT (or a packet only servers send) for one it is in, is not handled: the connection is closed and every socket of the client fires disconnecting and disconnect with 'forced server close'. Bytes that are not a packet fire error on every socket and close the connection. Any other packet is handled, by the socket the client has in the namespace it names. After the connection is closed, for whatever reason, nothing the client sends has any effect.", "quantifier": "every history of packets with any data, of joins, of calls of the application and every order in which the goroutines run; the client is let into a namespace only when it is not in it already (C61 says when that is so)", "why_tests_cant": "all inputs and all schedules", "anchors": ["socket/client.go: ondecoded, onerror, onclose, Close", "socket/socket.go: _onpacket, _onclose"]}
{"id": "C81", "title": "A modifier concerns only the emission of its own chain", "statement": "Compress, Volatile and Timeout called on a socket act on the emission (or the operator) that ends the same chain of calls, and on no other, also when several goroutines use the socket at the same time: an emission is volatile, is compressed, or has an acknowledgement with a timeout exactly when its own chain said so.", "quantifier": "every number of goroutines, every chain of modifiers, every interleaving of their accesses to the socket", "why_tests_cant": "all schedules", "anchors": ["socket/socket.go: Compress, Volatile, Timeout, Emit, registerAckCallback, newBroadcastOperator"]}
{"id": "C82", "title": "Handlers of disconnecting find the rooms, handlers of disconnect do not", "statement": "While the handlers of disconnecting run, the socket is still connected and registered in its namespace and Rooms() are exactly the rooms it had and those of every Join that has returned. From the moment disconnect is fired the socket is neither connected nor registered and Rooms() is empty, also if a handler of disconnecting joined rooms.", "quantifier": "every number of concurrent Join and close calls and every interleaving", "why_tests_cant": "goroutine schedules", "anchors": ["socket/socket.go: Join, Rooms, _onclose, _cleanup"]}
{"id": "C83", "title": "Listeners are called with exactly the events the client sent", "statement": "For a client with one socket per namespace: the catch-all listeners of a socket are called with the events that arrive for its namespace while it is connected, each once, with the arguments sent and a function to answer with iff the client asked for an acknowledgement. The listeners of an event are called with those that the middlewares let through, once each time; without middlewares, or if they call next at most once per event, never twice for one event; and if the socket is still connected when its goroutines have ended, none is missing. Events are not invented, mixed between sockets, or given to the listeners of another name.", "quantifier": "every sequence of packets and calls, any number of namespaces and sockets of a connection, any middlewares, every interleaving of the goroutines", "why_tests_cant": "arbitrary packets and goroutine schedules", "anchors": ["socket/socket.go: _onpacket, onevent, dispatch, run, use", "socket/client.go: ondecoded"]}
{"id": "C84", "title": "No message of another server crashes this one", "statement": "A server of a cluster handles any message and any response that arrives, of whatever type and with whatever data, in any order and number, without panicking; one whose data is not of the type its kind calls for, or of an unknown kind, does nothing but tell that its sender is alive. In a cluster of servers running this code no server ever panics, however late, often or rarely messages arrive.", "quantifier": "every sequence of messages and responses of any content, every order, duplication and loss, any number of servers, every timing of the own requests", "why_tests_cant": "arbitrary messages from the outside and unbounded clusters and schedules", "anchors": ["adapter/cluster-adapter.go: OnMessage, OnResponse, addOffsetIfNecessary", "adapter/cluster-adapter-with-heartbeat.go: OnMessage, OnResponse, removeNode", "adapter/util.go: DecodeOptions", "adapter/remote-socket.go: NewRemoteSocket"]}
{"id": "C85", "title": "A socket's rooms change only by calls on it", "statement": "As long as a socket is open, an event changes whether it is in a room only if it is a call of Join or Leave on it, or a SocketsJoin or SocketsLeave whose namespace, rooms and exceptions select it, and then exactly as that call says; connecting puts it into the room named by its id; it starts in no room unless its session was recovered. Nothing that other sockets do, no connection, disconnection or broadcast puts it into a room or takes it out.", "quantifier": "every history of a server, every event after it, every open socket and room", "why_tests_cant": "all histories and all kinds of events of a whole server", "anchors": ["socket/socket.go: Join, Leave, leaveAll, _onconnect", "socket/adapter.go: AddAll, Del, DelAll, AddSockets, DelSockets, apply", "socket/session-aware-adapter.go: RestoreSession"]}
{"id": "C86", "title": "Changing the adapter of a running server keeps its sockets", "statement": "After server.SetAdapter every call made through a namespace, a socket or an operator kept from before (broadcast, FetchSockets, SocketsJoin, SocketsLeave, DisconnectSockets) still concerns every connected socket that its rooms and exceptions select, a client that loses its connection can still be recovered, and closing the server closes every adapter it has used.", "quantifier": "every history of adapter changes, connections, joins, leaves, bulk calls, disconnections and recoveries in a namespace, every call after it", "why_tests_cant": "all histories, with the adapter changed any number of times at any moment, also between the creation of a socket and its connection", "anchors": ["socket/server.go: SetAdapter, Close", "socket/namespace.go: InitAdapter, Adapter, _createSocket", "socket/socket.go: Construct, Join, Leave, _onclose, newBroadcastOperator", "socket/broadcast-operator.go: NewBroadcastOperator", "socket/adapter.go: apply"]}
{"id": "C87", "title": "A call on a parent namespace concerns every child", "statement": "Emit, SocketsJoin, SocketsLeave, DisconnectSockets and FetchSockets called on a parent namespace, or on an operator taken from it, concern exactly the selected sockets of all namespaces it has created, or report an error.", "quantifier": "every history of children being created, emptied and removed, of sockets connecting, joining, leaving and disconnecting, and every call after it", "why_tests_cant": "all histories of a family of namespaces", "anchors": ["socket/parent-namespace.go: Emit, CreateChild, FetchSockets", "socket/parent-broadcast-adapter.go: Broadcast", "socket/broadcast-operator.go: SocketsJoin, SocketsLeave, DisconnectSockets, FetchSockets", "socket/adapter.go: apply"]}
{"id": "C88", "title": "All sockets get broadcasts in the same order", "statement": "Sockets that receive the same broadcasts receive them in the same order, each once, and in the order in which the program made the calls.", "quantifier": "every interleaving of the steps of any number of broadcasts by any number of goroutines, any number of sockets, any order of iteration over them", "why_tests_cant": "all interleavings of concurrent broadcasts", "anchors": ["socket/adapter.go: Broadcast, apply", "socket/session-aware-adapter.go: Broadcast", "socket/client.go: WriteToEngine"]}
{"id": "C89", "title": "Recovery misses no packet of concurrent broadcasts", "statement": "A client that comes back with the id of the last packet it received gets exactly the packets it has not received, also when several goroutines have broadcast at the same time.", "quantifier": "every interleaving of the steps of any number of broadcasts by any number of goroutines with recovery enabled, every moment at which the connection breaks", "why_tests_cant": "all interleavings of concurrent broadcasts and all points of failure", "anchors": ["socket/session-aware-adapter.go: Broadcast, RestoreSession", "socket/adapter.go: Broadcast, apply"]}
{"id": "C90", "title": "Close ends all connections", "statement": "After Server.Close no connection of a client to the server is open, whatever the server was attached to, and until the program attaches it again no client gets into a namespace.", "quantifier": "every sequence of calls of Attach, Listen, ServeHandler, Bind and Close with any number of http servers and connections between them", "why_tests_cant": "all sequences of calls and all sets of connections", "anchors": ["socket/server.go: Attach, Listen, ServeHandler, initEngine, Bind, Close"]}
{"id": "C91", "title": "Emitting leaves the caller's slices alone", "statement": "When a program passes a slice of its own as the arguments of an emission (Emit(ev, args...), EmitWithAck(ev, args...)), the library changes no element of the array behind it, neither during the call nor later, and the callback registered for an emission is the one given with it.", "quantifier": "every program, every slice it makes or cuts out of one, every interleaving of emissions, events, listeners and recoveries", "why_tests_cant": "all slices with and without room behind them and all interleavings", "anchors": ["socket/socket.go: Emit, EmitWithAck", "socket/broadcast-operator.go: Emit, EmitWithAck", "socket/namespace.go: ServerSideEmitWithAck", "socket/session-aware-adapter.go: Broadcast"]}
{"id": "C92", "title": "What a listener does with its arguments concerns nobody else", "statement": "A listener may do what it likes with the arguments it is called with: what is sent to clients, what other listeners are called with, what is sent again to clients that recover and which listeners are called is what the emission was called with or what the client sent, and the process does not crash.", "quantifier": "every program, every number of catch-all listeners, middlewares and listeners, every interleaving of emissions, events and recoveries", "why_tests_cant": "all programs and all interleavings", "anchors": ["socket/socket.go: Emit, onevent, dispatch, emitUntyped, notifyOutgoingListeners", "socket/adapter.go: Broadcast", "socket/session-aware-adapter.go: Broadcast, RestoreSession"]}
{"id": "C93", "title": "What a program does with the set of rooms it got is its own affair", "statement": "The set that Rooms() returns tells the rooms the socket is in at that moment. It stays as it is when the socket joins and leaves rooms later, and a program may add rooms to it and remove rooms from it without any effect on which rooms sockets are in, which messages they get and which rooms exist.", "quantifier": "every history of Join, Leave, disconnections, calls of Rooms() and changes of the sets got, for every socket and room", "why_tests_cant": "all histories and all changes a program makes to a set it has got", "anchors": ["socket/socket.go: Rooms", "socket/adapter.go: SocketRooms, AddAll, Del, DelAll"]}
{"id": "C94", "title": "A request to the cluster ends", "statement": "The callback of a request to all servers of a cluster with heartbeats (ServerSideEmitWithAck, FetchSockets) is called exactly once: with the values of all servers as soon as every server that was there has answered or is found to be gone, and with an error if this does not happen in time, whatever answers, arrivals, departures of servers and the timer do at the same time.", "quantifier": "every interleaving of the call that asks, of any number of answers, arrivals and departures, and of the timer", "why_tests_cant": "all interleavings of all these goroutines", "anchors": ["adapter/cluster-adapter-with-heartbeat.go: ServerSideEmit, FetchSockets, OnResponse, removeNode"]}
{"id": "C95", "title": "A closed server falls silent", "statement": "Once a server of a cluster with heartbeats has been closed and the calls in progress have returned, it sends nothing more to the cluster unless the program makes further calls, so that the other servers do not take it for a member again.", "quantifier": "every interleaving of any number of messages, of Close and of the heartbeat timer, whether or not refreshing a stopped timer starts it", "why_tests_cant": "all interleavings of all these goroutines", "anchors": ["adapter/cluster-adapter-with-heartbeat.go: scheduleHeartbeat, Publish, Close"]}
{"id": "C96", "title": "Private session ids stay private", "statement": "The private id with which a session can be recovered is sent only to the client whose socket it was made for and to clients that sent it themselves. A socket takes over the id of another socket only if its client sent the private id made for that one. So if nobody guesses private ids, a session is recovered only by the user it was made for, and no other user is ever told its private id. All that a client is sent are the ids of its own sockets, events the program emitted (with an offset), the errors of middlewares, \"Invalid namespace\" and empty DISCONNECT packets.", "quantifier": "every history of one server: any number of clients, namespaces, middlewares, losses of connection, recoveries, emissions and closes, and every assignment of connections to users", "why_tests_cant": "every history; a leak may need any combination of a lost connection, a recovery and a broadcast", "anchors": ["socket/namespace.go: Add, createSocket, doConnect", "socket/socket.go: NewSocket, onconnect, onclose", "socket/session-aware-adapter.go: PersistSession, RestoreSession, Broadcast"]}
{"id": "C97", "title": "A connected client is not cut off by the connect timeout", "statement": "The connect timeout never closes the connection of a client that is connected to a namespace, in particular not of one that was told so. Once a client has been connected in time, the timeout never closes its connection, even if it leaves its namespaces. A client that is connected to no namespace when time is up is disconnected.", "quantifier": "every interleaving of the construction of the client, the timer and any number of goroutines that connect sockets of the client, and of sockets that leave", "why_tests_cant": "all interleavings; the moments that matter last microseconds", "anchors": ["socket/client.go: setup, doConnect, close, _remove", "socket/socket.go: _onconnect", "socket/namespace.go: _doConnect"]}
{"id": "C98", "title": "Client and server agree on which sockets are connected", "statement": "A connected socket's client was sent CONNECT for it and was not sent DISCONNECT. Conversely, while its connection is open and the server has not been closed, a client that was sent CONNECT for a socket, was not sent DISCONNECT and has not itself left the namespace is connected on the server: no socket ends behind the back of a client whose connection is open. If a socket has ended and its connection is open, the reason is that the program disconnected it, the server was closed, or the client left.", "quantifier": "every history of connections, packets, API calls, timers and goroutines; every socket for which each middleware calls next at most once", "why_tests_cant": "all histories, with sockets ending for any reason at any point", "anchors": ["socket/client.go: onclose, close, _disconnect, ondecoded", "socket/socket.go: _onclose, _onpacket, Disconnect, _onconnect", "socket/server.go: Close"]}
{"id": "C99", "title": "Every attempt to connect is answered once", "statement": "A CONNECT packet for a namespace the client is not in either makes one socket in the namespace of that name or, if there is none and none may be created, is answered at once by one CONNECT_ERROR packet. For each such socket at most one CONNECT or CONNECT_ERROR packet is ever written, and none before the middlewares have decided. If the connection is open and they have decided, exactly one has been written: CONNECT if the handlers of connection were called with the socket, CONNECT_ERROR if not.", "quantifier": "every history of connections, packets, API calls, timers and goroutines; every socket for which each middleware calls next at most once", "why_tests_cant": "all histories, with any number of middlewares deciding in any order, and sockets and connections ending at any point", "anchors": ["socket/namespace.go: Add, run, _doConnect", "socket/client.go: connect, doConnect, ondecoded", "socket/socket.go: _onconnect, _error"]}
{"id": "C100", "title": "The data of a socket is what was last set on it", "statement": "After SetData on a socket, Data returns that value until the next SetData on the same socket, whatever clients, other sockets and the server do, also after the socket was disconnected. A new socket has no data, unless it was recovered: then it begins with the data which the socket it continues (the one of the same namespace, id and private id whose session was saved last) had when it was disconnected.", "quantifier": "every history of connections, packets, API calls, timers and goroutines; every socket", "why_tests_cant": "all histories: nothing that happens between two SetData calls may leak into the data of another socket or into its own", "anchors": ["socket/socket.go: SetData, Data, Construct, _onclose", "socket/session-aware-adapter.go: PersistSession, RestoreSession"]}
{"id": "C101", "title": "A server keeps nothing of the clients that have gone", "statement": "Whatever a namespace keeps about a socket id (an entry in Sockets(), a set of rooms, a place in a room) belongs to a socket that is connected over a connection that is up, or whose middlewares are not done. When every connection is over and no middleware is at work, all namespaces are empty: no sockets, no rooms, no room memberships, and no socket is connected or can join a room.", "quantifier": "every history of connections, packets, API calls, timers and goroutines", "why_tests_cant": "all histories: a leak needs an order of joins, closes, refusals and losses nobody thought of, and shows only as memory that grows or as broadcasts to the dead", "anchors": ["socket/client.go: onclose, close, _remove", "socket/socket.go: _onclose, _cleanup, Join", "socket/namespace.go: Remove", "socket/adapter.go: DelAll"]}
{"id": "C102", "title": "In a cluster a broadcast has the same arguments everywhere", "statement": "The sockets of every server of a cluster are sent a broadcast once, with the arguments of the call, followed by one offset if the packet is kept for recovery. This holds whatever the transport does with the message: it may keep it, encode it later, or hand the same object to several servers.", "quantifier": "every order of the steps of the servers and of the transport, any number of servers and broadcasts", "why_tests_cant": "the packet is one object, shared between the call, the transport and the handlers: whether something is added to it before or after it is encoded depends on the schedule", "anchors": ["adapter/cluster-adapter.go: Broadcast, OnMessage, addOffsetIfNecessary, PublishAndReturnOffset"]}
{"id": "C103", "title": "The handshake of a socket is that of its own connection", "statement": "Handshake() of a socket has the request of the connection of its own client and, as Auth, exactly the payload with which that client asked to be connected to the namespace. It never changes, whatever happens to this or other sockets. The handshake of a recovered socket shows the private id of the session: nobody is given a session without having sent its private id.", "quantifier": "every history of connections, packets with any payload, API calls, timers and goroutines", "why_tests_cant": "all histories: a payload attached to the wrong socket, or replaced by a later one, is an authentication error and needs an interleaving of clients and namespaces", "anchors": ["socket/socket.go: Construct, buildHandshake, Handshake", "socket/client.go: ondecoded, connect, doConnect", "socket/namespace.go: Add, _createSocket", "socket/server.go: onconnection"]}
{"id": "C104", "title": "A client file is sent in an encoding the client accepts", "statement": "The Content-Encoding of a client file is one that the request accepts: one that its Accept-Encoding names and does not refuse with weight 0. If the request accepts none that the server knows, the file is sent as it is.", "quantifier": "every Accept-Encoding header", "why_tests_cant": "all headers: the choice looks for parts of a text, so a coding that is refused, or whose name contains that of another, is easily missed", "anchors": ["socket/server.go: sendFile"]}
{"id": "C105", "title": "Every recipient of a packet gets all of it", "statement": "Each connection that a packet is written to sends the whole packet: its text, with the type of the message before it, and then its attachments, with all their bytes. It does so however many others the packet is written to, in whatever order and however slowly the transports send, and also if a transport is replaced by a WebSocket meanwhile. Only a volatile packet for a transport that is not writable is left out.", "quantifier": "every sequence of packets, recipients, reads of the transports and upgrades", "why_tests_cant": "all interleavings: a buffer that two transports have in common would be empty for the second, depending on who reads first", "anchors": ["socket/adapter.go: Broadcast", "socket/adapter.go: _encode", "socket/client.go: WriteToEngine"]}
{"id": "C106", "title": "A call that sends returns", "statement": "Every call that sends something to clients (an emission, an acknowledgement, a broadcast) returns, however many goroutines send to the same clients at the same time, in whatever order they go through them, and whatever the listeners of the connections do.", "quantifier": "every set of concurrent calls, every list of recipients and every schedule in which the goroutines go on", "why_tests_cant": "all schedules: whether somebody waits for ever depends on who has locked what when", "anchors": ["socket/client.go: WriteToEngine", "socket/adapter.go: Broadcast"]}
{"id": "C107", "title": "Bulk joins and leaves while other things happen", "statement": "SocketsJoin and SocketsLeave do, for every socket that is selected (in the namespace, in one of the rooms, in none of the excepted ones) while the call is under way, what Join or Leave would do, once, and nothing for any other, whatever other goroutines do meanwhile: when the call returns, the selected sockets are in the rooms, or out of them, and a socket that disconnects meanwhile is in no room.", "quantifier": "every history before the call, every selection and every interleaving with joins, leaves, connections and disconnections of any sockets, also the selected ones", "why_tests_cant": "all interleavings at the level of single operations on the tables", "anchors": ["socket/adapter.go: AddSockets, DelSockets, apply, computeExceptSids", "socket/socket.go: Join, Leave, _cleanup", "socket/broadcast-operator.go: SocketsJoin, SocketsLeave"]}
{"id": "C108", "title": "Closing many sockets while sockets come and go", "statement": "When Server.Close, or a DisconnectSockets, has returned, every socket it was to close is out of the namespace, not connected, able to join no room, and its disconnect event has been fired; no other socket is affected; and the call returns, whatever other goroutines do meanwhile: connect sockets, disconnect some of the same ones, or close the server too.", "quantifier": "every history of connections and closing calls, any number of sockets and of calls at once, every interleaving of their steps", "why_tests_cant": "all interleavings at the level of single accesses, any number of sockets and calls", "anchors": ["socket/server.go: Close", "socket/adapter.go: DisconnectSockets, apply", "socket/socket.go: _onclose, _cleanup, Disconnect, _onconnect", "socket/namespace.go: _doConnect, Remove"]}
{"id": "C109", "title": "A dynamic namespace is created and cleaned up safely", "statement": "A client that asks for a namespace matched by a parent is answered; it is let in only if the middlewares of the parent let it pass; all connected clients of that name are in one namespace, which is registered, open and a child of the parent; and with CleanupEmptyChildNamespaces nothing of it is left when all have gone. All this also if clients come and go at the same time.", "quantifier": "every configuration (regular expression or function, with and without clean-up), any number of clients, every interleaving of their coming and going", "why_tests_cant": "all interleavings of lookups, creations and clean-ups by any number of clients", "anchors": ["socket/client.go: connect, doConnect", "socket/server.go: _checkNamespace, Of", "socket/parent-namespace.go: CreateChild", "socket/namespace.go: Add, Remove, _doConnect"]}
{"id": "C110", "title": "A server of the cluster is counted exactly while it is there", "statement": "ServerCount includes every server whose messages keep arriving within the heartbeat timeout, at every moment; a server that has been silent for longer is not included any more after the next clean-up, nor is a server that has announced that it closes. All this also if messages are handled by many goroutines and while the clean-up runs.", "quantifier": "any number of servers and messages, every timeout, every interleaving of the handling of messages and of clean-ups, whatever order the clean-up visits the servers in", "why_tests_cant": "all interleavings of message handlers, clock readings and clean-ups", "anchors": ["adapter/cluster-adapter-with-heartbeat.go: Construct, OnMessage, ServerCount, removeNode"]}
{"id": "C111", "title": "A saved session is there until its time is up", "statement": "A client whose session has been saved and that asks for it within MaxDisconnectionDuration gets that very session; it never gets one of another id or one whose time is up, and sessions whose time is up are removed when the timer fires. All this also if other sessions are saved and asked for, and the timer fires, at the same time.", "quantifier": "any number of clients and goroutines, every interleaving of saving, asking and clean-ups, whatever order the clean-up visits the sessions in", "why_tests_cant": "all interleavings of goroutines and clock readings", "anchors": ["socket/session-aware-adapter.go: Construct, PersistSession, RestoreSession"]}
{"id": "C112", "title": "What is no longer used stops", "statement": "Once a child namespace has been removed as empty, its adapter replaced with SetAdapter, or the server closed, nothing of the old adapter goes on: no timer that keeps it in memory fires any more and no heartbeats make other servers count it.", "quantifier": "every sequence of SetAdapter, Of, connections to child namespaces, removals, calls to the cluster and Close, with every kind of adapter", "why_tests_cant": "an unbounded number of namespaces that come and go", "anchors": ["socket/server.go: SetAdapter, Close", "socket/parent-namespace.go: CreateChild", "socket/namespace.go: InitAdapter", "socket/session-aware-adapter.go: Construct", "adapter/cluster-adapter-with-heartbeat.go: Construct, Close"]}
{"id": "C113", "title": "The library may be used from several goroutines", "statement": "Goroutines that call the methods of a server, its namespaces, its sockets and its operators at the same time, while clients connect, answer and ask for files, never access a variable of the library at the same time with one of them writing it (a data race).", "quantifier": "every number of goroutines, every program of each, every schedule", "why_tests_cant": "the race detector sees only the schedules that happen to be run", "anchors": ["socket/socket.go: Emit, Compress, Volatile, Timeout, newBroadcastOperator, registerAckCallback", "socket/broadcast-operator.go: Emit", "socket/server.go: SetPath, SetConnectTimeout, SetServeClient, SetAdapter, Construct, Attach, ServeHandler, Bind, Close, _checkNamespace", "socket/namespace.go: InitAdapter, Adapter", "adapter/cluster-adapter.go: Broadcast"]}
{"id": "C114", "title": "A client may speak as soon as it is told that it is connected", "statement": "Once a client has received the CONNECT packet of a namespace, an event that it sends there is never taken for a violation of the protocol, passes the middlewares that the program's handler of connection adds with socket.Use, and is given once to the listeners that the handler adds with socket.On.", "quantifier": "every interleaving of the goroutine that connects the socket and runs the program's handler, the packets of the client and the goroutines that handle them", "why_tests_cant": "the window between the CONNECT packet and the end of the handler is a few instructions wide", "anchors": ["socket/namespace.go: Add, _doConnect", "socket/socket.go: _onconnect, _onpacket, onevent, dispatch, run", "socket/client.go: doConnect, ondecoded"]}
{"id": "C115", "title": "Calls return whatever others do", "statement": "A Join or Leave, the removal of a disconnected socket from its rooms, the loop of a broadcast or FetchSockets over the selected sockets, a SocketsJoin or SocketsLeave, the saving of a session, the search for one, the handling of a message of another server and the clean-ups of sessions and servers all come to their end, whatever calls other goroutines make at the same time and however often, if the goroutine goes on being scheduled: nobody can be kept waiting by others. (Writing to connections and the program's own listeners are not part of this; see C106.)", "quantifier": "every history, every infinite schedule in which the goroutine is scheduled again and again, any calls of any number of other goroutines", "why_tests_cant": "a schedule that goes on for ever cannot be run", "anchors": ["socket/adapter.go: AddAll, Del, DelAll, apply, computeExceptSids, AddSockets, DelSockets", "socket/session-aware-adapter.go: PersistSession, RestoreSession, Construct", "adapter/cluster-adapter-with-heartbeat.go: OnMessage, removeNode, Construct"]}
{"id": "C116", "title": "An event sent through a parent namespace while its children come and go", "statement": "An event sent through a dynamic (parent) namespace, with Emit or an operator, reaches every client that is connected to a child from the beginning of the call until it returns, exactly once; nobody that the middlewares of the parent refuse and nobody who was not connected during the call; and the call returns. All this while clients come and go and children are created and removed.", "quantifier": "every configuration (regular expression or function, with and without clean-up), any number of clients, every interleaving of their coming and going with the steps of the call", "why_tests_cant": "the children change between the moment they are listed and the moment the event is sent in each", "anchors": ["socket/parent-namespace.go: Emit, CreateChild", "socket/parent-broadcast-adapter.go: Broadcast"]}
{"id": "C117", "title": "Disconnecting many sockets while other things happen", "statement": "DisconnectSockets, called while sockets connect, disconnect, join and leave: it deals with no socket twice; it deals with every socket that is selected from the beginning of the call until its turn, and does nothing to one that is not selected at any time; a socket it disconnects is sent the DISCONNECT packet and sees the disconnecting and disconnect events, once each and in that order, and when the call returns it is not in the namespace, not connected, in no room, and can join none; and the call returns.", "quantifier": "every state the call begins in, every choice of rooms and excepted rooms, any number of sockets, every interleaving of the operations on maps, sets and flags", "why_tests_cant": "the call itself takes sockets out of the rooms it goes through, while other goroutines change the same tables and flags", "anchors": ["socket/adapter.go: DisconnectSockets, apply, computeExceptSids, DelAll", "socket/socket.go: Disconnect, _onclose, _cleanup", "socket/broadcast-operator.go: DisconnectSockets"]}
{"id": "C118", "title": "What FetchSockets shows while other things happen", "statement": "FetchSockets, called while sockets come and go, join and leave: it returns no socket twice; it returns every socket that is selected from the beginning of the call until its turn, and none that is not selected at any time; a room the socket has all the time is among the rooms shown for it, one it has at no time and is not about to join is not, and the rooms shown are just those the socket had at some moment of the call; when nothing else happens it returns exactly the selected sockets with their rooms; and the call returns.", "quantifier": "every state the call begins in, every choice of rooms and excepted rooms, any number of sockets, every interleaving of the operations on maps and sets", "why_tests_cant": "the rooms of a socket are copied after the socket was selected, in two steps, while other goroutines change the same sets", "anchors": ["socket/adapter.go: FetchSockets, apply, computeExceptSids, SocketRooms", "socket/broadcast-operator.go: FetchSockets", "socket/remote-socket.go: NewRemoteSocket", "socket/socket.go: Rooms"]}
{"id": "C119", "title": "A broadcast with acknowledgement while other things happen", "statement": "Emit with a callback to many clients, called while sockets come and go, join and leave and clients answer: the event is sent to no socket twice, to every socket that is selected from the beginning of the call until its turn, and to none that is not selected at any time; the first answer of a client is counted whenever it comes, also while the event is still being sent to others, and only answers of clients it was sent to; as long as an answer is missing the callback is not called without error; once all have answered it is called once, with one answer per client; and the call returns.", "quantifier": "every state the call begins in, every choice of rooms and excepted rooms, any number of sockets, every interleaving of the operations on maps, sets and counters and of the answers", "why_tests_cant": "clients answer while the loop that sends the event and counts its recipients is still under way, on other goroutines", "anchors": ["socket/broadcast-operator.go: Emit", "socket/adapter.go: BroadcastWithAck, apply, computeExceptSids", "socket/socket.go: onack"]}
{"id": "C120", "title": "Room lifecycle events while sockets join and leave concurrently", "statement": "A program that listens to create-room, join-room, leave-room and delete-room can tell from them which rooms there are and who is in them, also when sockets join and leave on several goroutines: when all calls have returned, create-room has come once more than delete-room for the rooms that exist and as often for the others; for every socket, join-room and leave-room of a room come in turn, beginning with join-room, and it is in the room exactly if join-room came last; leave-room never comes more often than join-room; and create-room comes before the first join-room.", "quantifier": "every number of goroutines, sockets and rooms, every interleaving of the operations on the tables and of the emissions", "why_tests_cant": "each event is emitted after the operation it tells of, on the goroutine that did it; tests see one schedule", "anchors": ["socket/adapter.go: AddAll, Del, DelAll, _del"]}
{"id": "C121", "title": "Catch-all listeners that come and go while events are handled", "statement": "An event calls every catch-all listener that is registered for the socket from the beginning of the call until it returns, as often as it is registered, in the order of registration and with the arguments of the event, and none that is not registered meanwhile; once OffAny has returned the listener is not called any more; and the call returns. All this also if other goroutines, or the listeners themselves, register and remove listeners, and several events are handled at once.", "quantifier": "every number of goroutines, events and listeners, every interleaving of registrations, removals and calls of listeners", "why_tests_cant": "what is called depends on the moment the listeners are looked up; tests see one schedule", "anchors": ["socket/socket.go: OnAny, PrependAny, OffAny, ListenersAny, OnAnyOutgoing, PrependAnyOutgoing, OffAnyOutgoing, notifyOutgoingListeners, onevent"]}
{"id": "C122", "title": "Packets kept for recovery while goroutines broadcast", "statement": "A packet that was broadcast, and that a client may recover, is kept for MaxDisconnectionDuration after that. One that is older is gone when the next clean-up has ended. What is kept is always the packets stored last, each once and in the order of storing, and a packet is removed only by a clean-up. All this also if several goroutines broadcast while clean-ups run.", "quantifier": "every number of broadcasts and clean-ups, every time they take, every interleaving of their steps", "why_tests_cant": "a packet may be overtaken between the reading of the clock and the storing; tests see one schedule", "anchors": ["socket/session-aware-adapter.go: Broadcast, Construct"]}
{"id": "C123", "title": "Callbacks that are over are forgotten", "statement": "A socket holds the callback of an emission from the time the emission has returned until the answer has been handled or the time given has run out; after that it holds it no more, so that the callbacks held do not grow without limit. The callback of a broadcast is held for each socket reached until that socket has answered, and for no other.", "quantifier": "every history of emissions, broadcasts, answers and expiries; every interleaving of the goroutines of one socket", "why_tests_cant": "what is left in a table is not seen by a caller; the loss needs a timer that fires between two statements", "anchors": ["socket/socket.go: Emit, registerAckCallback, onack", "socket/adapter.go: BroadcastWithAck"]}
{"id": "C124", "title": "Restoring a session comes to an end", "statement": "A client that comes back with a session id is let in after finitely many steps, with its session or as a new socket, whatever is broadcast meanwhile.", "quantifier": "every interleaving of broadcasts and clean-ups with the recovery, and every infinite schedule that forgets no goroutine", "why_tests_cant": "a test ends; whether the recovery does under a continued load is a question about infinite schedules", "anchors": ["socket/session-aware-adapter.go: RestoreSession, Broadcast", "socket/namespace.go: Add, _createSocket"]}
{"id": "C125", "title": "A running server goes on sending heartbeats", "statement": "Once a server of a cluster with heartbeats has sent its first message, it sends one heartbeat after the other until it is closed, whichever goroutines publish at the same time and whenever the timer goes off, so that the others need not take it for gone.", "quantifier": "every interleaving of any number of publishing goroutines and timers, every infinite schedule that forgets no goroutine and no timer", "why_tests_cant": "that something never ceases is a statement about infinite schedules; a lost timer needs two first messages at the same time", "anchors": ["adapter/cluster-adapter-with-heartbeat.go: Publish, scheduleHeartbeat, Init"]}
{"id": "C126", "title": "Middlewares that are added while clients connect", "statement": "Use may be called while clients connect. A client is let in only if all middlewares that there were at one moment since it came have been called for it and have let it pass; so none gets past a middleware that was there when it came. Middlewares are called in the order of their registration, each only when all before it have let the client pass. A client is refused if and only if a middleware refuses it; a client that all let pass is let in in the end. If no middleware calls next twice for it, each is called at most once, the client is let in or refused at most once, and nothing is called for it after that. What middlewares answer for other clients, and when, makes no difference to a client.", "quantifier": "every number of middlewares, clients and goroutines, every interleaving of Use, of clients that come and of calls of next, also late and repeated ones, every infinite schedule that goes on with the client", "why_tests_cant": "a middleware that is skipped for a client that comes at the wrong moment is a matter of schedules", "anchors": ["socket/namespace.go: Use, run, Add", "socket/socket.go: Use, run"]}
