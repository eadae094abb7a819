# Formal model of zishang520/socket.io (Go) in Lean 4

## 1. Trusted base

* Lean 4.33.0's kernel.  Every theorem listed in `MANIFEST.json` depends on at
  most `propext`, `Classical.choice` and `Quot.sound` (see section 6; checked
  with `#print axioms` and by `vcheck`).  No axiom is added, no `sorry`, no
  `native_decide`, no `bv_decide`.
* The translation from Go to Lean was done by hand.  Every definition of the
  model cites the file and the lines it renders, and says what it leaves out.
* Contracts of libraries that are not in the sandbox (section 3).

## 2. Layout of the Lean project

* `Verif/Lib/*`   finite maps and sets as association lists / lists.
* `Verif/Model/*` the model: executable total functions following the Go code.
* `Verif/Spec/*`  specifications that do not mention the model's helpers.
* `Verif/Proof/*` lemmas and invariants.
* `Verif/Props/*` the property theorems, with `example`s next to them showing a
  concrete non-trivial case that meets the hypotheses.  For a claim the code
  does not meet, a theorem whose name ends in `_false` or `_fail` proves the
  negation on a concrete witness, and the part that does hold is proved under
  the suffix `_partial`.

The models, and the code they render:

| model | code | granularity |
|-------|------|-------------|
| `Adapter`, `Delivery` | socket/adapter.go | API calls |
| `Session` | socket/session-aware-adapter.go | API calls, timer |
| `Operator` | socket/broadcast-operator.go, modifiers and `Emit` of socket/socket.go | API calls over a heap of sets and flags |
| `Writer` | socket/client.go `_packet`, `WriteToEngine` | every operation of every goroutine |
| `Acks`, `Ids`, `Once` | socket/socket.go acknowledgements, `namespace.Ids` | `Acks` both: calls, and every operation |
| `Collector` | socket/broadcast-operator.go `Emit` with acknowledgement, socket/socket-details (RemoteSocket) | calls, and every operation |
| `Cluster`, `ClusterAck` | adapter/cluster-adapter.go | messages and calls, any order |
| `Heartbeat`, `RequestsConc` | adapter/cluster-adapter-with-heartbeat.go | messages, timers; `RequestsConc` every operation |
| `CastRace` | `apply` and `computeExceptSids` of socket/adapter.go | every operation on a map or set |
| `Fetch` | adapter/cluster-adapter-with-heartbeat.go `FetchSockets`, `OnResponse`, `removeNode`; answering in adapter/cluster-adapter.go | one call; every operation of every goroutine on any number of servers |
| `ConnRace` | socket/namespace.go `Add`, `_doConnect`; socket/client.go `doConnect`, `onclose`; socket/socket.go `_onconnect`, `_onclose` | one socket; every operation |
| `Acting` | socket/broadcast-operator.go `AllSockets`, `FetchSockets`, `SocketsJoin`, `SocketsLeave`, `DisconnectSockets` | calls |
| `FlagRace` | socket/socket.go `Compress`, `Volatile`, `Timeout`, `Emit`, `registerAckCallback`, `newBroadcastOperator` | every access to the field `flags` and to what it points to |
| `Wire` | adapter/cluster-adapter.go, adapter/cluster-adapter-with-heartbeat.go: `OnMessage`, `OnResponse`, with panics | messages that are arbitrary Go values; calls, deliveries and responses in a cluster |
| `Swap` | socket/server.go:260-267, 617-627; socket/namespace.go:133, 160-162, 331-366; socket/socket.go:212, 473-502, 619-646, 861-866, 1014; socket/broadcast-operator.go:31-50 | API calls; every socket has its own id, sessions do not expire |
| `Family` | socket/parent-namespace.go, socket/parent-broadcast-adapter.go, with the calls of socket/broadcast-operator.go | API calls; children with in-memory adapters |
| `Order` | socket/session-aware-adapter.go:93-144; socket/adapter.go:144-163, 269-306 | locked operations of concurrent broadcasts; fixed set of sockets, one frame per packet |
| `Shutdown` | socket/server.go:278-372, 508-512, 617-640 | what the server listens on, connections, `Close`; engine.io by the assumptions stated in the file |
| `Slices` | socket/socket.go:284-318, 340-344, 552-563, 761-763, 806, 998-1006, socket/broadcast-operator.go:180-200, 265-269, socket/session-aware-adapter.go:130-141, socket/adapter.go:143-150 | the arrays behind the slices of arguments: `append` with and without room, who gets which slice when |
| `RoomSet` | socket/socket.go:861-866, socket/adapter.go:135, 228-233 | the sets of rooms in the hands of the program, on top of `Model/Adapter` |
| `AskRace` | adapter/cluster-adapter-with-heartbeat.go:153-218, 220-281, 283-340 | one request to the cluster; the call that asks, answers, departures and the timer interleaved step by step |
| `BeatRace` | adapter/cluster-adapter-with-heartbeat.go:93-111, 147-151 | the heartbeat timer of one server; messages, `Close` and the timer interleaved step by step; what `Refresh` does to a stopped timer is a parameter |
| `TimerRace` | socket/client.go:72-85, 120-130, 153-159; socket/socket.go:509-530 | the connect timeout of one client; its construction, the timer and the goroutines that connect its sockets interleaved step by step |
| `SharedPkt` | adapter/cluster-adapter.go: the packet of a broadcast as an object shared with the transport | calls and the transport's own goroutines |
| `Handshake` | socket/socket.go: `buildHandshake`, over `World` and `Inbound` | API calls, on top of `World` |
| `Encoding` | socket/server.go: `sendFile`, the choice of the encoding | one request |
| `Buffers` | socket/adapter.go: `_encode`; socket/client.go: `WriteToEngine`, with the buffers as objects | every write of every goroutine, on a heap of buffers |
| `Locks` | socket/client.go: the mutex of `WriteToEngine`, with listeners that send | every lock and unlock |
| `BulkRace` | `AddSockets`, `DelSockets` of socket/adapter.go with `Join`, `Leave`, `canJoin` of socket/socket.go, under every interleaving | every operation on a map or set |
| `CloseLoop` | the loops of `Server.Close` and `DisconnectSockets` over `_onclose`, with connections, under every interleaving | every access to shared state |
| `DynRace` | `connect`, `doConnect` of socket/client.go, `_checkNamespace`, `Of` of socket/server.go, `CreateChild` and its clean-up, under every interleaving | every map operation |
| `NodeRace` | `nodesMap` of adapter/cluster-adapter-with-heartbeat.go with its clean-up timer, under every interleaving | every access to the table and to the clock |
| `SessRace` | `sessions` of socket/session-aware-adapter.go: saving, restoring and the clean-up timer, under every interleaving | every access to the table and to the clock |
| `Lifetimes` | the timers of adapters over `SetAdapter`, `Of`, removal of children and `Close` | API calls |
| `DataRace` | the unsynchronised accesses of every call, goroutines under every schedule | every access that is not synchronised |
| `Early` | packets that arrive while their socket is being connected | every access to shared state |
| `FamilyRace` | `Emit` and `Broadcast` of a parent namespace while its children come and go | the list of children and each child are one step |
| `KickRace` | `DisconnectSockets` of socket/adapter.go with `Disconnect`, `_onclose`, `_cleanup` of socket/socket.go, under every interleaving | every operation on a map, set or flag |
| `FetchRace` | `FetchSockets` of socket/adapter.go and socket/broadcast-operator.go, with the copy of the rooms of socket/remote-socket.go, under every interleaving | every operation on a map or set; handshake and data left out |
| `PollRace` | `Emit` with acknowledgement of socket/broadcast-operator.go and `BroadcastWithAck` of socket/adapter.go, under every interleaving with the answers | every operation on a map, set or counter; one server |
| `RoomNews` | the events of `AddAll`, `Del`, `DelAll`, `_del` of socket/adapter.go, under every interleaving | every operation on a map or set, and every emission |
| `ListenRace` | socket/socket.go:560-562, 879-921, 942-1006 | every operation on the slice of listeners, and every call of a listener |
| `PackRace` | socket/session-aware-adapter.go:58-69, 124-144 | every access to the stored packets and every reading of the clock |
| `MidRace` | socket/namespace.go:174-207, socket/socket.go:791-824 | every operation on the slice of middlewares, every call of a middleware, of `next` and of the final function |
| `Beat` | adapter/cluster-adapter-with-heartbeat.go, `Publish` of adapter/cluster-adapter.go | calls, timers and deliveries on any number of servers, with time |
| `World`, `WorldAck` | socket/client.go, namespace.go, socket.go, server.go, parent-namespace.go: connections, sockets, middlewares, rooms, recovery, closing | engine callbacks, API calls and goroutines started by the library, in any order |
| `Registry`, `OfRace` | socket/server.go `Of`, `_checkNamespace`; parent-namespace.go `CreateChild`; client.go `connect`, `doConnect` | calls; `OfRace` map operations |
| `Parent` | socket/parent-namespace.go, parent-broadcast-adapter.go emission | calls |
| `EventGate` | socket/socket.go `dispatch`, `run`, `_onpacket`, `onevent` | every step of every goroutine |
| `Inbound` | socket/client.go `ondecoded`, `onerror`; socket/socket.go `_onpacket`, `onevent`, `onack`, `dispatch`; socket/namespace.go `parseSessionData` | handlers atomic, goroutines in any order; data as dynamic values with explicit panics |
| `Remote` | socket/remote-socket.go; socket/broadcast-operator.go `FetchSockets` | one server, calls atomic; handshake and data of a remote socket left out |
| `RoomRace` | socket/adapter.go `AddAll`, `Del`, `DelAll` | every map and set operation |
| `CloseRace` | socket/socket.go `_onclose`, `_cleanup` | every access to shared state |
| `JoinRace` | socket/socket.go `Join`, `_onclose`, `_cleanup` | every access to shared state; `AddAll`, `DelAll` atomic |
| `RecoverRace` | `RestoreSession`, `NewSocket`, `_doConnect` against `Broadcast` and the timer | every locked operation |
| `Alias` | `EmitWithAck` over Go slices | `append` and `Emit` |
| `Listeners` | catch-all listeners of socket/socket.go | calls |
| `Static` | socket/server.go `attachServe`, `serve`, `sendFile`, `SetPath` | one request |
| `Options` | server-options.go, cluster-adapter-options.go, `Construct`, `Attach` | calls |

## 3. Library contracts assumed (not in /repo)

| library                     | contract used in the model |
|-----------------------------|----------------------------|
| `types.Set`                 | finite set; `Keys()` returns the elements in some order, each once; `Add`, `Has`, `Len` as usual; the boolean returned by `Delete(k)` is *only* assumed to be `true` when `k` was present (parameter `delRet`; the two possibilities for an absent key are both covered) |
| `types.Map`                 | linearizable map; `Range` visits every key at most once, and in sequential use visits all keys present throughout |
| `types.Slice`               | list; `RangeAndSplice` visits the elements in order (or from the end with `reverse`) and splices at the first element whose callback returns true, then stops |
| `EventEmitter.Emit`         | calls the listeners synchronously, in order |
| `utils.SetTimeout` / `ClearTimeout` | the callback runs at most once, at any later moment, unless cleared before |
| `Timer.Refresh`             | sets the timer anew to its full interval, also after it has fired (C73) |
| `utils.YeastDate`, `GenerateId` | ids are distinct (injective function of a counter) |
| `sync.Mutex`, `sync.Once`, `atomic` | standard semantics |
| `Map.Range`                 | (C74) goes through the keys there are when it begins, in any order, leaving out those that are gone when it gets to them |
| `Slice.All`                 | a copy of the list at that moment |
| Go slices                   | `append` writes into the array if the capacity allows, else copies |
| `path/filepath`, `regexp`, `net/http` | Unix semantics of `Clean`, `Join`, `Base`; the regular expression of the bundle matches what `C51_which` says |
| engine options              | `Assign` overlays what is set |
| `conn.Close`                | closes the connection; the engine then calls the close listener, synchronously or later (parameter `syncClose`) |
| namespace matchers          | distinct regular expressions and functions given to `Of` are distinct keys |
| cluster transport (`DoPublish`, `DoPublishResponse`, written by users) | serialises the message before it returns; a published message is delivered once to every other server, in any order, and possibly echoed to the publisher; a response is delivered once to the server that asked |
| engine.io transport         | `Write` appends to the connection; `ReadyState`, `Writable` are inputs |
| parser (`Encode`, `Decode`) | uninterpreted; C66 and C67 name the property of decoded packets they need (`Spec.Decoded`, `Spec.DecodedStrict`) |

Go `map`s, `types.Map` and `types.Set` are unordered.  The model keeps
them as lists in *some* order and the theorems quantify over every list, hence
over every iteration order.

## 4. Property by property

Each line: what is modelled, how it is proved (names of the theorems are in
`MANIFEST.json`).  "negation" = the code does not satisfy the property
as stated; the negation is proved on a concrete witness of the model, and the
strongest correct part is proved as `_partial`.

| id  | model | proof |
|-----|-------|-------|
| C01 | `Model/Adapter`: rooms/sids tables, AddAll, Del, DelAll | refinement: invariant `rooms` and `sids` describe the same relation; by induction over operations it equals the relation computed by an independent replay of the history |
| C02 | same, with the event stream | replay of the event stream = room table, by induction |
| C03 | `apply` with re-reads and dedup set | callback list is duplicate free and equals the set-theoretic selection |
| C04 | `Model/Operator`, excepted room = own id | proof that the sender is excluded while it is in its own-id room; negation after `Leave(own id)` |
| C05 | heap model of operators: sets and flags are pointers | invariant: no operator's cells are ever written after creation (separation); the value semantics refines it |
| C06 | `AddSockets`/`DelSockets` as `apply` with a state-changing callback | lazy iteration = eager selection, then relation equality |
| C07 | `DisconnectSockets` in `Model/World` | same, with `_onclose` as callback |
| C08 | `Model/World` | invariant over all reachable worlds |
| C09 | `shouldIncludePacket` vs `apply` | equivalence for all room sets |
| C10, C11 | `Model/Session`: log, sessions, clock, prune | log is a suffix of the history; restore = specification on the full history |
| C12 | same | by induction, uniqueness from the id contract |
| C13 | same | negation (restore does not delete), partial: expired or unknown sessions are not restored |
| C14, C15 | `Model/World` with recovery | case analysis on reasons, state at disconnect |
| C16, C17 | `Model/World`: middleware chain as continuations | invariant over traces |
| C18 | `ondecoded` decision table | case analysis against a table specification |
| C19, C20, C22 | `Model/World` | inductive invariants over all operations |
| C21 | same | negation for recovered sockets; partial without recovery |
| C23 | same | frame theorem for each namespace-local operation |
| C24, C25 | `Model/Registry`: Of, checkNamespace | induction over matchers; negations for late `next` and handler registration |
| C26 | `Model/World` | negation for pending connection; partial: connected sockets protect the namespace |
| C27 | `Model/World` Close | induction over namespaces and sockets |
| C28 | client timer state machine | invariant |
| C29 | ack table machine | invariant on fired set, sequential; negation with two concurrent answers; interleaved: provenance invariant and a who-has-the-callback invariant (`Proof/AcksLive`); every goroutine comes to its end under a fair scheduler, so the call is made in the end (`Proof/AcksEnd`) |
| C30 | interleaving machine over atomic adds; `Model/WorldAck` | invariant; every history of a running server |
| C31 | interleaving machine with sync.Once | invariant; measure for returning |
| C32, C33 | `Model/Collector` | induction over event orders with one-argument answers; negations otherwise; the goroutines come to their end by a measure (`Proof/CollectorEnd`) |
| C34, C36 | `Model/Operator` socket flags | sequence induction, case analysis |
| C35 | `_packet`/`WriteToEngine` | decision table and induction; measure for returning |
| C37 | `EncodeOptions`/`DecodeOptions` | round trip up to selection equality |
| C38, C39, C44, C45 | `Model/Cluster`: n nodes, multiset network | induction over delivery orders |
| C40, C41 | `Model/Heartbeat` | invariants over message/tick histories; the calls end by a measure (`Proof/RequestsEnd`) |
| C42, C43 | same | negations with witness, partial part |
| C46 | interleaving machine with mutex | invariant over all schedules |
| C47 | `Model/EventGate`: each event in its own goroutine | negation with a schedule; partial when events come one after the other |
| C48 | `Model/RoomRace` | negations with schedules; invariant over all schedules for rooms not deleted meanwhile; calls that do not overlap lead to the tables of `Model/Adapter` (refinement) |
| C49 | `Model/CloseRace` | negations with schedules; invariants for one closer at a time and for any number; that the socket is disconnected in the end by a measure (`Proof/CloseEnd`) |
| C50 | `Model/Listeners` | refinement by induction over operations; negation for closures sharing a code pointer |
| C51 | `Model/Static` strings | case analysis over all strings, path algebra; negation for `?` in the path |
| C52 | `Model/Options` | field-wise |
| C53 | `Model/Parent` | negation with recovery (offsets accumulate); partial otherwise |
| C54 | `Model/EventGate` | invariant; what must follow from each step, and goroutines that go on being scheduled end; negation for the disconnection race |
| C55 | `Model/World` | negation with reused session; partial otherwise |
| C56 | `Model/RecoverRace` | negations with schedules; invariants over all schedules, exactness when nobody broadcasts meanwhile |
| C57 | `Model/Operator` + `Model/Delivery`; `Model/World` | negation with recovery when another socket joined the own-id room; partial otherwise |
| C58 | `Model/Session` | negation for idle clients; partial when the last packet is young |
| C59 | `Model/Alias` | negation; separation invariant for full slices; sequential calls |
| C60 | `Model/World` | negations: a middleware that calls next twice; the life of one socket by an invariant on that socket alone (`Proof/WorldOnce`) |
| C61 | `Model/World` | negation with a slow middleware; invariant otherwise |
| C62 | `Model/World` + `Model/Session` | composition of the invariants of both along a whole history |
| C63 | `Model/OfRace` | negations with schedules; partial |
| C64 | `Model/Options` | case analysis; negation for recovery with an explicit adapter |
| C65 | `Model/JoinRace` | negations with schedules; invariants over all schedules |
| C66 | `Model/Inbound` | negation with a witness; invariant over all histories under the promise of the decoder |
| C67 | same | negations; invariant relating the log to the state |
| C68 | same | case analysis over all values |
| C69 | `Model/Remote` | invariant: the room named like a socket id holds exactly that socket while it is connected; then C03, C06, C07 |
| C70 | `Model/Registry`: connect, doConnect | invariant over histories: names of connected namespaces were asked for, namespaces without parent were named in `Of`; negations with names without a slash |
| C71 | `Model/World` | relation over the building blocks of every step (`Quiet`), invariant over histories; closing loop; negation with two sockets of one id |
| C72 | `Model/Cluster` with `Model/Delivery` | refinement of a single socket's state machine: executions due happen in call order (invariant over histories), each acts on the socket as the call does; negation with two concurrent calls |
| C73 | `Model/Beat` | invariant over timed histories: what was sent has arrived or is under way, and is never more than interval and slack apart; negations: silent server, server that only broadcasts, closed server that answers |
| C74 | `Model/CastRace` over `Model/RoomRace` | invariants of the loop under every interleaving, each set of sockets belongs to one room; negations by schedule; an undisturbed broadcast reaches exactly the selection |
| C75 | `Model/Inbound`, the test of `Connected` and the call of the listeners being two steps | accounting invariant: calls made plus goroutines left never exceed the goroutines there were; negations by schedule |
| C76 | `Model/Fetch` with `Model/Delivery` | invariants over interleavings: where each id in the list comes from, what each counted server has contributed, who must still notice that nobody is missing |
| C77 | `Model/ConnRace` | invariant by phase of the connection, with any number of closers; negations by schedule; all calls end by a measure (`Proof/ConnEnd`) |
| C78 | `Model/Acting` over `Model/Operator` and `Model/Delivery` | composition of C05 with C03, C06, C07; negation by `decide` |
| C79 | `Model/Registry` | relation between states that only grow, induction over histories |
| C80 | `Model/Inbound` | the table of the client holds exactly its connected sockets, induction over histories |
| C81 | `Model/FlagRace` | every modifier found in a structure was written by a chain that had not ended when the structure was installed; induction over interleavings |
| C82 | `Model/JoinRace` | where each close is decides what is set; induction over interleavings |
| C83 | `Model/Inbound` | every step moves events between places (arrived, waiting, in the middlewares, about to be delivered, dropped, handled) and loses none; induction over interleavings |
| C84 | `Model/Wire` | handlers as partial functions on arbitrary messages; invariant: requests for sockets hold only sockets; induction over histories of one server and of a cluster |
| C85 | `Model/World` | staying in and staying out of a room over every event (building blocks of events), bulk calls by the specification of `apply` |
| C86 | `Model/Swap` | invariant (an adapter only knows the sockets made under it), `apply` by its specification, induction over histories |
| C87 | `Model/Family` | invariant over all histories (the tables of the parent stay empty, a child with sockets is listed), then `apply` by its specification per child |
| C88 | `Model/Order` | invariant over all interleavings (what is stored, what has been written to whom, order per goroutine); sequential calls by a second invariant |
| C89 | `Model/Order` | from the invariant of C88: what precedes the offset in the store against what was written before it |
| C90 | `Model/Shutdown` | invariant: fields and engines are functions of the calls so far; what `Close` shuts is computed from these; nothing opens afterwards, by induction |
| C29, C32, C41, C56, C63 in turn | `Spec/Turns` | the models of single operations and of whole calls agree when goroutines do not overlap: simulation, by induction over the calls |
| C94, C95, C97 in turn | `Spec/AskSeq`, `Spec/BeatSeq`, `Spec/TimerSeq` | likewise: `AskRace` with `Heartbeat`, `BeatRace` with `Beat`, `TimerRace` with `World` |
| C91 | `Model/Slices` | invariant: every slice lies in its array, arrays of emissions and events belong to one goroutine each; a step changes only arrays it is allowed to write into |
| C92 | `Model/Slices` | the array of an emission is nobody else's before it is encoded (broadcasts), and unchanged as long as the program writes only into arrays of its own; logs of one number as a function of the part of its plan that is done |
| C93 | `Model/RoomSet` | induction over the history for one pair of socket and room at a time, without the invariant that both tables agree, which edits break for the pairs edited |
| C94 | `Model/AskRace` | invariants: once stored, the request is in the table or the callback was called; whoever empties the set of missing servers goes on to call; whoever stops the timer does too; that everything set going ends by a measure (`Proof/AskEnd`) |
| C95 | `Model/BeatRace` | invariant: one timer at most, which the field points to; stopped by `Close` it stays so as no call in progress refreshes it |
| C96 | `Model/World` | invariant: where each socket has its ids from; sessions in the store belong to sockets; every packet in the log and every packet kept for recovery is of an allowed kind; induction on the length of the history for the users |
| C97 | `Model/TimerRace` | invariants: the timer goes off once; what the client has noted was flagged before; no socket is connected between the test and the close; the function of the timer ends by a measure (`Proof/TimerEnd`) |
| C98 | `Model/World` | invariant: if a socket has ended and its connection is open, the reason is one of three, each tied to the history; with C71 and the life of a socket (C19) |
| C99 | `Model/World` | invariant: the number of answers of a socket is 0 while it is among the undecided ones, at most 1, and 1 when decided on an open connection |
| C100 | `Model/World` | frame over all steps for the data; the stored sessions are those of the log, in order, and each has the data of its socket |
| C101 | `Model/World` | invariant: an open socket that is not connected is waiting; with the invariants of C22 everything in the tables belongs to a connected or waiting socket |
| C102 | `Model/SharedPkt` | the packet as a mutable object; state machine over the steps of the calls, the transport and the handlers; token count per server and broadcast, invariant on the contents of the objects |
| C103 | `Model/Handshake` (over `Model/World`, `Model/Inbound`) | every socket is created by one event, which asked for it; what is recorded then is not written again |
| C104 | `Model/Encoding` | a text without separators is a part of the header only if it is part of one name: induction over the elements |
| C105 | `Model/Buffers` | invariant: each buffer in a queue belongs to one connection, the others are never read; what is sent and what is left in the queue are the frames due |
| C106 | `Model/Locks` | who waits for whom goes up in the order of the clients, so somebody can go on and some turn of each round is a step, and steps are finite: measure; negation: an invariant that says who waits for whom |
| C107 | `Model/BulkRace` over `Model/CastRace` | the history of the loop is one of C74 (refinement), each step of the tables one of C48; invariants say where the call for each socket is; negation by schedule |
| C108 | `Model/CloseLoop` | an invariant relating each socket to the calls that are closing it; a second that follows one call; a measure for its steps; negations by schedule |
| C109 | `Model/DynRace` | invariants relating the registry, the children and the place of every client; a measure for the answers; negations by schedule |
| C110 | `Model/NodeRace` | invariant bounding the age of the last record over all prefixes; the position of the clean-up; negations by schedule |
| C111 | `Model/SessRace` | invariant while the session is young; the place where a goroutine read the table; the position of the clean-up; negations by schedule |
| C112 | `Model/Lifetimes` | invariant: busy adapters are in use; adapters with recovery never change; negations, one of them for every number of namespaces |
| C113 | `Model/DataRace` | every unsynchronised access is a step; remaining code is a suffix of the program; conversely a schedule that brings both goroutines to the access |
| C114 | `Model/Early` | conservation: every packet read is handled, lost, refused or being worked on; invariant for patient clients; witnesses |
| C115 | `Model/RoomRace`, `CastRace`, `BulkRace`, `SessRace`, `NodeRace` | well-founded measure on what a call has still to do; infinite fair schedules, or a bound on its own steps |
| C116 | `Model/FamilyRace` over `Model/DynRace` | invariant: who has got the event will be in no child still to be served; who is connected throughout is in one or has it; witness for the orphan |
| C117 | `Model/KickRace` over `Model/CastRace` | the history of the loop is one of C74 (refinement); invariants: what has been done to each socket before each step of `Disconnect`, flags that are never set again, and the call of C48 that leaves all rooms; negations by schedule; well-founded measure for returning |
| C118 | `Model/FetchRace` over `Model/CastRace` | the history of the loop is one of C74 (refinement); invariants: of which sockets remote sockets have been made, and whose the set is that is being copied; negation by schedule; well-founded measure for returning |
| C119 | `Model/PollRace` over `Model/CastRace` and the interleaved `Model/Collector` | the history of the loop is one of C74 and that of the callbacks one of C32 (refinement in both), whose hypothesis that everything arrives is proved from the loop; invariants: callbacks registered, packets written, answers heard; negation by schedule; well-founded measure for returning |
| C120 | `Model/RoomNews` over `Model/RoomRace` | what becomes due and what is emitted are compared goroutine by goroutine (permutation when all have returned); invariants: created minus deleted is existence; every set belongs to one room and counts arrivals and departures; under one-by-one calls the announcements alternate; negations by schedule; when no calls overlap, simulation of `Model/Adapter` (`Props/RoomNewsSeq`) |
| C121 | `Model/ListenRace` | where the goroutine of an event is (not begun, or with the copy of one moment, of which it has called the first), by induction over the rest of the history; the listeners are those of C50 (refinement); well-founded measure for returning |
| C122 | `Model/PackRace` | the times of the packets kept are in order but for the delay, by induction over the history; the clean-up leaves a suffix; refinement of `Model/Session` for calls made in turn |
| C123 | `Model/Acks` | what is held under a number is read off the history, by induction; interleaved: nobody stores under a number again once its emission has returned, so the goroutine that deletes it does so for good |
| C124 | `Model/RecoverRace` | invariant bounding the steps taken by the position in the loop; a fair schedule that keeps the loop going, by induction over its rounds |
| C125 | `Model/BeatRace` | invariant: a timer runs or some call has not yet seen to it; each of these leads to a heartbeat by following one goroutine or timer at a time |
| C126 | `Model/MidRace` | invariant: what has been observed of a run matches what `All` returned for it at one moment; in the end: by induction on the middlewares; `C126_course`, `C126_once`: what is observed of a run is one of the lists of the specification, by induction on the history |

## 5. What is not modelled

* The encoding of packets to bytes and back (library socket.io-go-parser, `MsgpackR`
  and other parsers), engine.io transports, CORS, logging/debug output.  What the
  handlers do with any *decoded* packet is modelled in `Inbound`, with any message of
  another server in `Wire`.
* Panics of user callbacks; memory.  Panics of the library's own code are explicit in
  `Inbound` and `Wire` only.  Goroutines that never end: only what `Lifetimes` (C112),
  C101 and C115 say.
* Values: event arguments are an uninterpreted/simple inductive type, except in
  `Inbound` (dynamic Go values), `Slices` and `Alias` (arrays behind slices).
* Concurrency: `CastRace`, `ConnRace`, `EventGate`, `RoomRace`, `CloseRace`,
  `JoinRace`, `RecoverRace`, `OfRace`, `FlagRace`, `AskRace`, `BeatRace`, `TimerRace`,
  `BulkRace`, `KickRace`, `FetchRace`, `PollRace`, `RoomNews`, `ListenRace`, `MidRace`, `PackRace`, `CloseLoop`, `DynRace`, `FamilyRace`, `SessRace`, `NodeRace`,
  `Early`, `Order`, `RequestsConc`, `Fetch`, `Writer`, `Acks`, `Once` and `Collector` interleave
  individual operations on maps, sets and atomics (see the column "granularity" in
  section 2).  Each does so for the part of the state its property is about; there is
  no single model of all of the library at that granularity.  In `World` and the other
  models, API calls, callbacks and goroutines are atomic steps in any order.
* Packages other than `socket` and `adapter`; TLS/HTTP3/WebTransport listeners beyond
  what `Shutdown` says of them; compression of static files; `Engine` configuration
  other than the overlay of options.
* Go's memory model, but for `DataRace` (C113), which says which plain fields are
  accessed without synchronisation.  In all other models plain fields are read and
  written atomically (`FlagRace` interleaves the accesses to a socket's flags).

## 6. Axioms

Every theorem depends on a subset of `propext`, `Classical.choice` and
`Quot.sound`; `vcheck` re-checks every theorem.  `seeded/Deps.lean.txt` prints,
for each theorem of the manifest, the definitions it depends on.

## 7. Wrong programs

`seeded/mutate.py` applies edits to a scratch copy of the model, rebuilds, and
lists the theorems of the manifest that no longer prove; `seeded/LOG.jsonl` is
the record.  The batches are `seeded/batch*.json`.
`seeded/auto.py` makes such edits mechanically (dropped updates, swapped branches,
changed comparisons and constants) and reports those that no theorem notices.
