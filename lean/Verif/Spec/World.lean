import Verif.Model.World

/-! # The server: specifications -/

namespace Verif.Spec
open Verif Verif.World

/-! ## The life of one socket -/

/-- What happens to one socket, as its user sees it. -/
inductive Life where
  | connection
  | disconnecting (reason : String)
  | saved
  | disconnect (reason : String)
deriving DecidableEq, Repr

/-- The part of an observation that concerns the life of socket `r`. -/
def lifeOf (r : Nat) : Obs → Option Life
  | .connection r' => if r' = r then some .connection else none
  | .disconnecting r' reason => if r' = r then some (.disconnecting reason) else none
  | .saved r' _ => if r' = r then some .saved else none
  | .disconnect r' reason => if r' = r then some (.disconnect reason) else none
  | _ => none

def life (r : Nat) (log : List Obs) : List Life := log.filterMap (lifeOf r)

/-- The reasons after which the documentation promises that a session can be recovered. -/
def recoverableReasons : List String :=
  ["transport error", "transport close", "forced close", "ping timeout", "server shutting down",
   "forced server close"]

/-- The end of a connection: "disconnecting", then the session is saved if recovery is enabled and the reason
allows it, then "disconnect" with the same reason. -/
def ending (recovery : Bool) (reason : String) : List Life :=
  [.disconnecting reason] ++ (if recovery ∧ reason ∈ recoverableReasons then [.saved] else []) ++
    [.disconnect reason]

/-! ## Histories -/

/-- The calls of `next` in a history: the middleware chain and the place in it. -/
def nextCall : World.Ev → Option (Nat × Nat)
  | .next k i _ => some (k, i)
  | _ => none

/-- Every middleware calls its `next` function at most once. -/
def NextOnce (h : List World.Ev) : Prop := (h.filterMap nextCall).Nodup

instance (h : List World.Ev) : Decidable (NextOnce h) := inferInstanceAs (Decidable (List.Nodup _))

/-- The chain is that of socket `r`. -/
def chainOf (w : W) (r k : Nat) : Bool := (w.chains[k]?).map (·.ref) == some r

/-- The middlewares call the `next` functions they were given for socket `r` at most once each; what they do with those for other
sockets does not matter. -/
def NextOnceFor (cfg : World.Cfg) (h : List World.Ev) (r : Nat) : Prop :=
  ((h.filterMap nextCall).filter fun x => chainOf (run cfg h) r x.1).Nodup

instance (cfg : World.Cfg) (h : List World.Ev) (r : Nat) : Decidable (NextOnceFor cfg h r) := inferInstanceAs (Decidable (List.Nodup _))

/-- A socket that exists and has been neither rejected nor disconnected. -/
def IsOpen (w : W) (r : Nat) : Prop := r < w.nSock ∧ (w.socks r).canJoin = true

/-- The id that a socket without a recovered session is to have: generated for it; with protocol 3 it is that of the connection,
preceded by the name of the namespace and "#" unless this is "/". -/
def idFor (cfg : World.Cfg) (w : W) (r : Nat) : Sid :=
  if (w.clients (w.socks r).client).proto3 then
    if (w.nss (w.socks r).ns).name = "/" then cfg.connId (w.socks r).client
    else (w.nss (w.socks r).ns).name ++ "#" ++ cfg.connId (w.socks r).client
  else cfg.newSid r

/-- The generators of ids never give the same id twice, nor an id of a connection to a socket; ids contain no "#". -/
structure GoodIds (cfg : World.Cfg) : Prop where
  sid : ∀ a b, cfg.newSid a = cfg.newSid b → a = b
  conn : ∀ a b, cfg.connId a = cfg.connId b → a = b
  apart : ∀ a b, cfg.newSid a ≠ cfg.connId b
  plainSid : ∀ a, '#' ∉ (cfg.newSid a).toList
  plainConn : ∀ a, '#' ∉ (cfg.connId a).toList

/-- No two open sockets have the same id. -/
def NoTwins (w : W) : Prop := ∀ r r', IsOpen w r → IsOpen w r' → (w.socks r).sid = (w.socks r').sid → r = r'

/-- At no time in the history do two open sockets have the same id. -/
def NeverTwins (cfg : World.Cfg) (h : List World.Ev) : Prop := ∀ p, p <+: h → NoTwins (run cfg p)

/-- No client has two open sockets in namespaces of the same name. -/
def OneEach (w : W) : Prop := ∀ r r', IsOpen w r → IsOpen w r' → (w.socks r).client = (w.socks r').client →
  (w.nss (w.socks r).ns).name = (w.nss (w.socks r').ns).name → r = r'

/-- At no time in the history does a client have two open sockets in namespaces of the same name. -/
def NeverTwice (cfg : World.Cfg) (h : List World.Ev) : Prop := ∀ p, p <+: h → OneEach (run cfg p)

/-- A client asks for a namespace only when it has no open socket there: it is not connected to it and waits for no
answer. -/
def Patient (cfg : World.Cfg) (h : List World.Ev) : Prop :=
  ∀ p c name auth, p ++ [.recv c .connect name auth] <+: h → ∀ r, IsOpen (run cfg p) r → ((run cfg p).socks r).client = c →
    ((run cfg p).nss ((run cfg p).socks r).ns).name ≠ name

/-- The clock does not go backwards. -/
def ClockOk (cfg : World.Cfg) (h : List World.Ev) : Prop :=
  ∀ p t, p ++ [.clock t] <+: h → (run cfg p).now ≤ t

/-- The listeners of "disconnecting" make only the socket they are told of join or leave rooms. -/
def OwnHooks (cfg : World.Cfg) : Prop :=
  ∀ r, ∀ a ∈ cfg.hook r, match a with | .join ref _ => ref = r | .leave ref _ => ref = r

/-- The event takes socket `r` out of the room: `Leave` is called on it, or on another socket object with its id, or
`SocketsLeave` for this room in its namespace. -/
def TakesOut (w : W) (r : Nat) (room : Room) : World.Ev → Prop
  | .leave ref x => x = room ∧ (w.socks ref).sid = (w.socks r).sid ∧ (w.socks ref).ns = (w.socks r).ns
  | .socketsLeave n _ _ _ target => n = (w.socks r).ns ∧ room ∈ target
  | _ => False

/-! ## Being let in -/

/-- After the history `p` the event `e` creates the socket `r`. -/
def CreatedBy (cfg : World.Cfg) (p : List World.Ev) (e : World.Ev) (r : Nat) : Prop :=
  (run cfg p).nSock = r ∧ (run cfg (p ++ [e])).nSock = r + 1

/-- Socket `r` was let in: since it was created, every middleware that its namespace had at that time has called its
`next` function without an error, in the order of registration; or its session was recovered and the
middlewares are to be skipped then. -/
def LetIn (cfg : World.Cfg) (h : List World.Ev) (r : Nat) : Prop :=
  ∃ p e q, h = p ++ e :: q ∧ CreatedBy cfg p e r ∧
    (((∃ sc, cfg.recovery = some (sc, true)) ∧ ((run cfg (p ++ [e])).socks r).recovered = true) ∨
     ((run cfg (p ++ [e])).nss ((run cfg (p ++ [e])).socks r).ns).fns = 0 ∨
     ∃ k ch, (run cfg (p ++ [e])).chains[k]? = some ch ∧ ch.ref = r ∧
       ((List.range ((run cfg (p ++ [e])).nss ((run cfg (p ++ [e])).socks r).ns).fns).map
         fun i => World.Ev.next k i none).Sublist q)

/-! ## Packets from clients -/

/-- The number of packets of type `t` that arrived from client `c` for the namespace `name`. -/
def arrivals (c : Nat) (t : PType) (name : String) (h : List World.Ev) : Nat :=
  h.countP fun e => match e with
    | .recv c' t' name' _ => decide (c' = c ∧ t' = t ∧ name' = name)
    | _ => false

/-! ## Consistent tables -/

/-- What holds between two events of the server. -/
structure Consistent (w : W) : Prop where
  /-- `Sockets()` of a namespace lists, under their own id, connected sockets of that namespace. -/
  sockets : ∀ n sid r, (w.nss n).sockets.get? sid = some r →
    (w.socks r).ns = n ∧ (w.socks r).sid = sid ∧ (w.socks r).connected = true
  /-- The socket table of a client lists, under their own id, connected sockets of that client. -/
  clients : ∀ c sid r, (w.clients c).sockets.get? sid = some r →
    (w.socks r).client = c ∧ (w.socks r).sid = sid ∧ (w.socks r).connected = true
  /-- The namespace table of a client lists sockets of that client under the name of their namespace. -/
  namespaces : ∀ c name r, (w.clients c).nsps.get? name = some r →
    (w.socks r).client = c ∧ (w.nss (w.socks r).ns).name = name
  /-- A namespace is registered under its own name. -/
  names : ∀ name n, w.nsps.get? name = some n → (w.nss n).name = name
  /-- The rooms of a socket and the members of a room say the same; no room is empty. -/
  rooms : ∀ n sid room, (∃ l, (w.nss n).ad.rooms.get? room = some l ∧ sid ∈ l) ↔
    (∃ l, (w.nss n).ad.sids.get? sid = some l ∧ room ∈ l)
  noEmptyRoom : ∀ n room l, (w.nss n).ad.rooms.get? room = some l → l ≠ []
  /-- Whoever is in a room is a socket of that namespace that was neither rejected nor disconnected. -/
  members : ∀ n sid room, (∃ l, (w.nss n).ad.rooms.get? room = some l ∧ sid ∈ l) →
    ∃ r, IsOpen w r ∧ (w.socks r).ns = n ∧ (w.socks r).sid = sid

/-- The packet is one that the server sent on behalf of socket `r`. -/
def SentTo (r : Nat) : Obs → Prop
  | .packet _ ref _ => ref = some r
  | _ => False

/-- The packet, if it was sent on behalf of socket `r`. -/
def packetOf (r : Nat) : Obs → Option Pkt
  | .packet _ ref p => if ref = some r then some p else none
  | _ => none

/-- The packets sent on behalf of socket `r`, in order. -/
def packetsTo (r : Nat) (log : List Obs) : List Pkt := log.filterMap (packetOf r)

/-- `Emit` of socket `r` is only called once the "connection" listeners have been told of the socket. -/
def EmitsAfter (cfg : World.Cfg) (h : List World.Ev) (r : Nat) : Prop :=
  ∀ p args flags, p ++ [.emit r args flags] <+: h → Obs.connection r ∈ (run cfg p).log

/-- What a socket and its client learn of the end: the client is sent a DISCONNECT packet for a namespace, the listeners of the
socket are told "disconnect". -/
inductive Bye where
  | told (client : Nat) (nsp : String)
  | ended (reason : String)
deriving DecidableEq, Repr

/-- The part of an observation that concerns the end of socket `r`. -/
def byeOf (r : Nat) : Obs → Option Bye
  | .packet c ref p => if ref = some r ∧ p.type = .disconnect then some (.told c p.nsp) else none
  | .disconnect r' reason => if r' = r then some (.ended reason) else none
  | _ => none

/-- The end of socket `r`: the DISCONNECT packets and the "disconnect" events, in order. -/
def farewell (r : Nat) (log : List Obs) : List Bye := log.filterMap (byeOf r)

/-- The engine does not close a connection for the reason that stands for a call of `Disconnect`. -/
def EngineReasons (cfg : World.Cfg) (h : List World.Ev) : Prop :=
  (∀ c, cfg.syncClose c ≠ some "server namespace disconnect") ∧
  ∀ c, World.Ev.transportClose c "server namespace disconnect" ∉ h

/-! ## Connection state recovery -/

/-- The session saved for a socket of namespace `n`, if the observation is that. -/
def savedIn (w : W) (n : Nat) : Obs → Option Session.Op
  | .saved ref s => if (w.socks ref).ns = n then some (.persist s) else none
  | _ => none

/-- What an event asks of the session store of namespace `n`: a broadcast or an emitted event is stored, the
clean-up timer fires, a client that is not in the namespace asks for its session. -/
def asked (w : W) (n : Nat) : World.Ev → List Session.Op
  | .broadcast m args id rooms except flags =>
    if m = n ∧ m < w.nNs then
      [.broadcast { type := .event, data := .args args, id := id } (some ⟨some rooms, some except, some flags⟩)]
    else []
  | .emit ref args flags =>
    if ref < w.nSock ∧ (w.socks ref).ns = n then
      [.broadcast { type := .event, data := .args args } (some ⟨some [(w.socks ref).sid], some [], some flags⟩)]
    else []
  | .tick m => if m = n then [.tick] else []
  | .recv c type name (some (pid, offset)) =>
    if type = .connect ∧ c < w.nClient ∧ (w.clients c).listening = true ∧ (w.clients c).nsps.get? name = none ∧
      w.nsps.get? name = some n then [.restore pid offset] else []
  | _ => []

/-- What one event asks of the session store of namespace `n`, and the sessions saved during it. -/
def storedBy (cfg : World.Cfg) (n : Nat) (w : W) (e : World.Ev) : List (Int × Session.Op) :=
  (asked w n e ++ ((step cfg w e).log.drop w.log.length).filterMap (savedIn w n)).map fun op => (w.now, op)

/-- All that a history asks of the session store of namespace `n`, with the times. -/
def storeOps (cfg : World.Cfg) (n : Nat) (h : List World.Ev) : List (Int × Session.Op) :=
  (h.foldl (fun (x : W × List (Int × Session.Op)) e => (step cfg x.1 e, x.2 ++ storedBy cfg n x.1 e)) (init, [])).2

/-- The event is a call of `Disconnect` or `DisconnectSockets`, or a disconnect packet of a client is handled. -/
def Explicit (w : W) : World.Ev → Prop
  | .disconnect .. => True
  | .disconnectSockets .. => True
  | .task k => ∃ ref, w.tasks[k]? = some (.packet ref .disconnect)
  | _ => False

/-! ## Namespaces that are removed -/

/-- The server finds the namespace under its name. -/
def Registered (w : W) (n : Nat) : Prop := w.nsps.get? (w.nss n).name = some n

/-- Whenever a socket is rejected or disconnected, the sockets of its namespace that are still open are connected: no
client is just being connected to it. -/
def NobodyWaiting (cfg : World.Cfg) (h : List World.Ev) : Prop :=
  ∀ p e, p ++ [e] <+: h → ∀ r r', IsOpen (run cfg p) r → ¬ IsOpen (run cfg (p ++ [e])) r → IsOpen (run cfg (p ++ [e])) r' →
    ((run cfg p).socks r).ns = ((run cfg (p ++ [e])).socks r').ns → ((run cfg (p ++ [e])).socks r').connected = true

/-! ## One namespace -/

/-- The socket an observation is about. -/
def socketOf : Obs → Option Nat
  | .connection r => some r
  | .disconnecting r _ => some r
  | .disconnect r _ => some r
  | .saved r _ => some r
  | .packet _ ref _ => ref
  | .received r _ => some r

/-- The namespace an event is about: calls of the API of a socket or of a namespace (but for the closing of a whole
connection), a packet of a client for a socket, the outcome of the middlewares, a client asking for a namespace that
it is not in. -/
def actsIn (w : W) : World.Ev → Option Nat
  | .join ref _ => some (w.socks ref).ns
  | .leave ref _ => some (w.socks ref).ns
  | .setData ref _ => some (w.socks ref).ns
  | .emit ref _ _ => some (w.socks ref).ns
  | .disconnect ref false => some (w.socks ref).ns
  | .disconnectSockets n _ _ _ false => some n
  | .socketsJoin n _ _ _ _ => some n
  | .socketsLeave n _ _ _ _ => some n
  | .broadcast n _ _ _ _ _ => some n
  | .use n => some n
  | .tick n => some n
  | .next k _ _ => (w.chains[k]?).map fun ch => (w.socks ch.ref).ns
  | .task k => (w.tasks[k]?).map fun
    | .result ref _ => (w.socks ref).ns
    | .packet ref _ => (w.socks ref).ns
  | .recv c .connect name _ => if (w.clients c).nsps.get? name = none then some ((w.nsps.get? name).getD w.nNs) else none
  | _ => none

/-- From `w` to `w'` nothing changed but in namespace `n`: the other namespaces (rooms, members, sessions, middlewares)
and their sockets are as before, and whatever was observed since is not about them. -/
structure OnlyIn (n : Nat) (w w' : W) : Prop where
  spaces : ∀ m, m ≠ n → w'.nss m = w.nss m
  sockets : ∀ r, r < w.nSock → (w.socks r).ns ≠ n → w'.socks r = w.socks r
  created : ∀ r, w.nSock ≤ r → r < w'.nSock → (w'.socks r).ns = n
  seen : ∃ ext, w'.log = w.log ++ ext ∧ ∀ o ∈ ext, ∀ r, socketOf o = some r → r < w'.nSock ∧ (w'.socks r).ns = n

end Verif.Spec
