import Verif.Model.Wire

/-! # Messages of other servers: which make sense -/

namespace Verif.Spec
open Verif Verif.Wire Verif.Cluster

/-- The data of a message is of the type its kind calls for; heartbeats and farewells carry nothing that is looked at. -/
def dataFits (m : Wire.Message) : Bool :=
  match m.type, m.data with
  | 1, _ => true
  | 2, _ => true
  | 3, .broadcast _ => true
  | 4, .rooms _ => true
  | 5, .rooms _ => true
  | 6, .disconnect _ => true
  | 7, .fetch _ => true
  | 8, .sockets _ => true
  | 9, .emit _ => true
  | 10, .reply _ => true
  | 11, .count _ => true
  | 12, .ack _ => true
  | 13, _ => true
  | _, _ => false

/-- The data is there: not a nil pointer. -/
def dataThere (m : Wire.Message) : Prop :=
  match m.data with
  | .other => True
  | .broadcast d => d ≠ none
  | .rooms d => d ≠ none
  | .disconnect d => d ≠ none
  | .fetch d => d ≠ none
  | .emit d => d ≠ none
  | .count d => d ≠ none
  | .ack d => d ≠ none
  | .sockets d => d ≠ none
  | .reply d => d ≠ none

/-- A broadcast carries a packet. -/
def packetThere (m : Wire.Message) : Prop := ∀ d, m.data = .broadcast (some d) → d.packet ≠ none

/-- The packet of a broadcast, if it is an event, carries a list of arguments. -/
def packetList (m : Wire.Message) : Prop :=
  ∀ d p, m.data = .broadcast (some d) → d.packet = some p → p.type = .event → ∃ l, p.data = .args l

/-- The sockets listed in an answer are all there. -/
def socketsThere (m : Wire.Message) : Prop := ∀ d, m.data = .sockets (some d) → none ∉ d.sockets

/-- The message holds a nil pointer of the type its kind calls for. -/
def dataNil (m : Wire.Message) : Bool :=
  match m.type, m.data with
  | 3, .broadcast none => true
  | 4, .rooms none => true
  | 5, .rooms none => true
  | 6, .disconnect none => true
  | 7, .fetch none => true
  | 8, .sockets none => true
  | 9, .emit none => true
  | 10, .reply none => true
  | 11, .count none => true
  | 12, .ack none => true
  | _, _ => false

/-- The options that arrive: rooms, exceptions and flags as they are in the message, none if it has no options. -/
def optionsIn : Option PacketOptions → Opts
  | none => { rooms := some [], except := some [], flags := none }
  | some p => { rooms := some (LSet.addAll [] p.rooms), except := some (LSet.addAll [] p.except), flags := p.flags }

/-- What a message of another server says is to be done here.  `acks`: the broadcasts of this server that wait for
acknowledgements. -/
inductive Says (recovery : Bool) (acks : List Nat) (offset : String) (u : Wire.Uid) : Wire.Message → List Wire.Effect → Prop
  /-- A broadcast; with recovery, an event without id that is not volatile gets the offset as last argument. -/
  | event {opts args nsp} : recovery = true → (∀ f, (optionsIn opts).flags = some f → f.volatile = false) →
      Says recovery acks offset u ⟨u, 3, .broadcast (some ⟨opts, some { type := .event, nsp := nsp, data := .args args }, none⟩)⟩
        [.broadcast { type := .event, nsp := nsp, data := .args (args ++ [.str offset]) } (some (optionsIn opts))]
  | plain {opts p} : (recovery = false ∨ p.type ≠ .event ∨ p.id ≠ none ∨ ∃ f, (optionsIn opts).flags = some f ∧ f.volatile = true) →
      Says recovery acks offset u ⟨u, 3, .broadcast (some ⟨opts, some p, none⟩)⟩ [.broadcast p (some (optionsIn opts))]
  | withAck {opts p req} : Says recovery acks offset u ⟨u, 3, .broadcast (some ⟨opts, some p, some req⟩)⟩
      [.broadcastAck p (some (optionsIn opts)) u req]
  | join {opts rooms} : Says recovery acks offset u ⟨u, 4, .rooms (some ⟨opts, rooms⟩)⟩ [.join (some (optionsIn opts)) rooms]
  | leave {opts rooms} : Says recovery acks offset u ⟨u, 5, .rooms (some ⟨opts, rooms⟩)⟩ [.leave (some (optionsIn opts)) rooms]
  | disconnect {opts close} : Says recovery acks offset u ⟨u, 6, .disconnect (some ⟨opts, close⟩)⟩
      [.disconnect (some (optionsIn opts)) close]
  | fetch {opts req} : Says recovery acks offset u ⟨u, 7, .fetch (some ⟨opts, req⟩)⟩ [.fetch (some (optionsIn opts)) u req]
  | emit {args} : Says recovery acks offset u ⟨u, 9, .emit (some ⟨none, args⟩)⟩ [.event args]
  | emitAck {args req} : Says recovery acks offset u ⟨u, 9, .emit (some ⟨some req, args⟩)⟩ [.eventAck args u req]
  | count {req n} : req ∈ acks → Says recovery acks offset u ⟨u, 11, .count (some ⟨req, n⟩)⟩ [.count req n]
  | answer {req l} : req ∈ acks → Says recovery acks offset u ⟨u, 12, .ack (some ⟨req, l⟩)⟩ [.answer req l]
  | countLate {req n} : req ∉ acks → Says recovery acks offset u ⟨u, 11, .count (some ⟨req, n⟩)⟩ []
  | answerLate {req l} : req ∉ acks → Says recovery acks offset u ⟨u, 12, .ack (some ⟨req, l⟩)⟩ []
  | initial {d} : Says recovery acks offset u ⟨u, 1, d⟩ [.heartbeat]
  | beat {d} : Says recovery acks offset u ⟨u, 2, d⟩ []

/-- The messages and responses that arrive at a server. -/
def arriving : List Wire.Ev → List Wire.Message :=
  List.filterMap fun e => match e with
    | .message m _ => some m
    | .response m => some m
    | _ => none

/-- The ids of the `FetchSockets` requests a server makes. -/
def fetchIds : List Wire.Ev → List Nat :=
  List.filterMap fun e => match e with
    | .request req .fetch _ => some req
    | _ => none

/-- No answer to a server-side event bears the id of a `FetchSockets` request of this server. -/
def idsKeptApart (h : List Wire.Ev) : Prop :=
  ∀ m ∈ arriving h, ∀ d, m.data = .reply (some d) → d.requestId ∉ fetchIds h

/-- The second message is an answer to the first: sockets to `FetchSockets`, a reply to a server-side event that wants one, the
number of clients or the answer of a client to a broadcast that wants acknowledgements. -/
inductive AnswerTo : Wire.Message → Wire.Message → Prop
  | sockets {u v o r l} : AnswerTo ⟨u, 7, .fetch (some ⟨o, r⟩)⟩ ⟨v, 8, .sockets (some ⟨r, l⟩)⟩
  | reply {u v a r l} : AnswerTo ⟨u, 9, .emit (some ⟨some r, a⟩)⟩ ⟨v, 10, .reply (some ⟨r, l⟩)⟩
  | count {u v o p r n} : AnswerTo ⟨u, 3, .broadcast (some ⟨o, p, some r⟩)⟩ ⟨v, 11, .count (some ⟨r, n⟩)⟩
  | ack {u v o p r l} : AnswerTo ⟨u, 3, .broadcast (some ⟨o, p, some r⟩)⟩ ⟨v, 12, .ack (some ⟨r, l⟩)⟩

end Verif.Spec
