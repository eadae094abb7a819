import Verif.Model.Inbound

/-! # What the decoder promises, and what a client can make the server do -/

namespace Verif.Spec
open Verif Verif.Inbound

/-- The data fits the type of the packet: an event has a list that starts with a name, an acknowledgement has a list. -/
def Decoded (p : Inbound.Packet) : Prop :=
  match p.type with
  | .event | .binaryEvent => ∃ name rest, p.data = .arr (.str name :: rest)
  | .ack | .binaryAck => ∃ l, p.data = .arr l
  | _ => True

/-- The names the documentation reserves (socket/socket.go:21). -/
def reservedNames : List String := ["connect", "connect_error", "disconnect", "disconnecting", "newListener", "removeListener"]

/-- Moreover no event has a reserved name. -/
def DecodedStrict (p : Inbound.Packet) : Prop :=
  Decoded p ∧ ∀ name rest, p.type = .event ∨ p.type = .binaryEvent → p.data = .arr (.str name :: rest) → name ∉ reservedNames

/-- In this history, a `RemoteSocket` has been asked for an acknowledgement with this id. -/
def RemoteAck (h : List Inbound.Ev) (id : Nat) : Prop := ∃ ref, .emitAck ref id true ∈ h

/-- An answer that is one value, and that value is not a list. -/
def LoneScalar (v : JVal) : Prop := ∃ x, v = .arr [x] ∧ ∀ l, x ≠ .arr l

/-- `name` was fired on socket `ref`, how many times. -/
def isFired (ref : Nat) (name : String) : Obs → Bool
  | .fired r n _ => r == ref && n == name
  | _ => false

def timesFired (s : Inbound.St) (ref : Nat) (name : String) : Nat := (s.log.filter (isFired ref name)).length

/-- The reasons the library gives for a disconnection. -/
def Reason (h : List Inbound.Ev) (r : String) : Prop :=
  r ∈ ["client namespace disconnect", "server namespace disconnect", "forced server close"] ∨ .lost r ∈ h

/-- Values a JSON or msgpack decoder gives: no Go string slices, string maps or query values. -/
inductive Json : JVal → Prop where
  | null : Json .null
  | bool b : Json (.bool b)
  | num n : Json (.num n)
  | str s : Json (.str s)
  | bin l : Json (.bin l)
  | arr l : (∀ x ∈ l, Json x) → Json (.arr l)
  | obj l : (∀ x ∈ l, Json x.2) → Json (.obj l)

/-- The field of an object, if it is this string and not empty. -/
def HasText (fields : List (String × JVal)) (key value : String) : Prop := fields.lookup key = some (.str value) ∧ value ≠ ""

/-- The field of an object, if it is this string and not empty, or a list of strings that ends with it. -/
def EndsInText (fields : List (String × JVal)) (key value : String) : Prop :=
  value ≠ "" ∧ (fields.lookup key = some (.str value) ∨ ∃ l, fields.lookup key = some (.strs (l ++ [value])))

/-! ## After the disconnection -/

/-- Socket `ref` has been disconnected. -/
def Disconnected (s : Inbound.St) (ref : Nat) : Prop := ∃ k, s.socks[ref]? = some k ∧ k.connected = false

/-- This is a call of user code on behalf of socket `ref`: of a listener of any kind, or of a callback. -/
def isCall (ref : Nat) : Obs → Bool
  | .catchAll r _ => r == ref
  | .fired r _ _ => r == ref
  | .answered r _ _ => r == ref
  | _ => false

/-- A call of a catch-all listener or of a callback. -/
def isHandled (ref : Nat) : Obs → Bool
  | .catchAll r _ => r == ref
  | .answered r _ _ => r == ref
  | _ => false

/-- A call of the listeners of an event, other than of "error". -/
def isEvent (ref : Nat) : Obs → Bool
  | .fired r name _ => r == ref && name != "error"
  | _ => false

/-- A goroutine has a packet for socket `ref`, that it has not yet looked at. -/
def hasPacket (ref : Nat) : Option Inbound.Task → Bool
  | some (.onpacket r _) => r == ref
  | _ => false

/-- A goroutine has an event for socket `ref`, and has seen the socket connected. -/
def hasEvent (ref : Nat) : Option Inbound.Task → Bool
  | some (.fire r _ _) => r == ref
  | _ => false

/-- A goroutine works for socket `ref`. -/
def worksFor (ref : Nat) : Option Inbound.Task → Bool
  | some (.onpacket r _) => r == ref
  | some (.gate r _) => r == ref
  | some (.deliver r _ _) => r == ref
  | some (.fire r _ _) => r == ref
  | none => false

/-- The callback of that acknowledgement of that socket has run. -/
def isAnswer (ref id : Nat) : Inbound.Obs → Bool
  | .answered r i _ => r == ref && i == id
  | _ => false

/-- The application emitted to that socket, asking for an acknowledgement with that number. -/
def asksAck (ref id : Nat) : Inbound.Ev → Bool
  | .emitAck r i _ => r == ref && i == id
  | _ => false

/-! ## Protocol violations -/

/-- Socket `ref` of the client is connected, to namespace `nsp`. -/
def In (s : Inbound.St) (nsp : String) (ref : Nat) : Prop := ∃ k, s.socks[ref]? = some k ∧ k.nsp = nsp ∧ k.connected = true

/-- The client may not send this packet now: it names a namespace the client is not in and does not ask for it, or it asks for a
namespace the client is in (or is a packet only servers send). -/
def Violates (s : Inbound.St) (p : Inbound.Packet) : Prop :=
  ((∀ ref, ¬ In s p.nsp ref) ∧ p.type ≠ .connect) ∨ ((∃ ref, In s p.nsp ref) ∧ (p.type = .connect ∨ p.type = .connectError))

/-- The client is let into a namespace only when it is not in it (see C61 for the code that should ensure this). -/
def JoinedOnce (h : List Inbound.Ev) : Prop :=
  ∀ h₁ nsp h₂, h = h₁ ++ .join nsp :: h₂ → ∀ ref, ¬ In (Inbound.run h₁) nsp ref

/-- What is observed when the connection is lost for that reason: every connected socket fires "disconnecting" and "disconnect". -/
def goodbyes (s : Inbound.St) (reason : String) : List Inbound.Obs :=
  (List.range s.socks.length).flatMap fun ref =>
    if ((s.socks[ref]?).map (·.connected)).getD false then
      [.fired ref "disconnecting" [.str reason], .fired ref "disconnect" [.str reason]]
    else []

end Verif.Spec
