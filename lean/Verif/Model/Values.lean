import Verif.Model.Types

/-! # Event arguments and packets -/

namespace Verif

/-- Scalar event arguments. -/
inductive Atom where
  | str (s : String)
  | num (n : Int)
deriving DecidableEq, Repr

/-- Event arguments (Go's `any`).  Simplified: scalars, arrays of scalars and functions; `fn k` is the
`k`-th acknowledgement callback (a Go value of type `Ack`, socket/socket.go:26). -/
inductive Val where
  | at (a : Atom)
  | arr (l : List Atom)
  | fn (k : Nat)
deriving DecidableEq, Repr

abbrev Val.str (s : String) : Val := .at (.str s)
abbrev Val.num (n : Int) : Val := .at (.num n)

/-- `parser.PacketType` (library socket.io-go-parser; used in socket/client.go:213-218 and
socket/socket.go:534-547). -/
inductive PType where
  | connect | disconnect | event | ack | connectError | binaryEvent | binaryAck
deriving DecidableEq, Repr

/-- The payloads the server puts into `packet.Data`: nothing, an argument array, the CONNECT payload
(socket/socket.go:522-528), or an error payload (socket/namespace.go:285-295,
socket/client.go:107-109). -/
inductive PData where
  | nil
  | args (l : List Val)
  | connect (sid pid : String)
  | error (message : String) (data : Option Val)
deriving DecidableEq, Repr

/-- `parser.Packet`. -/
structure Pkt where
  type : PType
  nsp : String := ""
  data : PData := .nil
  id : Option Nat := none
deriving DecidableEq, Repr

end Verif
