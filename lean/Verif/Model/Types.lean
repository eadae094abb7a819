import Verif.Lib.FMap

/-! # Types shared by the models of the adapter layer -/

namespace Verif

/-- `Room` (socket/adapter-type.go:22) is a Go string. -/
abbrev Room := String

/-- `SocketId` (socket/adapter-type.go:14) is a Go string.  The code converts freely
between socket ids and rooms (`Room(s.id)`), so both are the same Lean type. -/
abbrev Sid := String

/-- `BroadcastFlags` with the embedded `WriteOptions` (socket/adapter-type.go:24-40).
Simplified: the pre-encoded websocket frame inside `packet.Options` is left out (it is a cache of
the encoded packet); the timeout is a number of time units. -/
structure Flags where
  compress : Bool := false
  volatile : Bool := false
  preEncoded : Bool := false
  isLocal : Bool := false
  broadcast : Bool := false
  binary : Bool := false
  timeout : Option Nat := none
  expectSingle : Bool := false
deriving DecidableEq, Repr

/-- `BroadcastOptions` (socket/adapter-type.go:42-46).  `none` is a nil pointer. -/
structure Opts where
  rooms : Option (List Room) := none
  except : Option (List Room) := none
  flags : Option Flags := none
deriving DecidableEq, Repr

end Verif
