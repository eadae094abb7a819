import Verif.Model.CloseLoop

/-! # Closing many sockets while sockets come and go -/

namespace Verif.Spec
open Verif.CloseLoop

/-- Call number `k` has returned. -/
def cameBack (s : CloseLoop.St) (k : Nat) : Prop := s.calls[k]? = some ([], .next)

/-- The state after `p`, then a call that closes `ids`, then `q`. -/
def afterClose (p : List CloseLoop.Ev) (ids : List Nat) (q : List CloseLoop.Ev) : CloseLoop.St := CloseLoop.run (p ++ .close ids :: q)

/-- The number of the call that begins after `p`. -/
def callNo (p : List CloseLoop.Ev) : Nat := (CloseLoop.run p).calls.length

/-- The socket a call is just closing. -/
def atWork : LPC → Option Nat
  | .next => none
  | .check id | .disconnecting id | .remove id | .forbid id | .unflag id | .disconnect id => some id

/-- No call is just closing this socket. -/
def Undisturbed (s : CloseLoop.St) (id : Nat) : Prop := ∀ c ∈ s.calls, atWork c.2 ≠ some id

end Verif.Spec
