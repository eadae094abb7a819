import Verif.Lib.ListExtra

/-!
# Closing a socket from several goroutines (socket/socket.go:618-646)

`_onclose` is called by the goroutine that handles a disconnect packet (socket/client.go:216), by the one that handles the close of
the connection (socket/client.go:233-247), and by `Disconnect`.  Every access to shared state is one step.  One socket; rooms are
numbers.
-/

namespace Verif.CloseRace

/-- Where a call of `_onclose` is. -/
inductive PC where
  /-- `if !s.Connected()` (socket/socket.go:619) -/
  | check
  /-- `EmitReserved("disconnecting")` (socket/socket.go:623) -/
  | disconnecting
  /-- `PersistSession` if the reason allows recovery (socket/socket.go:625-633) -/
  | persist
  /-- `_cleanup`: `leaveAll`, `nsp.Remove` (socket/socket.go:634, 643-646) -/
  | cleanup
  /-- `client._remove` and `connected.Store(false)` (socket/socket.go:635-636) -/
  | flag
  /-- `EmitReserved("disconnect")` (socket/socket.go:637) -/
  | disconnect
  | done
deriving DecidableEq, Repr

inductive Out where
  | disconnecting (k : Nat)
  | saved (rooms : List Nat)
  | disconnect (k : Nat)
deriving DecidableEq, Repr

structure St where
  connected : Bool := true
  rooms : List Nat
  /-- the calls: whether the reason allows recovery, and where it is -/
  ths : List (Bool × PC) := []
  log : List Out := []
deriving DecidableEq, Repr

/-- One step of call `k`. -/
def act (s : St) (k : Nat) (recoverable : Bool) : PC → St × PC
  | .check => (s, if s.connected then .disconnecting else .done)
  | .disconnecting => ({ s with log := s.log ++ [.disconnecting k] }, .persist)
  | .persist => (if recoverable then { s with log := s.log ++ [.saved s.rooms] } else s, .cleanup)
  | .cleanup => ({ s with rooms := [] }, .flag)
  | .flag => ({ s with connected := false }, .disconnect)
  | .disconnect => ({ s with log := s.log ++ [.disconnect k] }, .done)
  | .done => (s, .done)

inductive Ev where
  /-- `_onclose` is called -/
  | close (recoverable : Bool)
  /-- the next step of the `k`-th call -/
  | adv (k : Nat)
deriving DecidableEq, Repr

def advance (s : St) (k : Nat) : St :=
  match s.ths[k]? with
  | some (b, pc) => { (act s k b pc).1 with ths := s.ths.set k (b, (act s k b pc).2) }
  | none => s

def step (s : St) : Ev → St
  | .close b => { s with ths := s.ths ++ [(b, .check)] }
  | .adv k => advance s k

def run (rooms : List Nat) (h : List Ev) : St := h.foldl step { rooms := rooms }

/-! ## A handler that disconnects -/

/-- `_onclose` with a `disconnecting` handler that calls `Disconnect(false)` (socket/socket.go:668-681), which calls `_onclose`
again, as the socket is still connected.  `fuel` bounds the depth of the calls looked at; the result is the number of times the
handler was called, and whether the call came back within the depth. -/
def closeWithin : Nat → (connected : Bool) → Nat × Bool
  | 0, _ => (0, false)
  | _ + 1, false => (0, true)
  | n + 1, true => ((closeWithin n true).1 + 1, (closeWithin n true).2)

end Verif.CloseRace
