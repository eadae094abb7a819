import Verif.Lib.ListExtra

/-!
# Joining rooms while the socket is closed (socket/socket.go:473-480, 618-646)

Any number of goroutines call `Join` and close one socket.  `Join` looks at `canJoin` and then adds the socket to the rooms; the
close empties the rooms and then clears `canJoin`.  Every access to shared state is one step; `AddAll` and `DelAll` are one step each
(their own steps are in `Model/RoomRace`).  Rooms are numbers.
-/

namespace Verif.JoinRace

/-- A call: `Join(rooms...)`, or `_onclose` with a reason that allows recovery or not. -/
inductive Kind where
  | join (rooms : List Nat)
  | close (recoverable : Bool)
deriving DecidableEq, Repr

/-- Where a call is. -/
inductive PC where
  /-- `s.canJoin.Load()` (socket/socket.go:474), `s.Connected()` (socket/socket.go:619) -/
  | check
  /-- `s.adapter.AddAll` (socket/socket.go:479) -/
  | add
  /-- `EmitReserved("disconnecting")` (socket/socket.go:623) -/
  | disconnecting
  /-- `PersistSession`, if the reason allows recovery (socket/socket.go:625-633) -/
  | persist
  /-- `s.leaveAll()` (socket/socket.go:643) -/
  | leaveAll
  /-- `s.nsp.Remove(s)` (socket/socket.go:644) -/
  | remove
  /-- `s.canJoin.Store(false)` (socket/socket.go:645) -/
  | forbid
  /-- `s.client._remove(s)`, `s.connected.Store(false)` (socket/socket.go:635-636) -/
  | flag
  /-- `EmitReserved("disconnect")` (socket/socket.go:637) -/
  | disconnect
  /-- returned; `through`: the check was passed -/
  | done (through : Bool)
deriving DecidableEq, Repr

/-- What is observed: the `k`-th call begins and ends, the events, the rooms of the session that is saved. -/
inductive Out where
  | called (k : Nat)
  | returned (k : Nat)
  | disconnecting (k : Nat)
  | disconnect (k : Nat)
  /-- the handlers of "disconnecting" have returned -/
  | handled (k : Nat)
  | saved (k : Nat) (rooms : List Nat)
deriving DecidableEq, Repr

structure St where
  connected : Bool := true
  canJoin : Bool := true
  /-- the socket is in the table of the namespace -/
  registered : Bool := true
  rooms : List Nat
  ths : List (Kind × PC) := []
  log : List Out := []
deriving DecidableEq, Repr

/-- `Set.Add` for every room. -/
def addRooms (l : List Nat) (rs : List Nat) : List Nat := rs.foldl (fun l r => if r ∈ l then l else l ++ [r]) l

/-- One step of call `k`. -/
def act (s : St) (k : Nat) : Kind → PC → St × PC
  | .join _, .check => if s.canJoin then (s, .add) else ({ s with log := s.log ++ [.returned k] }, .done false)
  | .join rs, .add => ({ s with rooms := addRooms s.rooms rs, log := s.log ++ [.returned k] }, .done true)
  | .close _, .check => if s.connected then (s, .disconnecting) else ({ s with log := s.log ++ [.returned k] }, .done false)
  | .close _, .disconnecting => ({ s with log := s.log ++ [.disconnecting k] }, .persist)
  | .close b, .persist => ({ s with log := s.log ++ .handled k :: if b then [.saved k s.rooms] else [] }, .leaveAll)
  | .close _, .leaveAll => ({ s with rooms := [] }, .remove)
  | .close _, .remove => ({ s with registered := false }, .forbid)
  | .close _, .forbid => ({ s with canJoin := false }, .flag)
  | .close _, .flag => ({ s with connected := false }, .disconnect)
  | .close _, .disconnect => ({ s with log := s.log ++ [.disconnect k, .returned k] }, .done true)
  | _, pc => (s, pc)

inductive Ev where
  | call (c : Kind)
  /-- the next step of the `k`-th call -/
  | adv (k : Nat)
deriving DecidableEq, Repr

def advance (s : St) (k : Nat) : St :=
  match s.ths[k]? with
  | some (c, pc) => { (act s k c pc).1 with ths := s.ths.set k (c, (act s k c pc).2) }
  | none => s

def step (s : St) : Ev → St
  | .call c => { s with ths := s.ths ++ [(c, .check)], log := s.log ++ [.called s.ths.length] }
  | .adv k => advance s k

/-- `rooms` are the rooms the socket is in at the start. -/
def run (rooms : List Nat) (h : List Ev) : St := h.foldl step { rooms := rooms }

end Verif.JoinRace
