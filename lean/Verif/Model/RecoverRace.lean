import Verif.Lib.ListExtra

/-!
# A recovery while packets are broadcast (socket/namespace.go:331-364, socket/session-aware-adapter.go:58-144)

One session is being recovered by one goroutine, while others broadcast and the clean-up timer fires.  Each locked operation on the
shared tables is one step.  Packets are numbers, each broadcast once (the id that `YeastDate` gives it).  `mine p` says whether packet
`p` is for the rooms of the session (`shouldIncludePacket`, socket/session-aware-adapter.go:146-161; that this is the same choice as
the one made for a connected socket is `C09`).  Simplified: the rooms of the session are joined in one step, and `i < s.packets.Len()`
is one step with `s.packets.Get(i)` (when the list shrinks in between, `Get` fails and the loop ends as well).  The session has not
expired.
-/

namespace Verif.RecoverRace

/-- Where the recovery is. -/
inductive RPC where
  /-- `s.packets.FindIndex` (socket/session-aware-adapter.go:93-95) -/
  | find
  /-- `make([]any, 0, s.packets.Len()-index-1)` (socket/session-aware-adapter.go:103) -/
  | alloc (index : Nat)
  /-- the loop (socket/session-aware-adapter.go:106-115) -/
  | get (i : Nat)
  /-- `NewSocket`: the rooms (socket/socket.go:216-218) -/
  | join
  /-- `NewSocket`: the missed packets are sent (socket/socket.go:220-225) -/
  | send
  /-- the middlewares, if any (socket/namespace.go:274) -/
  | middlewares
  /-- `n.sockets.Store` (socket/namespace.go:350) -/
  | store
  | done
  /-- no session: the client gets a new socket (socket/namespace.go:345) -/
  | fresh
  /-- `make` panics: the capacity is negative -/
  | panic
deriving DecidableEq, Repr

/-- Where a broadcast is. -/
inductive CPC where
  /-- `s.packets.Push` (socket/session-aware-adapter.go:136-141) -/
  | push
  /-- the members of the rooms are looked up (socket/adapter.go:280-284, 296) -/
  | room
  /-- the socket is looked up by its id, and written to (socket/adapter.go:288-291, 300-302) -/
  | socket
  | done
deriving DecidableEq, Repr

structure St where
  packets : List Nat
  casts : List (Nat × CPC) := []
  rpc : RPC := .find
  missed : List Nat := []
  inRoom : Bool := false
  stored : Bool := false
  /-- the packets sent by the recovery -/
  replayed : List Nat := []
  /-- the packets sent by broadcasts -/
  live : List Nat := []
deriving DecidableEq, Repr

/-- The index of the first packet with the id (`FindIndex`, -1 is `none`). -/
def findIndex (o : Nat) : List Nat → Option Nat
  | [] => none
  | p :: l => if p = o then some 0 else (findIndex o l).map (· + 1)

/-- One step of the recovery from the packet `offset`. -/
def recStep (mine : Nat → Bool) (offset : Nat) (s : St) : RPC → St
  | .find =>
    match findIndex offset s.packets with
    | some i => { s with rpc := .alloc i }
    | none => { s with rpc := .fresh }
  | .alloc i => { s with rpc := if s.packets.length < i + 1 then .panic else .get (i + 1) }
  | .get i =>
    match s.packets[i]? with
    | some p => { s with rpc := .get (i + 1), missed := s.missed ++ (if mine p then [p] else []) }
    | none => { s with rpc := .join }
  | .join => { s with rpc := .send, inRoom := true }
  | .send => { s with rpc := .middlewares, replayed := s.missed }
  | .middlewares => { s with rpc := .store }
  | .store => { s with rpc := .done, stored := true }
  | .done => s
  | .fresh => s
  | .panic => s

/-- One step of a broadcast of `p`. -/
def castStep (mine : Nat → Bool) (s : St) (p : Nat) : CPC → St × CPC
  | .push => ({ s with packets := s.packets ++ [p] }, .room)
  | .room => (s, if mine p && s.inRoom then .socket else .done)
  | .socket => (if s.stored then { s with live := s.live ++ [p] } else s, .done)
  | .done => (s, .done)

inductive Ev where
  /-- somebody broadcasts `p` -/
  | cast (p : Nat)
  /-- the next step of the `k`-th broadcast -/
  | adv (k : Nat)
  /-- the next step of the recovery -/
  | recover
  /-- the timer drops the `n` oldest packets (socket/session-aware-adapter.go:66-68) -/
  | clean (n : Nat)
deriving DecidableEq, Repr

def advance (mine : Nat → Bool) (s : St) (k : Nat) : St :=
  match s.casts[k]? with
  | some (p, pc) => { (castStep mine s p pc).1 with casts := s.casts.set k (p, (castStep mine s p pc).2) }
  | none => s

def step (mine : Nat → Bool) (offset : Nat) (s : St) : Ev → St
  | .cast p => { s with casts := s.casts ++ [(p, .push)] }
  | .adv k => advance mine s k
  | .recover => recStep mine offset s s.rpc
  | .clean n => { s with packets := s.packets.drop n }

/-- `old` are the packets kept when the observation starts, oldest first. -/
def run (mine : Nat → Bool) (offset : Nat) (old : List Nat) (h : List Ev) : St := h.foldl (step mine offset) { packets := old }

end Verif.RecoverRace
