import Verif.Lib.ListExtra

/-!
# Modifiers of one socket used by several goroutines (socket/socket.go:280-314, 346-361, 691-750, 1011-1015)

A chain such as `socket.Volatile().Emit("a")`: the modifiers are written into the structure the field `flags` of the socket points to,
the emission copies that structure and makes the field point to a new one.  Every access to shared memory is one step.  Simplified: the
copy of the structure is one step; a chain ends with an emission or with the creation of an operator (`socket.Volatile().To("room")`),
which do the same with the modifiers (socket/socket.go:298-299, 1012-1013).
-/

namespace Verif.FlagRace

/-- `Compress(b)`, `Volatile()`, `Timeout(d)` (socket/socket.go:691-694, 704-707, 747-750). -/
inductive Mod where
  | compress (b : Bool)
  | volatile
  | timeout (d : Nat)
deriving DecidableEq, Repr

/-- `BroadcastFlags` (socket/adapter-type.go:31-40) as far as sockets set them. -/
structure F where
  compress : Bool := false
  volatile : Bool := false
  timeout : Option Nat := none
deriving DecidableEq, Repr

/-- The write of a modifier. -/
def set (f : F) : Mod → F
  | .compress b => { f with compress := b }
  | .volatile => { f with volatile := true }
  | .timeout d => { f with timeout := some d }

/-- A chain: its modifiers, and whether the emission asks for an acknowledgement. -/
structure Call where
  mods : List Mod
  ack : Bool
deriving DecidableEq, Repr

inductive PC where
  /-- `s.flags.Load()` of the modifier with that index; after the last one, of `registerAckCallback` or of the emission -/
  | next (i : Nat)
  /-- the write through the pointer `c` -/
  | write (i c : Nat)
  /-- `.Timeout` is read through the pointer (socket/socket.go:347) -/
  | ackRead (c : Nat)
  /-- `s.flags.Load()` (socket/socket.go:298) -/
  | load (t : Option Nat)
  /-- `flags := *…` -/
  | copy (t : Option Nat) (c : Nat)
  /-- `s.flags.Store(&BroadcastFlags{})` (socket/socket.go:299), then the packet is written with the copy -/
  | store (t : Option Nat) (f : F)
  | done
deriving DecidableEq, Repr

/-- A chain begins; it emits with these flags, its acknowledgement has this timeout. -/
inductive Out where
  | began (k : Nat)
  | emitted (k : Nat) (f : F) (t : Option Nat)
deriving DecidableEq, Repr

/-- The structures allocated so far; the field of the socket points to the last one. -/
structure St where
  cells : List F := [{}]
  ths : List (Call × PC) := []
  log : List Out := []
deriving DecidableEq, Repr

/-- The pointer in the field. -/
def cur (s : St) : Nat := s.cells.length - 1

/-- One step of chain `k`. -/
def act (s : St) (k : Nat) (c : Call) : PC → St × PC
  | .next i =>
    if i < c.mods.length then (s, .write i (cur s))
    else if c.ack then (s, .ackRead (cur s)) else (s, .copy none (cur s))
  | .write i p =>
    match c.mods[i]? with
    | some m => ({ s with cells := s.cells.modify p (set · m) }, .next (i + 1))
    | none => (s, .next (i + 1))
  | .ackRead p => (s, .load (((s.cells[p]?).map (·.timeout)).getD none))
  | .load t => (s, .copy t (cur s))
  | .copy t p => (s, .store t ((s.cells[p]?).getD {}))
  | .store t f => ({ s with cells := s.cells ++ [{}], log := s.log ++ [.emitted k f t] }, .done)
  | .done => (s, .done)

inductive Ev where
  | call (c : Call)
  | adv (k : Nat)
deriving DecidableEq, Repr

def advance (s : St) (k : Nat) : St :=
  match s.ths[k]? with
  | some (c, pc) => { (act s k c pc).1 with ths := s.ths.set k (c, (act s k c pc).2) }
  | none => s

def step (s : St) : Ev → St
  | .call c => { s with ths := s.ths ++ [(c, .next 0)], log := s.log ++ [.began s.ths.length] }
  | .adv k => advance s k

def run (h : List Ev) : St := h.foldl step {}

end Verif.FlagRace
