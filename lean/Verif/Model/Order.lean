import Verif.Lib.ListExtra

/-!
# Broadcasts at the same time (socket/session-aware-adapter.go:122-144, socket/adapter.go:144-163, 269-306)

Any number of goroutines broadcast to the same sockets, with recovery enabled.  One locked operation is one step: `s.packets.Push`,
then one `WriteToEngine` for each socket, in the order of the iteration over the maps, which is any.  Packets are numbered in the order
in which the calls begin; the number stands for the id `YeastDate` gives (`C12` on these).  Simplified: the broadcasts are all for the
same sockets, which are there from the beginning (`C74` is about sockets that come and go), and a packet is one frame (`C46`).
-/

namespace Verif.Order

/-- Where a broadcast is. -/
inductive PC where
  /-- before `s.packets.Push` (socket/session-aware-adapter.go:136-141) -/
  | push
  /-- in `apply` (socket/adapter.go:157-162): the sockets still to be written to -/
  | write (left : List Nat)
deriving DecidableEq, Repr

/-- `stored`: `s.packets`, oldest first; `casts g`: the last broadcast of goroutine `g` and where it is; `from`: ghost, which
goroutine broadcasts packet `p`; `written s`: what was written to socket `s`, in order; `lost s`: its connection is lost. -/
structure St where
  stored : List Nat := []
  casts : Nat → Option (Nat × PC) := fun _ => none
  emitters : List Nat := []
  written : Nat → List Nat := fun _ => []
  lost : Nat → Bool := fun _ => false

/-- The goroutine is in no broadcast (socket/session-aware-adapter.go:122-144). -/
def idle (s : St) (g : Nat) : Bool :=
  match s.casts g with
  | none => true
  | some (_, .write []) => true
  | _ => false

/-- A table with one entry changed. -/
def upd {α : Type} (f : Nat → α) (k : Nat) (v : α) : Nat → α := fun x => if x = k then v else f x

inductive Ev where
  /-- goroutine `g` calls `Broadcast` -/
  | start (g : Nat)
  /-- it stores the packet -/
  | push (g : Nat)
  /-- it writes to socket `s` -/
  | write (g s : Nat)
  /-- the connection of socket `s` is lost: `_cleanup` takes it out of the tables (socket/socket.go:642-646) -/
  | lose (s : Nat)
deriving DecidableEq, Repr

/-- One step; `members` are the sockets that are broadcast to.  Writing to a socket that is lost does nothing: it is found neither in
the tables of the adapter nor in `nsp.Sockets()` (socket/adapter.go:284, 299). -/
def step (members : List Nat) (s : St) : Ev → St
  | .start g => if idle s g then { s with casts := upd s.casts g (some (s.emitters.length, .push)), emitters := s.emitters ++ [g] } else s
  | .push g =>
    match s.casts g with
    | some (p, .push) => { s with casts := upd s.casts g (some (p, .write members)), stored := s.stored ++ [p] }
    | _ => s
  | .write g k =>
    match s.casts g with
    | some (p, .write left) =>
      if k ∈ left then
        { s with casts := upd s.casts g (some (p, .write (left.filter (· ≠ k))))
                 written := if s.lost k then s.written else upd s.written k (s.written k ++ [p]) }
      else s
    | _ => s
  | .lose k => { s with lost := upd s.lost k true }

def run (members : List Nat) (h : List Ev) : St := h.foldl (step members) {}

/-- What `RestoreSession` sends to a client that gives `offset` (socket/session-aware-adapter.go:93-115), all packets being for it:
those after the packet with that id; `none` if there is none (socket/session-aware-adapter.go:97-100). -/
def replay (stored : List Nat) (offset : Nat) : Option (List Nat) :=
  match stored.dropWhile (· ≠ offset) with
  | [] => none
  | _ :: l => some l

end Verif.Order
