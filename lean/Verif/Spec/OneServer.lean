import Verif.Spec.Cluster

/-! # One socket of a server that is not a cluster -/

namespace Verif.Spec
open Verif

/-- What a user sees of a socket: whether it is connected, its rooms, the packets its client was sent. -/
structure OneSock where
  on : Bool := true
  rooms : List Room := []
  got : List Pkt := []
deriving DecidableEq

/-- The socket is connected, in one of the targeted rooms (in any case if there are none), in none of the
excepted ones. -/
def OneSock.chosen (x : OneSock) (o : Option Opts) : Bool :=
  x.on && ((targeted o).isEmpty || (targeted o).any (x.rooms.contains ·)) && !(excepted o).any (x.rooms.contains ·)

/-- A call as one server executes it.  `here`: the call was made on the server to which the socket is
connected, which only matters for calls with the flag Local. -/
def OneSock.after (recovery here : Bool) (offset : String) (x : OneSock) : Cluster.Cmd → OneSock
  | .broadcast p o =>
    if !x.chosen o then x
    else if LocalOnly o then (if here then { x with got := x.got ++ [p] } else x)
    else { x with got := x.got ++ [withOffset recovery offset o p] }
  | .join o joined => if x.chosen o && (here || !LocalOnly o) then { x with rooms := x.rooms ++ joined } else x
  | .leave o left =>
    if x.chosen o && (here || !LocalOnly o) then { x with rooms := x.rooms.filter (!left.contains ·) } else x
  | .disconnect o _ => if x.chosen o && (here || !LocalOnly o) then { x with on := false, rooms := [] } else x
  | .emit .. => x

/-- The calls of a history, one after the other; `home` is the server to which the socket is connected. -/
def OneSock.afterAll (recovery : Bool) (home : Nat) (x : OneSock) (h : List Cluster.Ev) : OneSock :=
  h.foldl (fun x e => match e with
    | .call i op res => x.after recovery (home == i) (res.getD "") op
    | .deliver _ => x) x

/-- What server `n` shows of the socket `ref` with id `s`. -/
def Shows (n : Delivery.Nsp) (s : Sid) (ref : Nat) (x : OneSock) : Prop :=
  n.sockets.get? s = (if x.on then some ref else none) ∧
  (∀ r, r ∈ Adapter.roomsOf n.ad s ↔ r ∈ x.rooms) ∧
  n.out.filterMap (fun y => if y.1 = ref then some y.2 else none) = x.got

section
variable {σ : Type} (exec : Cluster.Op → σ → σ) (n : Nat) (echo recovery : Bool) (init : Nat → σ)

/-- Every call is made on one of the servers and published without error. -/
def Published (h : List Cluster.Ev) : Prop :=
  ∀ i op res, Cluster.Ev.call i op res ∈ h → i < n ∧ res ≠ none

/-- Nothing sent to server `i` by another server is still under way. -/
def CaughtUp (s : Cluster.St σ) (i : Nat) : Prop := ∀ m, (i, m) ∈ s.net → m.src = i

/-- The `k`-th message under way is the oldest one for its destination. -/
def Oldest (s : Cluster.St σ) (k : Nat) : Prop :=
  ∀ k' j m m', k' < k → s.net[k]? = some (j, m) → s.net[k']? ≠ some (j, m')

/-- Every server receives messages in the order in which they were sent, and has received those of the
earlier calls when it makes one itself. -/
def InTurn (h : List Cluster.Ev) : Prop :=
  ∀ h₁ e h₂, h = h₁ ++ e :: h₂ →
    (∀ i op res, e = .call i op res → CaughtUp (Cluster.run exec n echo recovery init h₁) i) ∧
    (∀ k, e = .deliver k → Oldest (Cluster.run exec n echo recovery init h₁) k)

end
end Verif.Spec
