import Verif.Model.World

/-!
# Who waits for whom (socket/client.go:28, 175-187)

The only lock of the library is the mutex of a client, which `WriteToEngine` holds while it hands the frames of a packet to the
connection.  A call that sends (an emission, an acknowledgement, a broadcast) writes to one client after the other
(socket/adapter.go:157-163).  `conn.Write` is outside /repo: it returns, but before it does, the connection may call the listeners a
program has registered on it, and these may send themselves.  What the frames are, and which of them are dropped, is the subject of
`Writer`: here a packet is the number of its frames.
-/

namespace Verif.Locks
open Verif Verif.World

/-- Where a call is: before the next of the clients it has still to write to, each with the number of frames; or holding the mutex of
client `c`, with `n` frames still to be written. -/
inductive Fr where
  | next (todo : List (Nat × Nat))
  | writing (c n : Nat) (todo : List (Nat × Nat))
deriving DecidableEq, Repr

/-- The calls each goroutine is in, the innermost first; whether the mutex of a client is locked. -/
structure St where
  ths : List (List Fr) := []
  lock : Nat → Bool := fun _ => false

/-- A goroutine makes a call; goroutine `k` makes a step; while goroutine `k` is in `conn.Write`, a listener of the connection makes a
call. -/
inductive Ev where
  | call (p : List (Nat × Nat))
  | adv (k : Nat)
  | callback (k : Nat) (p : List (Nat × Nat))
deriving DecidableEq, Repr

/-- One step of the innermost call of goroutine `k`. -/
def act (s : St) (k : Nat) (rest : List Fr) : Fr → St
  | .next [] => { s with ths := s.ths.set k rest }
  | .next ((c, n) :: todo) =>
    -- socket/client.go:176
    if s.lock c then s
    else { s with lock := upd s.lock c true, ths := s.ths.set k (.writing c n todo :: rest) }
  -- socket/client.go:184-186
  | .writing c (n + 1) todo => { s with ths := s.ths.set k (.writing c n todo :: rest) }
  -- socket/client.go:177
  | .writing c 0 todo => { s with lock := upd s.lock c false, ths := s.ths.set k (.next todo :: rest) }

def step (s : St) : Ev → St
  | .call p => { s with ths := s.ths ++ [[.next p]] }
  | .adv k => match s.ths[k]? with
    | some (f :: rest) => act s k rest f
    | _ => s
  | .callback k p => match s.ths[k]? with
    | some (.writing c (n + 1) todo :: rest) => { s with ths := s.ths.set k (.next p :: .writing c (n + 1) todo :: rest) }
    | _ => s

def run (h : List Ev) : St := h.foldl step {}

end Verif.Locks
