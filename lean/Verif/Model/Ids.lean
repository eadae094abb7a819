import Verif.Model.Values

/-!
# Acknowledgement ids under concurrency (socket/namespace.go:141-143)

Goroutines that request ids: `socket.Emit` with a callback stores one entry (socket/socket.go:292-295),
a broadcast with acknowledgement stores one per selected socket (socket/adapter.go:184-196).  Each
`adv k` is one operation of goroutine `k`.
-/

namespace Verif.Ids
open Verif

/-- A goroutine: the sockets whose table it still has to update, the id once drawn. -/
structure Thread where
  todo : List Nat
  id : Option (BitVec 64) := none
deriving DecidableEq, Repr

/-- `ids` is `_ids` (an `atomic.Uint64`); `acks` are the tables of the sockets, each entry holding the
number of the goroutine whose callback was stored. -/
structure St where
  ids : BitVec 64 := 0
  threads : List Thread := []
  acks : FMap (Nat × BitVec 64) Nat := []
deriving DecidableEq, Repr

inductive Ev where
  | request (socks : List Nat)
  | adv (k : Nat)
deriving DecidableEq, Repr

/-- One operation of goroutine `k`: the atomic `Add(1)`, whose result is the new value, or one `Store`
into the table of a socket. -/
def advThread (s : St) (k : Nat) (t : Thread) : St :=
  match t.id with
  | none => { s with ids := s.ids + 1, threads := s.threads.set k { t with id := some (s.ids + 1) } }
  | some id => match t.todo with
    | [] => s
    | sock :: rest =>
      { s with acks := s.acks.insert (sock, id) k, threads := s.threads.set k { t with todo := rest } }

def step (s : St) : Ev → St
  | .request socks => { s with threads := s.threads ++ [{ todo := socks }] }
  | .adv k => match s.threads[k]? with
    | some t => advThread s k t
    | none => s

def run (h : List Ev) : St := h.foldl step {}

end Verif.Ids
