import Verif.Model.Values

/-!
# Acknowledging an incoming event (socket/socket.go:569-582; adapter/cluster-adapter.go:198-214)

The acknowledgement function handed to the listeners is called by any number of goroutines; `mk` builds what
the call that gets through sends: an ACK packet, or a response to another server.  `sync.Once.Do(f)`: the first
caller runs `f`, the others wait until it has finished and return.
-/

namespace Verif.Once
open Verif

/-- The state of the `sync.Once`: not used, running in goroutine `k`, done. -/
inductive OnceSt where
  | fresh
  | running (k : Nat)
  | done
deriving DecidableEq, Repr

/-- A call of the acknowledgement function: not started, inside `f` before the packet is written,
inside `f` after, returned. -/
inductive Pc where
  | start | inside | written | returned
deriving DecidableEq, Repr

structure St (α : Type) where
  once : OnceSt := .fresh
  calls : List (List Val × Pc) := []
  sent : List α := []
deriving DecidableEq, Repr

inductive Ev where
  | call (args : List Val)
  | adv (k : Nat)
deriving DecidableEq, Repr

variable {α : Type}

/-- The next step of call `k` (socket/socket.go:571-581; adapter/cluster-adapter.go:201-211). -/
def advCall (mk : List Val → α) (s : St α) (k : Nat) (args : List Val) (pc : Pc) : St α :=
  match pc with
  | .start => match s.once with
    | .fresh => { s with once := .running k, calls := s.calls.set k (args, .inside) }
    | .running _ => s
    | .done => { s with calls := s.calls.set k (args, .returned) }
  | .inside => { s with sent := s.sent ++ [mk args],
                        calls := s.calls.set k (args, .written) }
  | .written => { s with once := .done, calls := s.calls.set k (args, .returned) }
  | .returned => s

def step (mk : List Val → α) (s : St α) : Ev → St α
  | .call args => { s with calls := s.calls ++ [(args, .start)] }
  | .adv k => match s.calls[k]? with
    | some (args, pc) => advCall mk s k args pc
    | none => s

def run (mk : List Val → α) (h : List Ev) : St α := h.foldl (step mk) {}

/-- The ACK packet sent by a socket (socket/socket.go:576-580); `id` is the id of the event, `nsp` the
namespace set by `packet` (socket/socket.go:454). -/
def ackPkt (nsp : String) (id : Nat) (args : List Val) : Pkt :=
  { type := .ack, nsp := nsp, data := .args args, id := some id }

/-- The response to a server-side event (adapter/cluster-adapter.go:203-209). -/
structure Response where
  to : Nat
  req : Nat
  packet : List Val
deriving DecidableEq, Repr

def sseResponse (to req : Nat) (args : List Val) : Response := ⟨to, req, args⟩

end Verif.Once
