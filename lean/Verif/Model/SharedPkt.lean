import Verif.Model.Values
import Verif.Lib.ListExtra

/-!
# The packet of a broadcast in a cluster (adapter/cluster-adapter.go:118-121, 292-329)

`Broadcast` gives the packet to the transport, then appends the offset to its data, then broadcasts it to its own sockets.
`OnMessage` appends the offset to the data of the packet it was given and broadcasts that.  A packet is an object on the heap, of
which the message has a pointer: what a server appends is seen by everybody who has the same object.  Every access is one step.  The
transport may copy the packet when it is published, later, or not at all (a transport within one process).
-/

namespace Verif.SharedPkt
open Verif

/-- Where a call of `Broadcast` or a message is. -/
inductive PC where
  /-- `PublishAndReturnOffset` (adapter/cluster-adapter.go:296-302) -/
  | publish
  /-- the message has not arrived -/
  | underway
  /-- `addOffsetIfNecessary` (adapter/cluster-adapter.go:307, 120) -/
  | offset
  /-- `c.Adapter.Broadcast` (adapter/cluster-adapter.go:310, 121) -/
  | send
  | done
deriving DecidableEq, Repr

/-- A call of `Broadcast`: the server, the data of the packet, the offset the transport gives it. -/
structure Call where
  server : Nat
  args : List Val
  offset : String
deriving DecidableEq, Repr

/-- What goes on for call `call` on a server, with the packet at `ptr`. -/
structure Th where
  server : Nat
  call : Nat
  ptr : Nat
  pc : PC
deriving DecidableEq, Repr

/-- `heap`: the data of the packets; `got`: what the sockets of a server were sent, with the call. -/
structure St where
  heap : List (List Val) := []
  calls : List Call := []
  ths : List Th := []
  got : List (Nat × Nat × List Val) := []
deriving DecidableEq, Repr

/-- `prompt`: the transport copies the packet, for each server, in `DoPublish`.  `stored`: the condition of `addOffsetIfNecessary`
(adapter/cluster-adapter.go:316-326): recovery is enabled, and the packet is an event without acknowledgement that is not volatile. -/
structure Cfg where
  n : Nat
  prompt : Bool
  stored : Bool
deriving DecidableEq, Repr

/-- The servers other than `i`. -/
def others (n i : Nat) : List Nat := (List.range n).filter (· ≠ i)

/-- The data at a pointer. -/
def St.data (s : St) (p : Nat) : List Val := s.heap[p]?.getD []

/-- `packet.Data = append(packet.Data.([]any), offset)` (adapter/cluster-adapter.go:327).  Simplified: packets do not share arrays
(`Model/Slices`). -/
def St.extend (s : St) (p : Nat) (offset : String) : St := { s with heap := s.heap.set p (s.data p ++ [.str offset]) }

/-- `DoPublish` of the packet at `p`: a message for every other server. -/
def post (c : Cfg) (s : St) (t : Th) : St :=
  if c.prompt then
    { s with
      heap := s.heap ++ (others c.n t.server).map fun _ => s.data t.ptr
      ths := s.ths ++ (others c.n t.server).mapIdx fun k j => { server := j, call := t.call, ptr := s.heap.length + k, pc := .underway } }
  else { s with ths := s.ths ++ (others c.n t.server).map fun j => { server := j, call := t.call, ptr := t.ptr, pc := .underway } }

/-- The next step of `t` (adapter/cluster-adapter.go:118-121, 292-311). -/
def act (c : Cfg) (s : St) (t : Th) : St :=
  match t.pc with
  | .publish => post c s t
  | .underway => s
  | .offset =>
    if c.stored then s.extend t.ptr ((s.calls[t.call]?.map (·.offset)).getD "") else s
  | .send => { s with got := s.got ++ [(t.server, t.call, s.data t.ptr)] }
  | .done => s

def PC.next : PC → PC
  | .publish => .offset
  | .underway => .offset
  | .offset => .send
  | .send => .done
  | .done => .done

inductive Ev where
  /-- `Broadcast` on server `i`; the packet was made by `Emit` for this call (socket/broadcast-operator.go:180-188) -/
  | call (i : Nat) (args : List Val) (offset : String)
  /-- the next step of the `k`-th call or message -/
  | adv (k : Nat)
  /-- the transport copies the packet of the `k`-th message, if it is under way -/
  | encode (k : Nat)
deriving DecidableEq, Repr

def step (c : Cfg) (s : St) : Ev → St
  | .call i args offset =>
    if i < c.n then
      { s with
        heap := s.heap ++ [args]
        calls := s.calls ++ [⟨i, args, offset⟩]
        ths := s.ths ++ [⟨i, s.calls.length, s.heap.length, .publish⟩] }
    else s
  | .adv k =>
    match s.ths[k]? with
    | some t => act c { s with ths := s.ths.set k { t with pc := t.pc.next } } t
    | none => s
  | .encode k =>
    match s.ths[k]? with
    | some t =>
      if t.pc = .underway then
        { s with heap := s.heap ++ [s.data t.ptr], ths := s.ths.set k { t with ptr := s.heap.length } }
      else s
    | none => s

def run (c : Cfg) (h : List Ev) : St := h.foldl (step c) {}

end Verif.SharedPkt
