import Verif.Lib.ListExtra

/-!
# The buffers of a packet (socket/adapter.go:145-164, 202-216, socket/client.go:161-187)

A packet for many is encoded once.  What the encoder returns are buffers, objects that are emptied when they are read, and each
transport reads its own when it likes.  `WriteToEngine` gives each connection clones.  A packet of a single text is also put, once, into
a frame for WebSocket, which all connections have in common.

The encoder and the transports are outside /repo.  A clone has what is unread of the original and is a buffer of its own.  A transport
reads the buffers of its connection in the order of the calls of `Write`, in as many reads as it likes; a WebSocket transport which is
given a prepared frame sends that instead of the buffer.  Whether it consumes the frame is a parameter.  Who is written to, and that a
write is not interrupted by another one to the same connection, are the subjects of `Adapter` and `Writer`.
-/

namespace Verif.Buffers

/-- A buffer: `StringBuffer` or not, and what is unread. -/
structure Cell where
  text : Bool
  data : List Nat
deriving DecidableEq, Repr

/-- An encoded packet: the buffers, `WsPreEncodedFrame`, `Volatile`. -/
structure Enc where
  ptrs : List Nat
  frame : Option Nat
  volatile : Bool
deriving DecidableEq, Repr

/-- A call of `conn.Write`: the buffer, and the prepared frame of its options. -/
structure Item where
  ptr : Nat
  frame : Option Nat
deriving DecidableEq, Repr

/-- A connection: whether it is a WebSocket, whether it is writable, the buffers to send, what has been read of the first one, and the
frames that were sent: whether it is a text, and the bytes. -/
structure Conn where
  ws : Bool := false
  writable : Bool := true
  queue : List Item := []
  part : List Nat := []
  sent : List (Bool × List Nat) := []
deriving DecidableEq, Repr

/-- The buffers, the encoded packets, the connections. -/
structure St where
  heap : List Cell := []
  encs : List Enc := []
  conns : List Conn := []
deriving DecidableEq, Repr

/-- What happens: a client connects; a packet is encoded, to be broadcast or for one; packet `k` is written to connection `c`; a
transport becomes writable or not; it is replaced by a WebSocket; it reads `n` bytes of the first buffer; it has read all of it. -/
inductive Ev where
  | connect (ws : Bool)
  | encode (pieces : List Cell) (broadcast volatile : Bool)
  | write (k c : Nat)
  | writable (c : Nat) (b : Bool)
  | upgrade (c : Nat)
  | read (c n : Nat)
  | finish (c : Nat)
deriving DecidableEq, Repr

/-- The byte "4", the type of a message in the Engine.IO protocol (socket/adapter.go:207-208). -/
def four : Nat := 52

/-- What Engine.IO sends for a buffer that was read: a text begins with the type of the packet (outside /repo; protocol 4). -/
def packed (text : Bool) (data : List Nat) : Bool × List Nat := (text, if text then four :: data else data)

/-- `_encode` (socket/adapter.go:202-216): the buffers the encoder returns are new ones, and so is the frame.  A packet for one socket
is encoded by `_packet` without the frame (socket/client.go:172). -/
def encode (s : St) (pieces : List Cell) (broadcast volatile : Bool) : St :=
  let n := s.heap.length
  let ptrs := List.range' n pieces.length
  match broadcast, pieces with
  | true, [⟨true, d⟩] =>
    { s with heap := s.heap ++ pieces ++ [⟨true, four :: d⟩], encs := s.encs ++ [⟨ptrs, some (n + 1), volatile⟩] }
  | _, _ => { s with heap := s.heap ++ pieces, encs := s.encs ++ [⟨ptrs, none, volatile⟩] }

/-- `encodedPacket.Clone()` (socket/client.go:185). -/
def clone (heap : List Cell) (p : Nat) : List Cell :=
  match heap[p]? with
  | some x => heap ++ [x]
  | none => heap

/-- The loop of `WriteToEngine` (socket/client.go:184-186), for the buffers still to be written. -/
def writeAll (frame : Option Nat) : List Nat → List Cell × List Item → List Cell × List Item
  | [], r => r
  | p :: ps, (heap, queue) => writeAll frame ps (clone heap p, queue ++ [⟨heap.length, frame⟩])

/-- `WriteToEngine` (socket/client.go:175-187). -/
def write (s : St) (e : Enc) (c : Nat) (x : Conn) : St :=
  if e.volatile && !x.writable then s
  else
    let r := writeAll e.frame e.ptrs (s.heap, x.queue)
    { s with heap := r.1, conns := s.conns.set c { x with queue := r.2 } }

/-- The transport reads some bytes of its first buffer, if it does not send a prepared frame. -/
def read (s : St) (c n : Nat) (x : Conn) : St :=
  match x.queue with
  | [] => s
  | it :: _ =>
    if x.ws && it.frame.isSome then s
    else match s.heap[it.ptr]? with
      | none => s
      | some b => { s with heap := s.heap.set it.ptr { b with data := b.data.drop n }
                           conns := s.conns.set c { x with part := x.part ++ b.data.take n } }

/-- The transport sends the prepared frame, which it consumes or not, or what it has read, if that is all of the buffer. -/
def finish (consumes : Bool) (s : St) (c : Nat) (x : Conn) : St :=
  match x.queue with
  | [] => s
  | it :: rest =>
    match (if x.ws then it.frame else none) with
    | some f => match s.heap[f]? with
      | none => s
      | some b => { s with heap := if consumes then s.heap.set f { b with data := [] } else s.heap
                           conns := s.conns.set c { x with queue := rest, part := [], sent := x.sent ++ [(b.text, b.data)] } }
    | none => match s.heap[it.ptr]? with
      | none => s
      | some b =>
        if b.data = [] then
          { s with conns := s.conns.set c { x with queue := rest, part := [], sent := x.sent ++ [packed b.text x.part] } }
        else s

/-- One step.  A transport is replaced at any moment. -/
def step (consumes : Bool) (s : St) : Ev → St
  | .connect ws => { s with conns := s.conns ++ [{ ws := ws }] }
  | .encode ps b v => encode s ps b v
  | .write k c => match s.encs[k]?, s.conns[c]? with
    | some e, some x => write s e c x
    | _, _ => s
  | .writable c b => match s.conns[c]? with
    | some x => { s with conns := s.conns.set c { x with writable := b } }
    | none => s
  | .upgrade c => match s.conns[c]? with
    | some x => { s with conns := s.conns.set c { x with ws := true } }
    | none => s
  | .read c n => match s.conns[c]? with
    | some x => read s c n x
    | none => s
  | .finish c => match s.conns[c]? with
    | some x => finish consumes s c x
    | none => s

def run (consumes : Bool) (h : List Ev) : St := h.foldl (step consumes) {}

end Verif.Buffers
