import Verif.Lib.ListExtra

/-!
# A client that speaks as soon as it is told that it is connected (socket/namespace.go:267-303, 348-364; socket/client.go:120-130, 198-219; socket/socket.go:552-566, 753-768)

The middlewares of the namespace have let a socket pass and it is being connected; the program's handler of `connection` adds a
middleware for events and a listener.  The client knows that it is connected from the CONNECT packet on, and sends packets.  Every
access to shared state is one step.  One socket, no other reason to disconnect it; the packets are events, numbered; all are of the
event that the program listens to.  Left out: the catch-all listeners, which are read by the same goroutine (socket/socket.go:561-563).
-/

namespace Verif.Early

/-- What the goroutine that connects the socket does next. -/
inductive PC where
  /-- the CONNECT packet (socket/socket.go:515-531) -/
  | write
  /-- `c.nsps.Store` (socket/client.go:124) -/
  | name
  /-- `EmitReserved("connection")` (socket/namespace.go:363): the program calls `socket.Use` -/
  | use
  /-- … and `socket.On` -/
  | listen
  | done
deriving DecidableEq, Repr

/-- What the goroutine of a packet does next. -/
inductive Task where
  /-- `s.fns.All()` (socket/socket.go:802) -/
  | gate (e : Nat)
  /-- `EmitUntyped` (socket/socket.go:761-762), in a goroutine of its own; whether the middleware was asked -/
  | deliver (e : Nat) (asked : Bool)
  | done
deriving DecidableEq, Repr

/-- What is seen: the client is told; a packet of it is read; it is taken for a violation of the protocol and the connection is closed; the listener is
called with an event that the middleware was asked about, or was not; an event finds no listener. -/
inductive Obs where
  | told
  | arrived (e : Nat)
  | cut (e : Nat)
  | handled (e : Nat) (asked : Bool)
  | lost (e : Nat)
deriving DecidableEq, Repr

structure St where
  pc : PC := .write
  told : Bool := false
  named : Bool := false
  guarded : Bool := false
  listening : Bool := false
  isOpen : Bool := true
  tasks : List Task := []
  log : List Obs := []
deriving DecidableEq, Repr

/-- The goroutine that connects the socket takes a step; a packet of the client arrives; the goroutine of a packet takes a step. -/
inductive Ev where
  | conn
  | recv (e : Nat)
  | adv (k : Nat)
deriving DecidableEq, Repr

/-- `_doConnect` (socket/namespace.go:348-364). -/
def connect (s : St) : St :=
  match s.pc with
  | .write => { s with pc := .name, told := true, log := s.log ++ [.told] }
  | .name => { s with pc := .use, named := true }
  | .use => { s with pc := .listen, guarded := true }
  | .listen => { s with pc := .done, listening := true }
  | .done => s

def act (s : St) : Task → St × Task
  | .gate e => (s, .deliver e s.guarded)
  | .deliver e asked => ({ s with log := s.log ++ [if s.listening then .handled e asked else .lost e] }, .done)
  | .done => (s, .done)

/-- `inline`: the socket is recovered and skips the middlewares, so that it is connected by the goroutine that reads the packets
(socket/namespace.go:270-273), which reads the next packet when it is done.  Otherwise it is connected in a goroutine of its own
(socket/namespace.go:275).  The client sends packets only once it was told, and none is read once the connection is closed. -/
def step (inline : Bool) (s : St) : Ev → St
  | .conn => connect s
  -- `ondecoded` (socket/client.go:198-219)
  | .recv e =>
    if s.told ∧ s.isOpen ∧ (inline = true → s.pc = .done) then
      if s.named then { s with tasks := s.tasks ++ [.gate e], log := s.log ++ [.arrived e] }
      else { s with isOpen := false, log := s.log ++ [.arrived e, .cut e] }
    else s
  | .adv k => match s.tasks[k]? with
    | some a => { (act s a).1 with tasks := s.tasks.set k (act s a).2 }
    | none => s

def run (inline : Bool) (h : List Ev) : St := h.foldl (step inline) {}

end Verif.Early
