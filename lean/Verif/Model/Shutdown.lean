import Verif.Lib.ListExtra

/-!
# What a server listens on, and `Close` (socket/server.go:278-372, 508-512, 617-640)

Calls are atomic.  Engines and http servers are those of another module (engine.io), of which is assumed: `engine.NewServer` and
`engine.Attach` make an engine; an engine attached to an http server is closed with it (socket/server.go:630); an engine that is closed
closes its connections; the callback of `Close` is left out; a connection that is closed disconnects the sockets on it (`C20`).  Whether an engine that was closed itself
takes new connections is the parameter `again`; one whose http server is closed gets none.  A connection is in one namespace at most
here; which namespaces there are does not matter.
-/

namespace Verif.Shutdown

/-- `made`: the number of engines so far; `srv e`: the http server engine `e` is attached to; `eio`, `engine`, `http`: the fields
`eio`, `engine`, `httpServer` (socket/server.go:70, 89, 94); `stopped`: the engines closed; `conns`: the connections, each with its
engine; `isOpen`, `inside`: of a connection. -/
structure St where
  made : Nat := 0
  srv : Nat → Option Nat := fun _ => none
  eio : Option Nat := none
  engine : Option Nat := none
  http : Option Nat := none
  stopped : Nat → Bool := fun _ => false
  deaf : Nat → Bool := fun _ => false
  conns : List Nat := []
  isOpen : Nat → Bool := fun _ => false
  inside : Nat → Bool := fun _ => false

/-- A table with one entry changed. -/
def upd {α : Type} (f : Nat → α) (k : Nat) (v : α) : Nat → α := fun x => if x = k then v else f x

inductive Ev where
  /-- `Attach` (or `Listen`) to the http server `h`; a port is a new http server -/
  | attach (h : Nat)
  /-- `ServeHandler` -/
  | handler
  /-- `Bind` with an engine made elsewhere -/
  | bind
  /-- a client connects to engine `e` -/
  | connect (e : Nat)
  /-- it gets into a namespace -/
  | enter (c : Nat)
  | close
deriving DecidableEq, Repr

/-- A new engine, bound (socket/server.go:508-512). -/
def fresh (s : St) (h : Option Nat) : St :=
  { s with made := s.made + 1, srv := upd s.srv s.made h, engine := some s.made }

/-- `initEngine` (socket/server.go:357-372). -/
def attach (s : St) (h : Nat) : St := { fresh s (some h) with eio := some s.made, http := some h }

/-- `ServeHandler` (socket/server.go:326-350). -/
def handler (s : St) : St :=
  match s.eio with
  | some _ => s
  | none => { fresh s none with eio := some s.made }

/-- Engine `e` takes connections. -/
def takes (again : Bool) (s : St) (e : Nat) : Bool :=
  decide (e < s.made) && (again || !s.stopped e) && (match s.srv e with | some h => !s.deaf h | none => true)

/-- The engines in `p` are closed, with their connections. -/
def stop (s : St) (p : Nat → Bool) : St :=
  let gone := fun c => match s.conns[c]? with | some e => p e | none => false
  { s with stopped := fun e => s.stopped e || p e
           isOpen := fun c => s.isOpen c && !gone c
           inside := fun c => s.inside c && !gone c }

/-- `Close` (socket/server.go:617-640): all sockets are disconnected, then the http server is closed, or else the engine. -/
def close (s : St) : St :=
  let s := { s with inside := fun _ => false }
  match s.http with
  | some h => { stop s (fun e => decide (e < s.made) && s.srv e == some h) with deaf := upd s.deaf h true }
  | none =>
    match s.engine with
    | some e => stop s (· == e)
    | none => s

/-- One event; see `takes` for `again`. -/
def step (again : Bool) (s : St) : Ev → St
  | .attach h => attach s h
  | .handler => handler s
  | .bind => fresh s none
  | .connect e => if takes again s e then { s with conns := s.conns ++ [e], isOpen := upd s.isOpen s.conns.length true } else s
  | .enter c => if s.isOpen c then { s with inside := upd s.inside c true } else s
  | .close => close s

/-- A history (socket/server.go:278-372, 617-640). -/
def run (again : Bool) (h : List Ev) : St := h.foldl (step again) {}

end Verif.Shutdown
