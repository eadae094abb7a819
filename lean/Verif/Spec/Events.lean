import Verif.Spec.Inbound

/-! # Which events a client sent, and what became of them -/

namespace Verif.Spec
open Verif Verif.Inbound

/-- What the listeners of an event are given, the name first: what the client sent, and a function to answer with iff the client asked
for an acknowledgement. -/
def contents (p : Inbound.Packet) : List (List JVal) :=
  if p.type = .event ∨ p.type = .binaryEvent then
    match p.data, p.id with
    | .arr l, some id => [l ++ [.ackFn id]]
    | .arr l, none => [l]
    | _, _ => []
  else []

/-- Everything `f` finds at the events of a history, each looked at together with the state it meets. -/
def gather {α} (f : Inbound.St → Inbound.Ev → List α) (h : List Inbound.Ev) : List α :=
  (List.range h.length).flatMap fun i =>
    match h[i]? with
    | some e => if (Inbound.run (h.take i)).panicked then [] else f (Inbound.run (h.take i)) e
    | none => []

/-- The socket is connected, to that namespace. -/
def inNow (s : Inbound.St) (nsp : String) (ref : Nat) : Bool :=
  match s.socks[ref]? with
  | some k => k.nsp == nsp && k.connected
  | none => false

/-- The events that arrived for socket `ref`: over a connection that is open, addressed to the namespace the socket is connected to. -/
def eventsIn (ref : Nat) : List Inbound.Ev → List (List JVal) :=
  gather fun s e => match e with
    | .recv p => if s.listening && inNow s p.nsp ref then contents p else []
    | _ => []

/-- The times the middlewares of socket `ref` let an event through: a goroutine waits for them, and they call `next` without an error. -/
def letThrough (ref : Nat) : List Inbound.Ev → List (List JVal) :=
  gather fun s e => match e with
    | .run k true => match s.tasks[k]? with
      | some (some (.gate r args)) => if r = ref then [args] else []
      | _ => []
    | _ => []

/-- The events of socket `ref` that were given to its middlewares. -/
def gated (ref : Nat) (s : Inbound.St) : List (List JVal) :=
  s.tasks.flatMap fun t => match t with
    | some (.gate r args) => if r = ref then [args] else []
    | _ => []

/-- The names the library itself fires. -/
def ownNames : List String := ["error", "disconnect", "disconnecting"]

def notOwn : List JVal → Bool
  | .str name :: _ => !ownNames.contains name
  | _ => true

/-- The calls of the catch-all listeners of socket `ref`. -/
def catchAlls (ref : Nat) (s : Inbound.St) : List (List JVal) :=
  s.log.flatMap fun o => match o with
    | .catchAll r args => if r = ref then [args] else []
    | _ => []

/-- The calls of the listeners of events of socket `ref`, other than those of the library. -/
def eventsHandled (ref : Nat) (s : Inbound.St) : List (List JVal) :=
  (s.log.flatMap fun o => match o with
    | .fired r name args => if r = ref then [.str name :: args] else []
    | _ => []).filter notOwn

/-- A goroutine is about to call the listeners of socket `ref`, unless the socket is disconnected. -/
def undelivered (ref : Nat) : Option Inbound.Task → Bool
  | some (.deliver r _ true) => r == ref
  | some (.fire r _ _) => r == ref
  | _ => false

/-- The middlewares of socket `ref` call `next` at most once for each event. -/
def NextOncePerEvent (ref : Nat) (h : List Inbound.Ev) : Prop :=
  ∀ h₁ h₂ h₃ k a b, h = h₁ ++ .run k a :: h₂ ++ .run k b :: h₃ →
    ∀ args, (Inbound.run h₁).tasks[k]? ≠ some (some (.gate ref args))

end Verif.Spec
