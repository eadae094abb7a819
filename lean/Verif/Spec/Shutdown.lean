import Verif.Model.Shutdown

/-! # What a server listens on -/

namespace Verif.Spec
open Verif

/-- What one call adds to the ways into the server: the http server of `Attach`; `none`, no http server of its own, for the handler of
`ServeHandler` and an engine given to `Bind`.  `ServeHandler` returns what `Attach` or `ServeHandler` made before, if there is any. -/
def engineStep (x : List (Option Nat) × Bool) : Shutdown.Ev → List (Option Nat) × Bool
  | .attach h => (x.1 ++ [some h], true)
  | .handler => if x.2 then x else (x.1 ++ [none], true)
  | .bind => (x.1 ++ [none], x.2)
  | _ => x

def engines (h : List Shutdown.Ev) : List (Option Nat) × Bool := h.foldl engineStep ([], false)

/-- The ways into the server the program has opened, in order. -/
def enginesOf (h : List Shutdown.Ev) : List (Option Nat) := (engines h).1

/-- `Attach` or `ServeHandler` has been called. -/
def servedAlready (h : List Shutdown.Ev) : Bool := (engines h).2

/-- Connection `c` came in through way `e`. -/
def CameIn (s : Shutdown.St) (c e : Nat) : Prop := s.conns[c]? = some e

/-- The last http server the program attached to the server. -/
def lastServer (h : List Shutdown.Ev) : Option Nat := ((enginesOf h).filterMap id).getLast?

/-- The way in is one `Close` shuts: to the http server attached last, or the last of all if none was attached. -/
def Shuts (h : List Shutdown.Ev) (e : Nat) : Prop :=
  match lastServer h with
  | some x => (enginesOf h)[e]? = some (some x)
  | none => e + 1 = (enginesOf h).length

/-- The program uses one http server only, or no http server and one handler or engine. -/
def OneWay (h : List Shutdown.Ev) : Prop := (∃ x, ∀ y ∈ enginesOf h, y = some x) ∨ enginesOf h = [none]

/-- The program opens no way into the server. -/
def OpensNone (h : List Shutdown.Ev) : Prop := ∀ e ∈ h, (∀ x, e ≠ .attach x) ∧ e ≠ .handler ∧ e ≠ .bind

end Verif.Spec
