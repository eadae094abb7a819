import Verif.Model.Slices

/-! Arguments of events, and who may change them (C91, C92). -/

namespace Verif.Spec
open Verif

/-- The program itself writes into array `x`: into a slice it has, or, by calling `EmitWithAck`, into the place behind one. -/
def WritesInto (s : Slices.St) (e : Slices.Ev) (x : Nat) : Prop :=
  (∃ k xs a, e = .scribble k xs ∧ s.held[k]? = some a ∧ a.arr = x) ∨
  (∃ kind ev k f a, e = .emitAck kind ev k f ∧ s.held[k]? = some a ∧ a.arr = x ∧ a.len < a.cap)

/-- During `t`, after `h`, the program writes into no slice its listeners were called with, only into its own. -/
def HandsOff (spare : Nat → Nat) (h t : List Slices.Ev) : Prop :=
  ∀ a e b, t = a ++ e :: b → ∀ x, WritesInto (Slices.run spare (h ++ a)) e x → x ∈ (Slices.run spare (h ++ a)).own

/-- The arguments without the acknowledgement callback at the end. -/
def withoutAck (l : List Val) : List Val :=
  match l.getLast? with
  | some (.fn _) => l.dropLast
  | _ => l

/-- The callback at the end of the arguments. -/
def callbackIn (l : List Val) : Option Nat :=
  match l.getLast? with
  | some (.fn f) => some f
  | _ => none

/-- What an emission with this name and these arguments has to send: also its offset, if the adapter keeps it. -/
def payload (kind : Slices.Kind) (ev : String) (args : List Val) : List Val :=
  match kind with
  | .cast (some id) _ => if callbackIn args = none then .str ev :: args ++ [.str id] else .str ev :: withoutAck args
  | _ => .str ev :: withoutAck args

/-- How many catch-all listeners the emission has. -/
def watchers : Slices.Kind → Nat
  | .direct n => n
  | .cast _ n => n

/-- The entries with number `k`. -/
def ofNum {β : Type} (k : Nat) (l : List (Nat × β)) : List β := l.filterMap fun p => if p.1 = k then some p.2 else none

end Verif.Spec
