import Verif.Model.Buffers

/-! # Specification for C105: what a connection should send -/

namespace Verif.Spec
open Verif.Buffers

/-- What a program has done so far: how many clients connected, the packets with whether they are volatile, which transports are not
writable, and the pieces that connection `c` should send. -/
structure Due where
  conns : Nat := 0
  packets : List (List Cell × Bool) := []
  stuck : Bool := false
  owed : List Cell := []
deriving DecidableEq, Repr

/-- A packet that is written to `c` is owed to it entirely, and its pieces in order, unless it is volatile and `c` is not writable.
Nothing else changes what is owed to `c`: not the writes to others, nor what any transport has read. -/
def Due.step (c : Nat) (d : Due) : Ev → Due
  | .connect _ => { d with conns := d.conns + 1 }
  | .encode ps _ v => { d with packets := d.packets ++ [(ps, v)] }
  | .write k c' => if c' = c ∧ c < d.conns then
      match d.packets[k]? with
      | some (ps, v) => if v = true ∧ d.stuck = true then d else { d with owed := d.owed ++ ps }
      | none => d
    else d
  | .writable c' b => if c' = c ∧ c < d.conns then { d with stuck := !b } else d
  | _ => d

/-- The frames that connection `c` should send: a text with the type "4" before it, other bytes as they are. -/
def dueFrames (h : List Ev) (c : Nat) : List (Bool × List Nat) :=
  (h.foldl (Due.step c) {}).owed.map fun p => (p.text, if p.text then '4'.toNat :: p.data else p.data)

/-- What connection `c` has sent. -/
def sentFrames (s : Buffers.St) (c : Nat) : List (Bool × List Nat) := (s.conns[c]?.map Conn.sent).getD []

/-- Connection `c` has nothing left to send. -/
def drained (s : Buffers.St) (c : Nat) : Prop := ∀ x, s.conns[c]? = some x → x.queue = []

end Verif.Spec
