import Verif.Model.Operator

/-!
# Specification of operators and modifiers as pure values

Uses the calls and outputs of the model, none of its functions.  Nothing here has a pointer: an
operator is a value, a socket has a value of pending modifiers.
-/

namespace Verif.Spec
open Verif Verif.Operator

/-- What an operator means. -/
structure OpVal where
  rooms : List Room
  except : List Room
  flags : Flags

/-- Meaning of a modifier, as a relation between the operator and the operator returned: rooms and
exceptions are sets that only grow, every flag other than the one named is the same. -/
def ModRel (a : OpVal) : Mod → OpVal → Prop
  | .to l, b => (∀ r, r ∈ b.rooms ↔ r ∈ a.rooms ∨ r ∈ l) ∧ b.except = a.except ∧ b.flags = a.flags
  | .except l, b => b.rooms = a.rooms ∧ (∀ r, r ∈ b.except ↔ r ∈ a.except ∨ r ∈ l) ∧ b.flags = a.flags
  | .compress c, b => b.rooms = a.rooms ∧ b.except = a.except ∧ b.flags = { a.flags with compress := c }
  | .volatile, b => b.rooms = a.rooms ∧ b.except = a.except ∧ b.flags = { a.flags with volatile := true }
  | .isLocal, b => b.rooms = a.rooms ∧ b.except = a.except ∧ b.flags = { a.flags with isLocal := true }
  | .timeout t, b => b.rooms = a.rooms ∧ b.except = a.except ∧ b.flags = { a.flags with timeout := some t }

/-- Two operators mean the same: same sets, same flags. -/
def OpVal.Same (a b : OpVal) : Prop :=
  (∀ r, r ∈ a.rooms ↔ r ∈ b.rooms) ∧ (∀ r, r ∈ a.except ↔ r ∈ b.except) ∧ a.flags = b.flags

/-- The reserved event names. -/
def IsReserved (ev : String) : Prop :=
  ev = "connect" ∨ ev = "connect_error" ∨ ev = "disconnect" ∨ ev = "disconnecting" ∨
  ev = "newListener" ∨ ev = "removeListener"

instance (ev : String) : Decidable (IsReserved ev) := by unfold IsReserved; infer_instance

/-- Effect of a socket modifier on the pending flags. -/
def setPending (f : Flags) : SMod → Flags
  | .compress b => { f with compress := b }
  | .volatile => { f with volatile := true }
  | .timeout t => { f with timeout := some t }

/-- The ids of the sockets a program creates, in order of creation.  Most recent call first. -/
def socksRev : List Cmd → List Sid
  | [] => []
  | .newSock id :: h => socksRev h ++ [id]
  | _ :: h => socksRev h

/-- The modifiers of socket `i` that have been set and not used: a new socket has none, modifiers
accumulate, an accepted emission or the creation of an operator uses them up.  The history is given
most recent call first. -/
def pendingRev (i : Nat) : List Cmd → Flags
  | [] => {}
  | .newSock _ :: h => if i = (socksRev h).length then {} else pendingRev i h
  | .sockMod j m :: h => if j = i then setPending (pendingRev i h) m else pendingRev i h
  | .sockOp j :: h => if j = i then {} else pendingRev i h
  | .sockEmit j ev _ :: h => if j = i ∧ ¬ IsReserved ev then {} else pendingRev i h
  | _ :: h => pendingRev i h

/-- Pending modifiers after the program (oldest call first). -/
def pending (i : Nat) (prog : List Cmd) : Flags := pendingRev i prog.reverse

/-- From which socket each operator stems, in order of creation: `none` for operators of a namespace
or remote socket.  Most recent call first. -/
def originsRev : List Cmd → List (Option Sid)
  | [] => []
  | .nspOp :: h => originsRev h ++ [none]
  | .remoteOp _ :: h => originsRev h ++ [none]
  | .sockOp i :: h => match (socksRev h)[i]? with
    | some s => originsRev h ++ [some s]
    | none => originsRev h
  | .chain k _ :: h => match (originsRev h)[k]? with
    | some o => originsRev h ++ [o]
    | none => originsRev h
  | _ :: h => originsRev h

/-- The ids of the sockets and the origin of each operator after a program. -/
def socksOf (prog : List Cmd) : List Sid := socksRev prog.reverse
def originsOf (prog : List Cmd) : List (Option Sid) := originsRev prog.reverse

end Verif.Spec
