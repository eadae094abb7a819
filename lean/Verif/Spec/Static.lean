import Verif.Model.Static

/-! # Static files -/

namespace Verif.Spec
open Verif.Static

/-- A component of a path: not empty, no slash, neither `.` nor `..`. -/
def Proper (c : Text) : Prop := c ≠ [] ∧ '/' ∉ c ∧ c ≠ ['.'] ∧ c ≠ ['.', '.']

instance (c : Text) : Decidable (Proper c) := by unfold Proper; infer_instance

/-- The twelve files of the client bundle. -/
def bundle : List Text :=
  ["socket.io.js", "socket.io.js.map", "socket.io.min.js", "socket.io.min.js.map",
   "socket.io.msgpack.js", "socket.io.msgpack.js.map", "socket.io.msgpack.min.js", "socket.io.msgpack.min.js.map",
   "socket.io.esm.js", "socket.io.esm.js.map", "socket.io.esm.min.js", "socket.io.esm.min.js.map"].map String.toList

/-- The rooted path with these components. -/
def slashed (l : List Text) : Text := l.flatMap fun c => '/' :: c

end Verif.Spec
