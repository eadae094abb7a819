import Verif.Model.Alias

/-! # Slices given to EmitWithAck -/

namespace Verif.Spec
open Verif.Alias

/-- The slice lies within an array of the heap, as every Go slice does. -/
def Valid (h : Heap) (s : Slice) : Prop := ∃ a, h[s.arr]? = some a ∧ s.off + s.cap ≤ a.length ∧ s.len ≤ s.cap

instance (h : Heap) (s : Slice) : Decidable (Valid h s) :=
  match e : h[s.arr]? with
  | some a => if w : s.off + s.cap ≤ a.length ∧ s.len ≤ s.cap then isTrue ⟨a, e, w⟩
              else isFalse (by rintro ⟨b, hb, w'⟩; rw [e] at hb; cases hb; exact w w')
  | none => isFalse (by rintro ⟨b, hb, _⟩; rw [e] at hb; cases hb)

/-- The content of every array the caller has is as before. -/
def Untouched (before after : Heap) : Prop := ∀ i, i < before.length → after[i]? = before[i]?

/-- The calls are made one after the other: the two steps of each are adjacent. -/
def sequential (calls : List Nat) : List Nat := calls.flatMap fun k => [k, k]

end Verif.Spec
