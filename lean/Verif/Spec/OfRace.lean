import Verif.Model.OfRace

/-! # Concurrent creation of a namespace -/

namespace Verif.Spec
open Verif

/-- The namespace goroutine `k` ended with. -/
def gotSpace (s : OfRace.St) (k : Nat) : Option Nat :=
  match s.ths[k]? with
  | some { pc := .done n, .. } => some n
  | _ => none

/-- Nobody is about to create a namespace of that name. -/
def NoCreator (s : OfRace.St) (name : String) : Prop := ∀ t ∈ s.ths, t.name = name → t.pc ≠ .store

end Verif.Spec
