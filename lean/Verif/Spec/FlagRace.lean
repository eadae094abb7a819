import Verif.Model.FlagRace

/-! What chains of modifiers should do (C81). -/

namespace Verif.Spec
open Verif.FlagRace

/-- The modifiers a chain sets, the last of each kind counting. -/
def chosen (l : List Mod) : F :=
  ⟨match (l.filterMap fun | .compress b => some b | _ => none).getLast? with | some b => b | none => false,
   l.any fun | .volatile => true | _ => false,
   (l.filterMap fun | .timeout d => some d | _ => none).getLast?⟩

/-- The modifier is in force in an emission with these flags. -/
def InForce (m : Mod) (f : F) : Prop :=
  match m with
  | .compress b => b = true ∧ f.compress = true
  | .volatile => f.volatile = true
  | .timeout d => f.timeout = some d

/-- The chains called, in order. -/
def chains (h : List FlagRace.Ev) : List Call := h.filterMap fun | .call c => some c | _ => none

/-- Chain `j` had emitted when chain `k` began. -/
def EndedBefore (log : List Out) (j k : Nat) : Prop := ∃ l₁ l₂ f t, log = l₁ ++ .began k :: l₂ ∧ .emitted j f t ∈ l₁

/-- Every chain called so far has emitted. -/
def AllEnded (h : List FlagRace.Ev) : Prop := ∀ j, j < (chains h).length → ∃ f t, .emitted j f t ∈ (FlagRace.run h).log

end Verif.Spec
