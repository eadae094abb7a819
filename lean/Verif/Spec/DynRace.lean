import Verif.Model.DynRace

/-! # A dynamic namespace that is created and cleaned up -/

namespace Verif.Spec
open Verif.DynRace

/-- No namespace is unregistered while a client stands between its two lookups. -/
def NoGap (c : DynRace.Cfg) (h : List DynRace.Ev) : Prop :=
  ∀ h₁ k h₂, h = h₁ ++ .adv k :: h₂ → ∀ n, (DynRace.run c h₁).pc k = .unreg n → ∀ j, (DynRace.run c h₁).pc j ≠ .look

/-- A client whose namespace is being looked up or created. -/
def looking : Pc → Bool
  | .load | .check | .make _ | .store _ _ | .look | .plain => true
  | _ => false

/-- A client that is being connected to the namespace found. -/
def entering : Pc → Bool
  | .gate _ | .enter _ => true
  | _ => false

/-- A namespace has been found empty and is still registered. -/
def cleaning : Pc → Bool
  | .close _ | .unreg _ => true
  | _ => false

/-- A client that is leaving; the namespace is then looked at, and cleaned up if it is empty. -/
def leaving : Pc → Bool
  | .remove _ | .test _ | .close _ | .unreg _ => true
  | _ => false

/-- At all times: one client at most is looking the namespace up; none does while one is leaving; and none is being connected while the
namespace is cleaned up. -/
def DynInTurn (c : DynRace.Cfg) (h : List DynRace.Ev) : Prop :=
  ∀ h₁ h₂, h = h₁ ++ h₂ → ∀ i j,
    (looking ((DynRace.run c h₁).pc i) = true → looking ((DynRace.run c h₁).pc j) = true → i = j) ∧
    (leaving ((DynRace.run c h₁).pc i) = true → looking ((DynRace.run c h₁).pc j) = false) ∧
    (cleaning ((DynRace.run c h₁).pc i) = true → entering ((DynRace.run c h₁).pc j) = false)

/-- Nobody is on the way: everybody has not yet asked, is connected, or has gone. -/
def DynSettled (s : DynRace.St) : Prop := ∀ k, s.pc k = .idle ∨ (∃ n, s.pc k = .inside n) ∨ s.pc k = .gone

end Verif.Spec
