import Verif.Model.FamilyRace
import Verif.Spec.DynRace
import Verif.Spec.Returns

/-! # An event sent through a parent namespace while its children come and go -/

namespace Verif.Spec
open Verif

/-- In `p`, then an event sent through the parent, then `q`, it is sent after `p`, the call has returned at the end of `q`, and no other is
sent in `q`. -/
structure WholeFamily (c : DynRace.Cfg) (p q : List FamilyRace.Ev) : Prop where
  begins : (FamilyRace.run c p).pc = .idle
  ends : (FamilyRace.run c (p ++ .emit :: q)).pc = .idle
  one : .emit ∉ q

/-- The clients that got the event. -/
def gotEvent (c : DynRace.Cfg) (p q : List FamilyRace.Ev) : List Nat := (FamilyRace.run c (p ++ .emit :: q)).got

/-- What happens to the clients and the namespaces. -/
def dynPart (h : List FamilyRace.Ev) : List DynRace.Ev := h.filterMap fun | .dyn e => some e | _ => none

/-- Client `k` is connected to the dynamic namespace. -/
def DynConnected (s : FamilyRace.St) (k : Nat) : Prop := ∃ n, k ∈ (s.dyn.nsp n).socks

/-- Client `k` is connected from the beginning of the call until the end of `q`. -/
def DynConnectedThroughout (c : DynRace.Cfg) (p q : List FamilyRace.Ev) (k : Nat) : Prop :=
  ∀ q₁ q₂, q = q₁ ++ q₂ → DynConnected (FamilyRace.run c (p ++ .emit :: q₁)) k

end Verif.Spec
