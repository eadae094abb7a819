import Verif.Model.Registry
import Verif.Spec.DynRace

/-! A client that asks for a dynamic namespace, or leaves it, while nothing else happens (C109): what `Model/DynRace` and `Model/Registry`
have in common. -/

namespace Verif.Spec
open Verif

/-- `d` is what the server `r` knows of the namespaces called `name`, which are those numbered from `off` on: which there have been, and
which of them were made by parent `par`; which is registered; which are children of `par`. -/
structure SameDyn (name : String) (par off : Nat) (r : Registry.St) (d : DynRace.St) : Prop where
  count : r.spaces.length = off + d.next
  spaces : ∀ n, n < d.next → ∃ x, r.spaces[off + n]? = some x ∧ x.name = name ∧ x.parent = if (d.nsp n).child then some par else none
  reg : r.nsps.get? name = d.reg.map (off + ·)
  children : ∃ p, r.parents[par]? = some p ∧ ∀ n, off + n ∈ p.children ↔ n ∈ d.children

/-- Parent `par` says yes to `name`, every other says no.  `calls`: what a matcher that is a function does. -/
def OnlyParent (regex : Nat → String → Bool) (r : Registry.St) (name : String) (calls : Nat → List Bool) (par : Nat) : Prop :=
  ∀ j p, r.parents[j]? = some p → (if p.regex then [regex j name] else calls j) = [j == par]

/-- Client `k` asks for the namespace after `h`, and `m` steps are made for it. -/
def dynComes (c : DynRace.Cfg) (h : List DynRace.Ev) (k m : Nat) : DynRace.St :=
  DynRace.run c (h ++ .connect k :: List.replicate m (.adv k))

/-- Client `k` leaves after `h`, and `m` steps are made for it. -/
def dynLeaves (c : DynRace.Cfg) (h : List DynRace.Ev) (k m : Nat) : DynRace.St :=
  DynRace.run c (h ++ .leave k :: List.replicate m (.adv k))

/-- The client is connected, or has been refused, or has left. -/
def dynOver (d : DynRace.St) (k : Nat) : Prop := (∃ n, d.pc k = .inside n) ∨ d.pc k = .gone

/-- Namespace `n` is to be cleaned up: the option is set, the parent made it, and nobody is in it. -/
def toClean (c : DynRace.Cfg) (d : DynRace.St) (n : Nat) : Bool :=
  c.cleanup && (d.nsp n).child && (d.nsp n).socks.isEmpty

end Verif.Spec
