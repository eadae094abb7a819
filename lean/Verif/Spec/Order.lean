import Verif.Model.Order

/-! # Broadcasts at the same time: what is claimed -/

namespace Verif.Spec
open Verif

/-- Nobody is broadcasting. -/
def NobodyCasts (s : Order.St) : Prop := ∀ g, Order.idle s g = true

/-- No broadcast begins before the others have returned. -/
def CastsOneByOne (members : List Nat) (h : List Order.Ev) : Prop :=
  ∀ a g b, h = a ++ Order.Ev.start g :: b → NobodyCasts (Order.run members a)

/-- The packets of goroutine `g` among those written. -/
def ofEmitter (s : Order.St) (g : Nat) (l : List Nat) : List Nat := l.filter fun p => s.emitters[p]? == some g

/-- `l` is in the order in which the packets were broadcast. -/
def InOrderOfCalls (l : List Nat) : Prop := l.Pairwise (· < ·)

end Verif.Spec
