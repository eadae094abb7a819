import Verif.Model.Listeners

/-! # Catch-all listeners -/

namespace Verif.Spec
open Verif Verif.Listeners

/-- The listeners of one kind of one socket after a history, most recent call first: `On` puts one at the end, `Prepend` at the
beginning, `Off` removes the first registration of that very listener, or all. -/
def listeningRev (k : Kind) (i : Nat) : List Listeners.Op → List Nat
  | [] => []
  | .on k' i' l :: h => if k' = k ∧ i' = i then listeningRev k i h ++ [l] else listeningRev k i h
  | .prepend k' i' l :: h => if k' = k ∧ i' = i then l :: listeningRev k i h else listeningRev k i h
  | .off k' i' (some l) :: h => if k' = k ∧ i' = i then (listeningRev k i h).erase l else listeningRev k i h
  | .off k' i' none :: h => if k' = k ∧ i' = i then [] else listeningRev k i h
  | _ :: h => listeningRev k i h

def listening (k : Kind) (i : Nat) (h : List Listeners.Op) : List Nat := listeningRev k i h.reverse

/-- The listeners that occur in a history. -/
def mentioned : List Listeners.Op → List Nat
  | [] => []
  | .on _ _ l :: h => l :: mentioned h
  | .prepend _ _ l :: h => l :: mentioned h
  | .off _ _ (some l) :: h => l :: mentioned h
  | _ :: h => mentioned h

end Verif.Spec
