import Verif.Spec.World

/-! # The answer to an attempt to connect (specification) -/

namespace Verif.Spec
open Verif Verif.World

/-- The answers written to the client for socket `r`: CONNECT or CONNECT_ERROR packets. -/
def answers (r : Nat) (log : List Obs) : List Pkt :=
  (packetsTo r log).filter fun p => decide (p.type = .connect ∨ p.type = .connectError)

/-- It is not yet decided whether socket `r` gets in: the middleware called last has not called `next`, or the goroutine started after
that has not run. -/
def Undecided (w : W) (r : Nat) : Prop :=
  (∃ t ∈ w.tasks, ∃ err, t = .result r err) ∨ ∃ ch ∈ w.chains, ch.ref = r ∧ ch.reached ∉ ch.used

end Verif.Spec
