import Verif.Model.Writer

/-!
# What may be on the wire

Uses the state of the writing machine, none of its functions.
-/

namespace Verif.Spec
open Verif Verif.Writer

/-- The frames of the `k`-th write. -/
def jobFrames (s : St) (k : Nat) : List String := ((s.jobs[k]?).map (fun p => p.1.frames)).getD []

/-- The wire carries whole packets: the frames of the finished writes one packet after the other, in the
order `order`, followed by nothing or by the first frames of one write that is in progress. -/
def WholePackets (s : St) (order : List Nat) : Prop :=
  order.Nodup ∧ (∀ k, k ∈ order ↔ ∃ j, s.jobs[k]? = some (j, .done)) ∧
  ∃ rest, s.wire = order.flatMap (jobFrames s) ++ rest ∧
    (rest = [] ∨ ∃ (k : Nat) (j : Job) (n : Nat), s.jobs[k]? = some (j, .writing n) ∧ rest = j.frames.take n)

end Verif.Spec
