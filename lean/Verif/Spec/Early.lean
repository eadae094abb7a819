import Verif.Model.Early

/-! # What becomes of the first packets of a client -/

namespace Verif.Spec
open Verif.Early

/-- The packets of the client that were read. -/
def earlyArrived (l : List Early.Obs) : List Nat := l.filterMap (fun | .arrived e => some e | _ => none)

/-- The events that the listener was called with. -/
def earlyHandled (l : List Early.Obs) : List Nat := l.filterMap (fun | .handled e _ => some e | _ => none)

/-- The events that the listener was never called with. -/
def earlyLost (l : List Early.Obs) : List Nat := l.filterMap (fun | .lost e => some e | _ => none)

/-- The packets taken for violations. -/
def earlyCut (l : List Early.Obs) : List Nat := l.filterMap (fun | .cut e => some e | _ => none)

/-- The packets that a goroutine still works on. -/
def earlyWaiting (l : List Early.Task) : List Nat := l.filterMap (fun | .gate e => some e | .deliver e _ => some e | .done => none)

/-- The program's handler of `connection` has returned before a packet of the client is read. -/
def HandlerFirst (inline : Bool) (h : List Early.Ev) : Prop :=
  ∀ p e, p ++ [.recv e] <+: h → Early.Obs.told ∈ (Early.run inline p).log → (Early.run inline p).pc = .done

end Verif.Spec
