import Verif.Model.Locks

/-! # Specification for C106: calls return -/

namespace Verif.Spec
open Verif.Locks

/-- The call of goroutine `k` has returned. -/
def Back (s : Locks.St) (k : Nat) : Prop := s.ths[k]? = some []

/-- No listener of a connection sends while the connection is being written to. -/
def NoReentry (h : List Locks.Ev) : Prop := ∀ k p, Locks.Ev.callback k p ∉ h

/-- A listener that is called while a packet is written to client `c` sends only to clients that come after `c` in some order of the
clients. -/
def Climbs (rank : Nat → Nat) (h : List Locks.Ev) : Prop := ∀ a k p b c n todo rest, h = a ++ .callback k p :: b →
  (Locks.run a).ths[k]? = some (.writing c n todo :: rest) → ∀ x ∈ p, rank c < rank x.1

/-- Each of the `n` goroutines gets a turn, in any order and any number of times, and nothing else happens. -/
def Round (n : Nat) (r : List Locks.Ev) : Prop := (∀ k < n, .adv k ∈ r) ∧ ∀ e ∈ r, ∃ k, e = .adv k

end Verif.Spec
