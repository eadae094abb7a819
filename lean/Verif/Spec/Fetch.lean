import Verif.Model.Fetch

/-!
# Specification: what `FetchSockets` on a cluster may return
-/

namespace Verif.Spec
open Verif Verif.Fetch

/-- `p` is the history up to some moment after the call of `FetchSockets` and not after `h`. -/
def Since (h p : List Fetch.Ev) : Prop := ∃ q, h = p ++ q ∧ Fetch.Ev.fetch ∈ p

/-- The step `e` after `h` calls the callback with the list `l` (and no error). -/
def Returns (me n : Nat) (o : Option Opts) (init : Nat → Delivery.Nsp) (h : List Fetch.Ev) (e : Fetch.Ev) (l : List Sid) : Prop :=
  (Fetch.run me n o init (h ++ [e])).calls = (Fetch.run me n o init h).calls ++ [some l]

/-- Server `me` has heard of server `j` before the call, while it was not removing it, and has not begun to remove it
since. -/
def Counted (me n : Nat) (o : Option Opts) (init : Nat → Delivery.Nsp) (h : List Fetch.Ev) (j : Nat) : Prop :=
  ∃ a b, h = a ++ Fetch.Ev.learn j :: b ∧ Fetch.Ev.fetch ∉ a ∧ Fetch.Ev.forget j ∉ b ∧
    ∀ pc, (j, pc) ∈ (Fetch.run me n o init a).rems → pc = .done

/-- The call is over but for its answers, which have all come and been handled, and no server is being removed. -/
def AllAnswered (me n : Nat) (s : Fetch.St) : Prop :=
  s.main = .finished ∧ (∀ j, j < n → j ≠ me → ∃ l, s.ways j = .done l) ∧ ∀ u pc, (u, pc) ∈ s.rems → pc = .done

/-- Nothing is going on: no answer is being handled, no server is being removed, the timer is not running its function.  Messages and answers
may still be under way. -/
structure NothingGoesOn (s : Fetch.St) : Prop where
  main : s.main = .finished ∨ s.main = .returned
  ways : ∀ j, s.ways j = .none ∨ s.ways j = .under ∨ (∃ l, s.ways j = .back l) ∨ ∃ l, s.ways j = .done l
  rems : ∀ u pc, (u, pc) ∈ s.rems → pc = .done
  timer : s.timer = .idle ∨ s.timer = .over

end Verif.Spec
