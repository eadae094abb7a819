import Verif.Model.MidRace
import Verif.Spec.Returns

/-! # Middlewares that are added while clients connect (C126) -/

namespace Verif.Spec
open Verif.MidRace

/-- The middlewares that `Use` has been called with, in order. -/
def usedIn (h : List MidRace.Ev) : List Nat := h.filterMap fun
  | .use f => some f
  | _ => none

/-- The number of clients that came before: the number of the next one. -/
def clientsIn : List MidRace.Ev → Nat
  | [] => 0
  | .begin :: h => clientsIn h + 1
  | _ :: h => clientsIn h

/-- What has been observed when a client comes after `p`, and `q` happens after that. -/
def comes (p q : List MidRace.Ev) : List MidRace.Obs := (MidRace.run (p ++ .begin :: q)).log

/-- Every middleware that is called for client `j` lets it pass in the end. -/
def AllLetPass (j : Nat) (p : List MidRace.Ev) (σ : Nat → MidRace.Ev) : Prop :=
  ∀ n i f, .called j i f ∈ comes p (firstOf σ n) → ∃ m, n ≤ m ∧ σ m = .next j i true

/-- What comes next when `i` middlewares of `L` have let client `j` pass: the following one is called, or, if there is none, the client is let
in. -/
def thenComes (j : Nat) (L : List Nat) (i : Nat) : MidRace.Obs := match L[i]? with
  | some f => .called j i f
  | none => .over j true

/-- The first `i` middlewares of `L` have been called one after the other and have let client `j` pass. -/
def passedBy (j : Nat) (L : List Nat) : Nat → List MidRace.Obs
  | 0 => [thenComes j L 0]
  | i + 1 => passedBy j L i ++ [.answered j i true, thenComes j L (i + 1)]

/-- What has been observed of client `j`. -/
def ofClient (j : Nat) (log : List MidRace.Obs) : List MidRace.Obs := log.filter fun
  | .called k _ _ => k == j
  | .answered k _ _ => k == j
  | .over k _ => k == j

/-- The `i`-th middleware calls `next` for client `j`. -/
def isNextOf (j i : Nat) : MidRace.Obs → Bool
  | .answered k i' _ => k == j && i' == i
  | _ => false

/-- Each middleware calls `next` for client `j` once at most. -/
def EachNextsOnce (j : Nat) (log : List MidRace.Obs) : Prop := ∀ i, log.countP (isNextOf j i) ≤ 1

/-- Client `j` is let in or refused. -/
def isOverFor (j : Nat) : MidRace.Obs → Bool
  | .over k _ => k == j
  | _ => false

/-- The `i`-th middleware is called for client `j`. -/
def isCallFor (j i : Nat) : MidRace.Obs → Bool
  | .called k i' _ => k == j && i' == i
  | _ => false

/-- Events that are not steps of the runs of other clients: `Use`, clients that come, and what is done for client `j`. -/
def concerns (j : Nat) : MidRace.Ev → Bool
  | .use _ => true
  | .begin => true
  | .adv k => k == j
  | .next k _ _ => k == j

end Verif.Spec
