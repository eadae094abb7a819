import Verif.Model.Registry

/-! # Namespaces: names, who allows what -/

namespace Verif.Spec
open Verif

/-- Two arguments of `Of` that mean the same namespace: what is not a string means "/", so does the empty string, and a leading
slash may be left out. -/
def SameName (a b : Option String) : Prop :=
  a = b ∨
  (∀ x ∈ [a, b], x = none ∨ x = some "" ∨ x = some "/") ∨
  (∃ n, n ≠ "" ∧ n.toList.head? ≠ some '/' ∧ a = some n ∧ b = some ("/" ++ n)) ∨
  (∃ n, n ≠ "" ∧ n.toList.head? ≠ some '/' ∧ b = some n ∧ a = some ("/" ++ n))

/-- The name begins with a slash. -/
def Slashed (name : String) : Prop := name.toList.head? = some '/'

instance (name : String) : Decidable (Slashed name) := inferInstanceAs (Decidable (_ = _))

/-- Parent `k` allows the name: its regular expression matches, or its function (`b k`) says so. -/
def Allows (regex : Nat → String → Bool) (s : Registry.St) (b : Nat → Bool) (name : String) (k : Nat) : Prop :=
  ∃ p, s.parents[k]? = some p ∧ (if p.regex then regex k name else b k) = true

/-- `k` is the first in the order that allows the name. -/
def FirstAllowing (regex : Nat → String → Bool) (s : Registry.St) (b : Nat → Bool) (name : String) (order : List Nat)
    (k : Nat) : Prop :=
  ∃ l r, order = l ++ k :: r ∧ Allows regex s b name k ∧ ∀ j ∈ l, ¬ Allows regex s b name j

/-- The same namespaces exist, under the same names, with the same parents. -/
structure NothingCreated (s s' : Registry.St) : Prop where
  nsps : s'.nsps = s.nsps
  spaces : s'.spaces = s.spaces
  parents : s'.parents = s.parents
  announced : s'.announced = s.announced

/-- Exactly one namespace was created: a child of `k` with that name, with the middlewares and listeners `k` has; it is the one
found under the name, it was announced once. -/
structure ChildCreated (s s' : Registry.St) (k : Nat) (name : String) : Prop where
  parent : ∃ p, s.parents[k]? = some p ∧
    s'.spaces = s.spaces ++ [⟨name, some k, p.fns, p.handlers⟩] ∧
    s'.parents = s.parents.set k { p with children := p.children ++ [s.spaces.length] }
  nsps : ∀ m, s'.nsps.get? m = if m = name then some s.spaces.length else s.nsps.get? m
  announced : s'.announced = s.announced ++ [s.spaces.length]

/-- The namespaces removed in a history because they were empty. -/
def cleaned : List Registry.Op → List Nat
  | [] => []
  | .clean n :: h => n :: cleaned h
  | _ :: h => cleaned h

/-- What clients asked for in a history: who, which name. -/
def askedFor : List Registry.Op → List (Nat × String)
  | [] => []
  | .connect c name .. :: h => (c, name) :: askedFor h
  | _ :: h => askedFor h

/-- The arguments the application gave to `Of`. -/
def namesOf : List Registry.Op → List (Option String)
  | [] => []
  | .ofName name .. :: h => name :: namesOf h
  | _ :: h => namesOf h

/-- A history that consists of calls of `Of`. -/
def onlyOf : List Registry.Op → Bool
  | [] => true
  | .ofName .. :: h => onlyOf h
  | .ofParent .. :: h => onlyOf h
  | _ => false

/-- The middlewares given to `Use` of the `n`-th namespace in a history, in order. -/
def usedOn (n : Nat) (h : List Registry.Op) : List Nat :=
  h.filterMap fun | .use j m => if j = n then some m else none | _ => none

/-- The middlewares given to `Use` of the `k`-th parent namespace. -/
def usedOnParent (k : Nat) (h : List Registry.Op) : List Nat :=
  h.filterMap fun | .useParent j m => if j = k then some m else none | _ => none

/-- The listeners given to `On` of the `n`-th namespace. -/
def listenersOn (n : Nat) (h : List Registry.Op) : List Nat :=
  h.filterMap fun | .on j m => if j = n then some m else none | _ => none

/-- The listeners given to `On` of the `k`-th parent namespace. -/
def listenersOnParent (k : Nat) (h : List Registry.Op) : List Nat :=
  h.filterMap fun | .onParent j m => if j = k then some m else none | _ => none

/-- The call `e`, after the history `h0`, is the one that makes the `n`-th namespace. -/
def Makes (regex : Nat → String → Bool) (h0 : List Registry.Op) (e : Registry.Op) (n : Nat) : Prop :=
  (Registry.run regex h0).spaces[n]? = none ∧ (Registry.run regex (h0 ++ [e])).spaces[n]? ≠ none

instance (regex : Nat → String → Bool) (h0 : List Registry.Op) (e : Registry.Op) (n : Nat) : Decidable (Makes regex h0 e n) :=
  inferInstanceAs (Decidable (_ ∧ _))

end Verif.Spec
