import Verif.Proof.RegistryFns
import Verif.Props.Registry

/-!
# C79: the middlewares and listeners a namespace has, and the children of a parent namespace

The histories are those of `Model/Registry`: any calls of `Of`, `Use`, `On`, connections of clients, late calls of `next`, and
removals of empty namespaces.  Nothing is assumed.
-/

namespace Verif.Props
open Verif Verif.Spec Verif.Registry

namespace Demo

/-- A parent with a middleware and a listener; a child; then more is registered on the parent and on the child, another child is made,
and the first is removed. -/
def inherit : List Registry.Op :=
  [.ofParent false (some 1), .useParent 0 10, .connect 1 "/a" [0] fun _ => [true], .useParent 0 11, .onParent 0 2, .use 1 12,
   .on 1 3, .connect 2 "/b" [0] fun _ => [true], .use 0 13, .use 2 14, .clean 1]

end Demo

/-- **C79**: a parent namespace has the middlewares registered on it since it was made, in that order, and the listeners: the one
it was made with, then the others. -/
theorem C79_parent (regex : Nat → String → Bool) (h : List Registry.Op) (k : Nat) (p : Registry.Parent)
    (hp : (run regex h).parents[k]? = some p) :
    ∃ h0 r f t, h = h0 ++ .ofParent r f :: t ∧ (run regex h0).parents.length = k ∧
      p.fns = usedOnParent k t ∧ p.handlers = f.toList ++ listenersOnParent k t :=
  parents_run regex h k p hp

example : (run Demo.rx Demo.inherit).parents[0]?.map (fun p => (p.fns, p.handlers)) = some ([10, 11], [1, 2]) := by decide

/-- **C79**: a namespace made by a parent has the middlewares that parent had just before the call that made it (`C79_parent` says
which these are), then those registered on the namespace itself since, in that order; and the listeners that parent had, then its
own.  What is registered on the parent later does not reach it, and it loses nothing. -/
theorem C79_child (regex : Nat → String → Bool) (h : List Registry.Op) (n k : Nat) (x : Registry.Nsp)
    (hx : (run regex h).spaces[n]? = some x) (hk : x.parent = some k) :
    ∃ h0 e t p, h = h0 ++ e :: t ∧ Makes regex h0 e n ∧ (run regex h0).parents[k]? = some p ∧
      x.fns = p.fns ++ usedOn n t ∧
      ∃ l, x.handlers = p.handlers ++ l ∧ (listenersOn n t).Sublist l := by
  rcases spaces_run regex h n x hx with ⟨_, h1, _⟩ | ⟨h0, e, t, h1, h2, h3, h4 | ⟨k', p, h5, h6, h7, h8⟩⟩
  · rw [hk] at h1; cases h1
  · rw [hk] at h4; cases h4.1
  · rw [hk] at h5; cases h5
    exact ⟨h0, e, t, p, h1, ⟨h2, h3⟩, h6, h7, h8⟩

/-- The first child has the middleware its parent had at the time (10), not the later one; the second has both. -/
example : (run Demo.rx Demo.inherit).spaces.map (fun x => (x.parent, x.fns, x.handlers)) =
    [(none, [13], []), (some 0, [10, 12], [1, 3]), (some 0, [10, 11, 14], [1, 2])] := by decide

/-- **C79**: a namespace without a parent has just the middlewares registered on it since it was made ("/" exists from the start), in
that order, and at least the listeners. -/
theorem C79_static (regex : Nat → String → Bool) (h : List Registry.Op) (n : Nat) (x : Registry.Nsp)
    (hx : (run regex h).spaces[n]? = some x) (hk : x.parent = none) :
    (n = 0 ∧ x.fns = usedOn 0 h ∧ (listenersOn 0 h).Sublist x.handlers) ∨
    ∃ h0 e t, h = h0 ++ e :: t ∧ Makes regex h0 e n ∧ x.fns = usedOn n t ∧ (listenersOn n t).Sublist x.handlers := by
  rcases spaces_run regex h n x hx with ⟨h0, _, h1, h2⟩ | ⟨h0, e, t, h1, h2, h3, ⟨_, h4, h5⟩ | ⟨k', p, h5, _⟩⟩
  · exact .inl ⟨h0, h1, h2⟩
  · exact .inr ⟨h0, e, t, h1, ⟨h2, h3⟩, h4, h5⟩
  · rw [hk] at h5; cases h5

/-- **C79, C26**: the children of a parent namespace, which an emission through it goes to, are the namespaces it made that have not been
removed since. -/
theorem C79_children (regex : Nat → String → Bool) (h : List Registry.Op) (k n : Nat) :
    (∃ p, (run regex h).parents[k]? = some p ∧ n ∈ p.children) ↔
    ∃ h0 e t x, h = h0 ++ e :: t ∧ Makes regex h0 e n ∧
      (run regex h).spaces[n]? = some x ∧ x.parent = some k ∧ n ∉ cleaned t := by
  refine (children_run regex h k n).trans ⟨?_, ?_⟩
  · rintro ⟨h0, e, t, x, h1, h2, h3, h4⟩
    exact ⟨h0, e, t, x, h1, ⟨h2, h3⟩, h4⟩
  · rintro ⟨h0, e, t, x, h1, ⟨h2, h3⟩, h4⟩
    exact ⟨h0, e, t, x, h1, h2, h3, h4⟩

example : (run Demo.rx Demo.inherit).parents.map (·.children) = [[2]] ∧
    (run Demo.rx (Demo.inherit.dropLast)).parents.map (·.children) = [[1, 2]] := by decide

end Verif.Props
