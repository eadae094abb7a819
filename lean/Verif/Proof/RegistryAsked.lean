import Verif.Proof.Registry
import Verif.Lib.ListExtra

/-! # Lemmas about what clients are connected to -/

namespace Verif.Registry
open Verif Verif.Spec

/-- Clients asked for `A`, the application for `B`. -/
structure Asked (A : List (Nat × String)) (B : List String) (s : St) : Prop where
  clo : ∀ x ∈ s.closures, (x.1, x.2.1) ∈ A
  ans : ∀ (c n : Nat), (c, some n) ∈ s.answers → ∃ (nm : String) (par : Option Nat), (sig s)[n]? = some (nm, par) ∧ (c, nm) ∈ A
  stat : ∀ nm : String, (nm, none) ∈ sig s → nm = "/" ∨ nm ∈ B

theorem Asked.keep {A : List (Nat × String)} {B : List String} {s s' : St} (a : Asked A B s) (x : List (String × Option Nat))
    (h1 : s'.closures = s.closures) (h2 : s'.answers = s.answers) (h3 : sig s' = sig s ++ x)
    (h4 : ∀ nm : String, (nm, none) ∈ x → nm ∈ B) : Asked A B s' := by
  refine ⟨by rw [h1]; exact a.clo, ?_, ?_⟩
  · intro c n hm
    rw [h2] at hm
    obtain ⟨nm, par, g1, g2⟩ := a.ans c n hm
    exact ⟨nm, par, by rw [h3, List.getElem?_append_left (List.getElem?_eq_some_iff.mp g1).1]; exact g1, g2⟩
  · intro nm hm
    rw [h3] at hm
    rcases List.mem_append.mp hm with hm | hm
    · exact a.stat nm hm
    · exact .inr (h4 nm hm)

theorem Asked.answer {A : List (Nat × String)} {B : List String} {s : St} (a : Asked A B s) (c n : Nat) (nm : String) (par : Option Nat)
    (h : (sig s)[n]? = some (nm, par)) (hA : (c, nm) ∈ A) : Asked A B { s with answers := s.answers ++ [(c, some n)] } := by
  refine ⟨a.clo, ?_, a.stat⟩
  intro c' n' hm
  rcases List.mem_append.mp hm with hm | hm
  · exact a.ans c' n' hm
  · simp at hm; obtain ⟨rfl, rfl⟩ := hm; exact ⟨nm, par, h, hA⟩

theorem Asked.mono {A A' : List (Nat × String)} {B B' : List String} {s : St} (a : Asked A B s) (hA : ∀ x ∈ A, x ∈ A')
    (hB : ∀ x ∈ B, x ∈ B') : Asked A' B' s := by
  refine ⟨fun x hx => hA _ (a.clo x hx), ?_, ?_⟩
  · intro c n hm
    obtain ⟨nm, par, g1, g2⟩ := a.ans c n hm
    exact ⟨nm, par, g1, hA _ g2⟩
  · intro nm hm
    rcases a.stat nm hm with h | h
    · exact .inl h
    · exact .inr (hB _ h)

theorem asked_nextCalled {regex : Nat → String → Bool} {A : List (Nat × String)} {B : List String} {s : St} (i : Inv s) (a : Asked A B s)
    {c : Nat} {name : String} (hA : (c, name) ∈ A) (hs : Slashed name) {k : Nat} (hk : k < s.parents.length) (b : Bool) :
    Asked A B (nextCalled regex s c name k b) := by
  cases b with
  | false => simpa [nextCalled] using a
  | true =>
    cases h0 : s.nsps.get? name with
    | some n =>
      simp only [nextCalled, if_true, h0, doConnect_found c hs h0]
      obtain ⟨par, hp⟩ := i.reg _ _ h0
      exact a.answer c n name par hp hA
    | none =>
      rw [nextCalled_create c hs (List.getElem?_eq_getElem hk) h0]
      have a' : Asked A B { s with
          spaces := s.spaces ++ [⟨name, some k, (s.parents[k]).fns, (s.parents[k]).handlers⟩]
          parents := s.parents.set k { s.parents[k] with children := (s.parents[k]).children ++ [s.spaces.length] }
          nsps := s.nsps.insert name s.spaces.length
          announced := s.announced ++ [s.spaces.length] } :=
        a.keep [(name, some k)] rfl rfl (by simp [sig]) (by simp)
      refine a'.answer c s.spaces.length name (some k) ?_ hA
      rw [← sig_length]; simp [sig]

theorem asked_nextCalls {regex : Nat → String → Bool} {A : List (Nat × String)} {B : List String} {c : Nat} {name : String}
    (hA : (c, name) ∈ A) (hs : Slashed name) {k : Nat} (l : List Bool) : ∀ {s : St}, Inv s → Asked A B s → k < s.parents.length →
    Asked A B (l.foldl (fun s b => nextCalled regex s c name k b) s) := by
  induction l with
  | nil => intro s _ a _; exact a
  | cons b l ih =>
    intro s i a hk
    obtain ⟨h1, h2, _⟩ := nextCalled_path regex i c name b hk
    exact ih (h1.inv i) (asked_nextCalled i a hA hs hk b) (by rw [h2]; exact hk)

theorem asked_traverse {regex : Nat → String → Bool} {A : List (Nat × String)} {B : List String} {c : Nat} {name : String}
    (hA : (c, name) ∈ A) (hs : Slashed name) (calls : Nat → List Bool) (l : List Nat) : ∀ {s : St} {e : Bool}, Inv s → Asked A B s →
    (∀ k ∈ l, k < s.parents.length) → Asked A B (traverse regex calls c name l (s, e)).1 := by
  induction l with
  | nil => intro s e _ a _; exact a
  | cons k l ih =>
    intro s e i a hl
    have hk := hl k (by simp)
    simp only [traverse]
    have p1 : Path false s { s with closures := s.closures ++ [(c, name, k)] } := .one (.same rfl rfl rfl)
    have a1 : Asked A B { s with closures := s.closures ++ [(c, name, k)] } := by
      refine ⟨?_, a.ans, a.stat⟩
      intro x hx
      rcases List.mem_append.mp hx with hx | hx
      · exact a.clo x hx
      · simp at hx; subst hx; exact hA
    have i1 := p1.inv i
    obtain ⟨h1, h2, _⟩ := nextCalls_path regex c name (calls k) i1 hk
    have a2 := asked_nextCalls (regex := regex) hA hs (calls k) i1 a1 hk
    split
    · exact ih (h1.inv i1) a2 (by intro j hj; rw [h2]; exact hl j (by simp [hj]))
    · exact a2

theorem asked_step {regex : Nat → String → Bool} {A : List (Nat × String)} {B : List String} {s : St} (i : Inv s) (v : Valid s)
    (a : Asked A B s) (hS : ∀ x ∈ A, Slashed x.2) (o : Op) (hA : ∀ x ∈ askedFor [o], x ∈ A) (hB : ∀ x ∈ namesOf [o], normalize x ∈ B) :
    Asked A B (step regex s o) := by
  cases o with
  | ofName name h order =>
    have hB := hB name (by simp [namesOf])
    simp only [step, ofName]
    have add (t : St) (n : Nat) (at' : Asked A B t) : Asked A B (addHandler t n h) :=
      at'.keep [] (addHandler_fields t n h).2.2.2.2 (by simp only [addHandler]; split <;> rfl)
        (by rw [(addHandler_fields t n h).2.1]; simp) (by simp)
    split
    · exact add _ _ a
    · split
      · rename_i k e1
        refine a.keep [(normalize name, some k)] (createChild_parents ..).2 ?_ ?_ (by simp)
        · simp only [createChild]; split <;> rfl
        · have hlt := firstMatch_lt e1
          have : s.parents[k]? = some s.parents[k] := List.getElem?_eq_getElem hlt
          simp [createChild, this, sig]
      · exact add _ _ (a.keep [(normalize name, none)] rfl rfl (by simp [sig]) (by simp [hB]))
  | ofParent r h => exact a.keep [] rfl rfl (by simp [step, ofParent, sig]) (by simp)
  | use n m =>
    simp only [step]
    split
    · rename_i x e; exact a.keep [] rfl rfl (by rw [List.append_nil]; exact sig_set s n x _ e rfl rfl) (by simp)
    · exact a
  | useParent k m => simp only [step]; split <;> exact ⟨a.clo, a.ans, a.stat⟩
  | on n h =>
    exact a.keep [] (addHandler_fields s n _).2.2.2.2 (by simp only [step, addHandler]; split <;> rfl)
        (by simp only [step]; rw [(addHandler_fields s n _).2.1]; simp) (by simp)
  | onParent k h => simp only [step]; split <;> exact ⟨a.clo, a.ans, a.stat⟩
  | connect c name order calls =>
    have hA := hA (c, name) (by simp [askedFor])
    have hs := hS _ hA
    simp only [step, connect]
    split
    · rename_i n h0
      rw [doConnect_found c hs h0]
      obtain ⟨par, hp⟩ := i.reg _ _ h0
      exact a.answer c n name par hp hA
    · have := asked_traverse (regex := regex) hA hs (callsOf regex s name calls) (order.filter (· < s.parents.length)) (e := true) i a
        (by intro k hk; simpa using (List.mem_filter.mp hk).2)
      split
      · refine ⟨this.clo, ?_, this.stat⟩
        intro c' n' hm
        rcases List.mem_append.mp hm with hm | hm
        · exact this.ans c' n' hm
        · simp at hm
      · exact this
  | late j b =>
    simp only [step]
    split
    · rename_i c name k e
      have hm := List.mem_of_getElem? e
      exact asked_nextCalled i a (a.clo _ hm) (hS _ (a.clo _ hm)) (v _ hm) b
    · exact a
  | clean n =>
    simp only [step, clean]
    split
    · split <;> exact ⟨a.clo, a.ans, a.stat⟩
    · exact a
  | reorder l => exact ⟨a.clo, a.ans, a.stat⟩

theorem askedFor_append (h t : List Op) : askedFor (h ++ t) = askedFor h ++ askedFor t := by
  induction h with
  | nil => rfl
  | cons o h ih => cases o <;> simp [askedFor, ih]

theorem namesOf_append (h t : List Op) : namesOf (h ++ t) = namesOf h ++ namesOf t := by
  induction h with
  | nil => rfl
  | cons o h ih => cases o <;> simp [namesOf, ih]

theorem asked_run (regex : Nat → String → Bool) (h : List Op) (hS : ∀ x ∈ askedFor h, Slashed x.2) :
    Asked (askedFor h) ((namesOf h).map normalize) (run regex h) := by
  induction h using snocRec with
  | nil => exact ⟨by simp [run], by simp [run], by simp [run, sig]⟩
  | append_singleton h o ih =>
    rw [askedFor_append] at hS
    have ih := ih (fun x hx => hS x (by simp [hx]))
    have iv := inv_run regex h
    rw [askedFor_append, namesOf_append, show run regex (h ++ [o]) = step regex (run regex h) o by simp [run]]
    refine asked_step iv.1 iv.2 (ih.mono (by simp_all) (by simp_all)) hS o (by simp_all)
      (fun x hx => List.mem_map.mpr ⟨x, by simp [hx], rfl⟩)

end Verif.Registry
