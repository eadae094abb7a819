import Verif.Proof.RegistryAsked

/-! # C24, C25, C70: admission to dynamic namespaces, lookup of namespaces by name, names without a slash -/

namespace Verif.Props
open Verif Verif.Spec Verif.Registry

/-! ## C24 -/

/-- Every function matcher calls `next` exactly once before it returns, with the outcome `b`. -/
theorem calls_once {regex : Nat → String → Bool} {s : Registry.St} {name : String} {b : Nat → Bool} {k : Nat} {p : Registry.Parent}
    (hp : s.parents[k]? = some p) :
    callsOf regex s name (fun k => [b k]) k = [if p.regex then regex k name else b k] := by
  simp only [callsOf, hp]; split <;> simp

/-- **C24, partial**: for matchers that call `next` exactly once before they return.  A client asking for a namespace that does
not exist and begins with a slash is admitted to a new child of the first parent that allows it (in whatever order the parents are visited), which is the
only thing created and is announced once; if no parent allows it, the client is told so once and nothing is created. -/
theorem C24_partial (regex : Nat → String → Bool) (h : List Registry.Op) (c : Nat) (name : String) (order : List Nat)
    (b : Nat → Bool) (hs : Slashed name)
    (hunknown : (run regex h).nsps.get? name = none)
    (hord : order.Perm (List.range (run regex h).parents.length)) :
    (∀ k, FirstAllowing regex (run regex h) b name order k →
      (run regex (h ++ [.connect c name order fun k => [b k]])).answers =
        (run regex h).answers ++ [(c, some (run regex h).spaces.length)] ∧
      ChildCreated (run regex h) (run regex (h ++ [.connect c name order fun k => [b k]])) k name) ∧
    ((∀ k, ¬ Allows regex (run regex h) b name k) →
      (run regex (h ++ [.connect c name order fun k => [b k]])).answers = (run regex h).answers ++ [(c, none)] ∧
      NothingCreated (run regex h) (run regex (h ++ [.connect c name order fun k => [b k]]))) := by
  have hrun : run regex (h ++ [.connect c name order fun k => [b k]]) =
      connect regex (run regex h) c name order fun k => [b k] := by
    simp [run, step]
  rw [hrun]
  generalize run regex h = s at *
  have hlt : ∀ k ∈ order, k < s.parents.length := fun k hk => by simpa using hord.mem_iff.mp hk
  have hfil : order.filter (· < s.parents.length) = order :=
    List.filter_eq_self.mpr (by intro k hk; simpa using hlt k hk)
  have hno (j : Nat) (hj : j ∈ order) (hn : ¬ Allows regex s b name j) :
      callsOf regex s name (fun k => [b k]) j = [false] := by
    obtain ⟨p, hp⟩ : ∃ p, s.parents[j]? = some p := ⟨_, List.getElem?_eq_getElem (hlt j hj)⟩
    rw [calls_once hp]
    congr 1
    cases hb : (if p.regex then regex j name else b j) with
    | false => rfl
    | true => exact absurd ⟨_, hp, hb⟩ hn
  simp only [connect, hunknown, hfil]
  constructor
  · rintro k ⟨l, r, rfl, ⟨p, hp, hb⟩, hl⟩
    rw [traverse_deny regex _ c name (k :: r) l (by intro j hj; exact hno j (by simp [hj]) (hl j hj))]
    simp only [traverse, calls_once hp, hb, List.foldl_cons, List.foldl_nil, List.any_cons, List.any_nil, Bool.or_false, id,
      Bool.not_true, Bool.and_false, Bool.false_eq_true, if_false]
    rw [nextCalled_create c hs (p := p) (s := { s with closures := s.closures ++ l.map (fun k => (c, name, k)) ++ [(c, name, k)] }) hp hunknown]
    refine ⟨rfl, ⟨⟨p, hp, rfl, rfl⟩, ?_, rfl⟩⟩
    intro m
    simp only
    rw [FMap.get?_insert]
    by_cases e : name = m
    · subst e; simp
    · rw [if_neg (fun x : m = name => e x.symm)]; simp [e]
  · intro hall
    have := traverse_deny regex (callsOf regex s name fun k => [b k]) c name [] order (s := s) (e := true)
      (by intro j hj; exact hno j hj (hall j))
    rw [List.append_nil] at this
    rw [this]
    exact ⟨rfl, ⟨rfl, rfl, rfl, rfl⟩⟩

/-- **C24, who gets in**: for such matchers, the client is admitted exactly when some parent allows the name. -/
theorem C24_iff_partial (regex : Nat → String → Bool) (h : List Registry.Op) (c : Nat) (name : String) (order : List Nat)
    (b : Nat → Bool) (hs : Slashed name)
    (hunknown : (run regex h).nsps.get? name = none)
    (hord : order.Perm (List.range (run regex h).parents.length)) :
    ∃ a, (run regex (h ++ [.connect c name order fun k => [b k]])).answers = (run regex h).answers ++ [(c, a)] ∧
      (a.isSome = true ↔ ∃ k, Allows regex (run regex h) b name k) := by
  obtain ⟨h1, h2⟩ := C24_partial regex h c name order b hs hunknown hord
  by_cases hex : ∃ k, Allows regex (run regex h) b name k
  · have : ∃ k, FirstAllowing regex (run regex h) b name order k := by
      obtain ⟨k, p, hp, hb⟩ := hex
      have hk : k ∈ order := hord.mem_iff.mpr (by simpa using (List.getElem?_eq_some_iff.mp hp).1)
      have hak : Allows regex (run regex h) b name k := ⟨p, hp, hb⟩
      clear hb hp p hord h1 h2
      generalize run regex h = s at *
      clear hunknown
      induction order with
      | nil => cases hk
      | cons j order ih =>
        by_cases hj : Allows regex s b name j
        · exact ⟨j, [], order, rfl, hj, by simp⟩
        · have : k ≠ j := by rintro rfl; exact hj hak
          obtain ⟨k', l, r, e, ha, hl⟩ := ih (by simpa [this] using hk)
          exact ⟨k', j :: l, r, by simp [e], ha, by intro x hx; rcases List.mem_cons.mp hx with rfl | hx; exact hj; exact hl x hx⟩
    obtain ⟨k, hk⟩ := this
    exact ⟨_, (h1 k hk).1, by simp [hex]⟩
  · exact ⟨none, (h2 (by intro k hk; exact hex ⟨k, hk⟩)).1, by simp [hex]⟩

/-- **C24, existing namespaces**: a client asking for a namespace that exists, by a name that begins with a slash, is connected to it without any matcher being
asked. -/
theorem C24_existing (regex : Nat → String → Bool) (h : List Registry.Op) (c : Nat) (name : String) (order : List Nat)
    (calls : Nat → List Bool) (n : Nat) (hs : Slashed name) (hk : (run regex h).nsps.get? name = some n) :
    (run regex (h ++ [.connect c name order calls])).answers = (run regex h).answers ++ [(c, some n)] ∧
    (run regex (h ++ [.connect c name order calls])).closures = (run regex h).closures ∧
    NothingCreated (run regex h) (run regex (h ++ [.connect c name order calls])) ∧
    ∃ x, (run regex h).spaces[n]? = some x ∧ x.name = name := by
  have hrun : run regex (h ++ [.connect c name order calls]) = connect regex (run regex h) c name order calls := by
    simp [run, step]
  rw [hrun]
  obtain ⟨par, hp⟩ := (Registry.inv_run regex h).1.reg _ _ hk
  refine ⟨by simp [connect, hk, doConnect_found c hs hk], by simp [connect, hk, doConnect_found c hs hk], ⟨?_, ?_, ?_, ?_⟩, ?_⟩ <;>
    (try simp [connect, hk, doConnect_found c hs hk])
  rw [Registry.sig, List.getElem?_map] at hp
  cases e : (run regex h).spaces[n]? with
  | none => rw [e] at hp; cases hp
  | some x => rw [e] at hp; simp at hp; exact ⟨x, rfl, hp.1⟩

/-- **C24 fails for a matcher that answers after it has returned**: the client is told that the namespace is invalid, and later
it is connected to it. -/
theorem C24_late_fail : ¬ ∀ (regex : Nat → String → Bool) (h : List Registry.Op) (c : Nat),
    (c, none) ∈ (run regex h).answers → ∀ n, (c, some n) ∉ (run regex h).answers := by
  intro hall
  exact hall (fun _ _ => false) [.ofParent false none, .connect 7 "/x" [0] fun _ => [], .late 0 true] 7 (by decide) 1 (by decide)

/-- **C24 fails for a matcher that does not call `next` before it returns**: the parents after it are not asked, so the client
is refused although a regular expression matches. -/
theorem C24_silent_fail : ¬ ∀ (regex : Nat → String → Bool) (h : List Registry.Op) (c : Nat) (name : String) (order : List Nat)
    (calls : Nat → List Bool), (∃ k p, (run regex h).parents[k]? = some p ∧ p.regex = true ∧ regex k name = true) →
    order.Perm (List.range (run regex h).parents.length) →
    (c, none) ∉ (run regex (h ++ [.connect c name order calls])).answers := by
  intro hall
  exact hall (fun _ n => n == "/x") [.ofParent false none, .ofParent true none] 7 "/x" [0, 1] (fun _ => [])
    ⟨1, _, rfl, by decide, by decide⟩ (by decide) (by decide)

/-- **C24 fails for a matcher that calls `next` twice**: the client is connected twice. -/
theorem C24_twice_fail : ¬ ∀ (regex : Nat → String → Bool) (h : List Registry.Op) (c : Nat) (name : String) (order : List Nat)
    (calls : Nat → List Bool), (run regex h).answers = [] →
    (run regex (h ++ [.connect c name order calls])).answers.length ≤ 1 := by
  intro hall
  have := hall (fun _ _ => false) [.ofParent false none] 7 "/x" [0] (fun _ => [true, true]) (by decide)
  exact absurd this (by decide)

namespace Demo
/-- A parent with a function, one with a regular expression (with a middleware and a listener), "/chat" made with `Of`. -/
def regi : List Registry.Op :=
  [.ofParent false none, .ofParent true (some 4), .useParent 1 8, .ofName (some "chat") (some 5) []]

/-- matches what begins with "/d" -/
def rx (_ : Nat) (n : String) : Bool := n.toList.take 2 == ['/', 'd']
end Demo

example : (run Demo.rx (Demo.regi ++ [.connect 1 "/dyn" [1, 0] fun _ => [true]])).answers = [(1, some 2)] ∧
    (run Demo.rx (Demo.regi ++ [.connect 1 "/dyn" [0, 1] fun _ => [false]])).answers = [(1, some 2)] ∧
    (run Demo.rx (Demo.regi ++ [.connect 1 "/other" [0, 1] fun _ => [false]])).answers = [(1, none)] ∧
    (run Demo.rx (Demo.regi ++ [.connect 1 "/chat" [0, 1] fun _ => []])).answers = [(1, some 1)] := by decide

example : (run Demo.rx Demo.regi).nsps.get? "/dyn" = none ∧ Slashed "/dyn" ∧
    [1, 0].Perm (List.range (run Demo.rx Demo.regi).parents.length) ∧
    FirstAllowing Demo.rx (run Demo.rx Demo.regi) (fun _ => true) "/dyn" [1, 0] 1 :=
  ⟨by decide, by decide, by decide, [], [0], rfl, ⟨_, rfl, by decide⟩, by simp⟩

/-! ## C25 -/

/-- **C25, names**: two arguments are treated alike by `Of` exactly when they mean the same name. -/
theorem C25_names (a b : Option String) : normalize a = normalize b ↔ SameName a b := by
  have slash (n : String) : ("/" ++ n).toList = '/' :: n.toList := by simp [String.toList_append]
  have inj {m n : String} (h : m.toList = n.toList) : m = n := String.toList_inj.mp h
  have key (x : Option String) :
      (normalize x = "/" ∧ (x = none ∨ x = some "" ∨ x = some "/")) ∨
      (∃ n, x = some n ∧ n ≠ "/" ∧ normalize x = n ∧ n.toList.head? = some '/') ∨
      (∃ n, x = some n ∧ n ≠ "" ∧ n.toList.head? ≠ some '/' ∧ normalize x = "/" ++ n) := by
    cases x with
    | none => exact Or.inl ⟨rfl, Or.inl rfl⟩
    | some n =>
      rcases hn : n.toList with _ | ⟨c, l⟩
      · left
        refine ⟨by simp [normalize, hn], Or.inr (Or.inl ?_)⟩
        congr 1; exact inj (by rw [hn]; rfl)
      · have hne : n ≠ "" := by rintro rfl; cases hn
        by_cases hc : c = '/'
        · subst hc
          by_cases h1 : n = "/"
          · subst h1; exact Or.inl ⟨by decide, Or.inr (Or.inr rfl)⟩
          · exact Or.inr (Or.inl ⟨n, rfl, h1, by simp [normalize, hn], by simp [hn]⟩)
        · exact Or.inr (Or.inr ⟨n, rfl, hne, by simp [hn, hc], by simp [normalize, hn, hc]⟩)
  have hroot {n : String} (h : "/" ++ n = "/") : n = "" := by
    have := congrArg String.toList h
    rw [slash] at this
    exact inj (by simpa using this)
  constructor
  · intro e
    rcases key a with ⟨ha, ha'⟩ | ⟨n, rfl, hn, ha, ha'⟩ | ⟨n, rfl, hn, hn', ha⟩ <;>
      rcases key b with ⟨hb, hb'⟩ | ⟨m, rfl, hm, hb, hb'⟩ | ⟨m, rfl, hm, hm', hb⟩ <;> rw [ha, hb] at e
    · right; left; intro x hx; simp at hx; rcases hx with rfl | rfl
      · exact ha'
      · exact hb'
    · exact absurd e.symm hm
    · exact absurd (hroot e.symm) hm
    · exact absurd e hn
    · exact Or.inl (congrArg some e)
    · exact Or.inr (Or.inr (Or.inr ⟨m, hm, hm', rfl, congrArg some e⟩))
    · exact absurd (hroot e) hn
    · exact Or.inr (Or.inr (Or.inl ⟨n, hn, hn', rfl, congrArg some e.symm⟩))
    · left; congr 1
      have := congrArg String.toList e
      rw [slash, slash] at this
      exact inj (by simpa using this)
  · have hN (n : String) (h1 : n ≠ "") (h2 : n.toList.head? ≠ some '/') : normalize (some n) = normalize (some ("/" ++ n)) := by
      have e2 : normalize (some ("/" ++ n)) = "/" ++ n := by simp [normalize]
      rw [e2]
      rcases key (some n) with ⟨_, h | h | h⟩ | ⟨m, h, _, _, h'⟩ | ⟨m, h, _, _, h'⟩
      · cases h
      · cases h; exact absurd rfl h1
      · cases h; exact absurd rfl h2
      · cases h; exact absurd h' h2
      · cases h; exact h'
    have hR (x : Option String) (h : x = none ∨ x = some "" ∨ x = some "/") : normalize x = "/" := by
      rcases h with rfl | rfl | rfl <;> decide
    rintro (rfl | h | ⟨n, h1, h2, rfl, rfl⟩ | ⟨n, h1, h2, rfl, rfl⟩)
    · rfl
    · rw [hR a (h a (by simp)), hR b (h b (by simp))]
    · exact hN n h1 h2
    · exact (hN n h1 h2).symm

/-- **C25, the result**: the namespace returned has the normalised name and is registered under it; at most one namespace is
created, and none if one is registered under the name. -/
theorem C25_result (regex : Nat → String → Bool) (h : List Registry.Op) (name : Option String) (fn : Option Nat)
    (order : List Nat) :
    (run regex (h ++ [.ofName name fn order])).nsps.get? (normalize name) =
      some (ofName regex (run regex h) name fn order).2 ∧
    (∃ x, (run regex (h ++ [.ofName name fn order])).spaces[(ofName regex (run regex h) name fn order).2]? = some x ∧
      x.name = normalize name) ∧
    (run regex (h ++ [.ofName name fn order])).spaces.length =
      (run regex h).spaces.length + (if ((run regex h).nsps.get? (normalize name)).isSome then 0 else 1) := by
  have hrun : run regex (h ++ [.ofName name fn order]) = (ofName regex (run regex h) name fn order).1 := by
    simp [run, step]
  have i' := (Registry.inv_run regex (h ++ [.ofName name fn order])).1
  rw [hrun] at i' ⊢
  have i := (Registry.inv_run regex h).1
  generalize run regex h = s at *
  have h1 : (ofName regex s name fn order).1.nsps.get? (normalize name) = some (ofName regex s name fn order).2 := by
    simp only [ofName]
    split
    · rename_i n e; simp only; rw [(addHandler_fields ..).1]; exact e
    · split
      · rename_i k e
        have := firstMatch_lt e
        have hp : s.parents[k]? = some s.parents[k] := List.getElem?_eq_getElem this
        simp [createChild, hp]
      · simp only; rw [(addHandler_fields ..).1]; simp
  refine ⟨h1, ?_, ?_⟩
  · obtain ⟨par, hp⟩ := i'.reg _ _ h1
    rw [Registry.sig, List.getElem?_map] at hp
    cases e : (ofName regex s name fn order).1.spaces[(ofName regex s name fn order).2]? with
    | none => rw [e] at hp; cases hp
    | some x => rw [e] at hp; simp at hp; exact ⟨x, rfl, hp.1⟩
  · simp only [ofName]
    split
    · rename_i n e
      simp only
      rw [← sig_length, (addHandler_fields ..).2.1, sig_length, e]; simp
    · rename_i e
      rw [e]
      split
      · rename_i k e1
        have := firstMatch_lt e1
        have hp : s.parents[k]? = some s.parents[k] := List.getElem?_eq_getElem this
        simp [createChild, hp]
      · simp only
        rw [← sig_length, (addHandler_fields ..).2.1]; simp [sig]

/-- **C25, stable**: as long as no namespace of that name is removed for being empty, `Of` keeps returning the same namespace,
whatever else is called in between, for every argument that means the same name. -/
theorem C25_stable (regex : Nat → String → Bool) (h t : List Registry.Op) (name name' : Option String) (fn fn' : Option Nat)
    (order order' : List Nat) (hsame : SameName name name')
    (hkept : ∀ m ∈ cleaned t, ∀ x, (run regex (h ++ [.ofName name fn order] ++ t)).spaces[m]? = some x →
      x.name ≠ normalize name) :
    (ofName regex (run regex (h ++ [.ofName name fn order] ++ t)) name' fn' order').2 =
      (ofName regex (run regex h) name fn order).2 := by
  have h1 := (C25_result regex h name fn order).1
  obtain ⟨i, v⟩ := Registry.inv_run regex (h ++ [.ofName name fn order])
  have hrun : run regex (h ++ [.ofName name fn order] ++ t) =
      t.foldl (step regex) (run regex (h ++ [.ofName name fn order])) := by
    simp [run]
  have h2 := foldl_keeps regex t i v h1 (by
    intro m hm par hp
    rw [← hrun, Registry.sig, List.getElem?_map] at hp
    cases e : (run regex (h ++ [.ofName name fn order] ++ t)).spaces[m]? with
    | none => rw [e] at hp; cases hp
    | some x => rw [e] at hp; simp at hp; exact hkept m hm x e hp.1)
  rw [← hrun, (C25_names name name').mpr hsame] at h2
  simp only [ofName, h2]

/-- **C25, announced**: in every history, every namespace ever created other than "/" has been announced exactly once, in the
order of creation. -/
theorem C25_announced (regex : Nat → String → Bool) (h : List Registry.Op) :
    (run regex h).announced = List.range' 1 ((run regex h).spaces.length - 1) ∧ (run regex h).announced.Nodup := by
  have := (Registry.inv_run regex h).1.ann
  exact ⟨this, by rw [this]; exact List.nodup_range'⟩

/-- **C25, the listener, partial**: if a namespace of that name exists, or if no regular expression matches it, the listener is
added to the namespace returned, after those it has. -/
theorem C25_handler_partial (regex : Nat → String → Bool) (h : List Registry.Op) (name : Option String) (fn : Nat)
    (order : List Nat)
    (hre : (∃ n, (run regex h).nsps.get? (normalize name) = some n) ∨
      ∀ k p, (run regex h).parents[k]? = some p → p.regex = true → regex k (normalize name) = false) :
    ∃ x, (run regex (h ++ [.ofName name (some fn) order])).spaces[(ofName regex (run regex h) name (some fn) order).2]? = some x ∧
      x.handlers = (match (run regex h).spaces[(ofName regex (run regex h) name (some fn) order).2]? with
        | some y => y.handlers
        | none => []) ++ [fn] := by
  have hrun : run regex (h ++ [.ofName name (some fn) order]) = (ofName regex (run regex h) name (some fn) order).1 := by
    simp [run, step]
  rw [hrun]
  have i := (Registry.inv_run regex h).1
  generalize run regex h = s at *
  simp only [ofName]
  split
  · rename_i n e
    obtain ⟨par, hp⟩ := i.reg _ _ e
    rw [Registry.sig, List.getElem?_map] at hp
    cases e' : s.spaces[n]? with
    | none => rw [e'] at hp; cases hp
    | some y =>
      obtain ⟨hl, he⟩ := List.getElem?_eq_some_iff.mp e'
      simp [addHandler, e', hl, he]
  · rename_i e
    rcases hre with ⟨n, hn⟩ | hre
    · rw [hn] at e; cases e
    · have hf : firstMatch s regex (normalize name) order = none := by
        unfold firstMatch
        rw [List.find?_eq_none]
        intro k _
        cases hp : s.parents[k]? with
        | none => simp
        | some p =>
          cases hr : p.regex with
          | false => simp [hr]
          | true => simp [hr, hre k p hp hr]
      rw [hf]
      simp [addHandler]

/-- **C25 fails for the listener**: when a regular expression matches a new name, the listener given to `Of` is not added. -/
theorem C25_handler_fail : ¬ ∀ (regex : Nat → String → Bool) (h : List Registry.Op) (name : Option String) (fn : Nat)
    (order : List Nat), ∃ x,
      (run regex (h ++ [.ofName name (some fn) order])).spaces[(ofName regex (run regex h) name (some fn) order).2]? = some x ∧
      fn ∈ x.handlers := by
  intro hall
  obtain ⟨x, hx, hf⟩ := hall (fun _ _ => true) [.ofParent true none] (some "/a") 5 [0]
  have e : x = { name := "/a", parent := some 0 } := by
    have h1 : (run (fun _ _ => true) ([.ofParent true none] ++ [.ofName (some "/a") (some 5) [0]])).spaces[
      (ofName (fun _ _ => true) (run (fun _ _ => true) [.ofParent true none]) (some "/a") (some 5) [0]).2]? =
        some { name := "/a", parent := some 0 } := by decide
    rw [h1] at hx; exact (Option.some.inj hx).symm
  rw [e] at hf; cases hf

/-- Removal in between: the second call creates another namespace. -/
example : (ofName Demo.rx (run Demo.rx (Demo.regi ++ [.connect 1 "/d" [1, 0] fun _ => [], .clean 2])) (some "d") none [0, 1]).2 = 3 := by
  decide

example : SameName (some "chat") (some "/chat") ∧ SameName none (some "") ∧ ¬ SameName (some "/chat") (some "//chat") := by
  refine ⟨Or.inr (Or.inr (Or.inl ⟨"chat", by decide, by decide, rfl, by decide⟩)), Or.inr (Or.inl (by decide)), ?_⟩
  rw [← C25_names]; decide

example : (ofName Demo.rx (run Demo.rx Demo.regi) (some "/chat") none []).2 = 1 ∧
    (run Demo.rx (Demo.regi ++ [.ofName (some "/chat") (some 6) []])).spaces[1]? =
      some { name := "/chat", handlers := [5, 6] } ∧
    (run Demo.rx (Demo.regi ++ [.ofName (some "/do") (some 6) [0, 1]])).spaces[2]? =
      some { name := "/do", parent := some 1, fns := [8], handlers := [4] } := by decide

/-! ## C70 -/

/-- **C70, partial**: as long as every name asked for begins with a slash, whatever the matchers do and whenever they call `next`,
a client is only ever connected to a namespace whose name it asked for. -/
theorem C70_partial (regex : Nat → String → Bool) (h : List Registry.Op) (hs : ∀ x ∈ askedFor h, Slashed x.2) (c n : Nat)
    (ha : (c, some n) ∈ (run regex h).answers) :
    ∃ x, (run regex h).spaces[n]? = some x ∧ (c, x.name) ∈ askedFor h := by
  obtain ⟨nm, par, h1, h2⟩ := (asked_run regex h hs).ans c n ha
  simp only [sig, List.getElem?_map, Option.map_eq_some_iff] at h1
  obtain ⟨x, hx, e⟩ := h1
  exact ⟨x, hx, by cases e; exact h2⟩

/-- **C70, partial**: and what a client asks for never creates a namespace without a parent (and so without the middlewares of a
parent): such a namespace is "/" or one the application named in a call of `Of`. -/
theorem C70_static_partial (regex : Nat → String → Bool) (h : List Registry.Op) (hs : ∀ x ∈ askedFor h, Slashed x.2)
    (x : Registry.Nsp) (hx : x ∈ (run regex h).spaces) (hp : x.parent = none) :
    x.name = "/" ∨ ∃ a ∈ namesOf h, SameName a (some x.name) := by
  rcases (asked_run regex h hs).stat x.name (List.mem_map.mpr ⟨x, hx, by rw [hp]⟩) with e | e
  · exact .inl e
  · obtain ⟨a, ha, e⟩ := List.mem_map.mp e
    refine .inr ⟨a, ha, (C25_names a (some x.name)).mp ?_⟩
    rw [← e]
    exact (normalize_idem a).symm

/-- **C70, what fails**: a client that asks for a name without a slash (the parsers let it) and is admitted by a function matcher is
connected to a namespace it did not ask for, which the application never named, and which has no parent: the middlewares of the
parent that admitted it are not run. -/
theorem C70_fail : ¬ ∀ (regex : Nat → String → Bool) (h : List Registry.Op) (c n : Nat),
    (c, some n) ∈ (run regex h).answers →
    ∃ x, (run regex h).spaces[n]? = some x ∧
      ((c, x.name) ∈ askedFor h ∨ x.parent ≠ none ∨ x.fns ≠ [] ∨ ∃ a ∈ namesOf h, SameName a (some x.name)) := by
  intro h
  obtain ⟨x, hx, h1⟩ := h (fun _ _ => false) [.ofParent false none, .useParent 0 7, .connect 1 "x" [0] fun _ => [true]] 1 2 (by decide)
  have e : (run (fun _ _ => false) [.ofParent false none, .useParent 0 7, .connect 1 "x" [0] fun _ => [true]]).spaces[2]? =
      some ⟨"/x", none, [], []⟩ := by decide
  rw [e] at hx
  cases hx
  rcases h1 with h1 | h1 | h1 | ⟨a, ha, _⟩
  · revert h1; decide
  · exact h1 rfl
  · exact h1 rfl
  · cases ha

/-- **C70, what fails**: a client that asks for the empty name is connected to "/" without any matcher of that name being told. -/
theorem C70_empty_fail : ¬ ∀ (regex : Nat → String → Bool) (h : List Registry.Op) (c n : Nat),
    (c, some n) ∈ (run regex h).answers → ∃ x, (run regex h).spaces[n]? = some x ∧ (c, x.name) ∈ askedFor h := by
  intro h
  obtain ⟨x, hx, h1⟩ := h (fun _ _ => false) [.ofParent false none, .connect 1 "" [0] fun _ => [true]] 1 0 (by decide)
  have e : (run (fun _ _ => false) [.ofParent false none, .connect 1 "" [0] fun _ => [true]]).spaces[0]? =
      some ⟨"/", none, [], []⟩ := by decide
  rw [e] at hx
  cases hx
  revert h1
  decide

/-- Three clients ask for names with a slash: one that exists, one that is created, one that nobody allows. -/
example :
    let h : List Registry.Op := Demo.regi ++ [.connect 1 "/dyn" [1, 0] fun _ => [true], .connect 2 "/chat" [] fun _ => [],
      .connect 3 "/no" [1, 0] fun _ => [false]]
    (∀ x ∈ askedFor h, Slashed x.2) ∧ (run Demo.rx h).answers = [(1, some 2), (2, some 1), (3, none)] ∧
    (run Demo.rx h).spaces.map (·.name) = ["/", "/chat", "/dyn"] := by
  decide

end Verif.Props
