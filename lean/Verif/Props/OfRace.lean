import Verif.Spec.OfRace
import Verif.Lib.ListExtra

/-! # C63: concurrent creation of a namespace -/

namespace Verif.Props
open Verif Verif.Spec Verif.OfRace

theorem OfRace.keeps {s : OfRace.St} {name : String} {n : Nat} (hr : s.nsps.get? name = some n) (hc : NoCreator s name)
    (e : OfRace.Ev) :
    (OfRace.step s e).nsps.get? name = some n ∧ NoCreator (OfRace.step s e) name := by
  cases e with
  | spawn nm j =>
    refine ⟨hr, ?_⟩
    intro t ht he
    simp only [OfRace.step, List.mem_append, List.mem_singleton] at ht
    rcases ht with ht | rfl
    · exact hc t ht he
    · simp
  | adv k =>
    simp only [OfRace.step]
    split
    · rename_i t ht
      have hmem := List.mem_of_getElem? ht
      have key : (advance s t).1.nsps.get? name = some n ∧ ((advance s t).2.name = name → (advance s t).2.pc ≠ .store) := by
        by_cases hn : t.name = name
        · have := hc t hmem hn
          simp only [advance]
          split
          · rw [hn, hr]; exact ⟨hr, fun _ => by simp only; split <;> simp⟩
          · rename_i e; exact absurd e this
          · rw [hn, hr]; exact ⟨hr, fun _ => by simp⟩
          · exact ⟨hr, fun _ => this⟩
        · have hne : (advance s t).2.name ≠ name := by
            simp only [advance]; split <;> (try split) <;> exact hn
          refine ⟨?_, fun h => absurd h hne⟩
          simp only [advance]
          split
          · split <;> exact hr
          · simp only; rw [FMap.get?_insert_ne hn]; exact hr
          · split <;> exact hr
          · exact hr
      refine ⟨key.1, ?_⟩
      intro u hu he
      rcases List.mem_or_eq_of_mem_set hu with hu | rfl
      · exact hc u hu he
      · exact key.2 he
    · exact ⟨hr, hc⟩

/-- **C63, partial**: once a namespace of that name is registered and nobody is in the middle of creating one, every call that
has not ended yet, and every one that starts later, ends with that namespace, under every interleaving. -/
theorem C63_partial (h t : List OfRace.Ev) (name : String) (n : Nat) (hr : (OfRace.run h).nsps.get? name = some n)
    (hc : NoCreator (OfRace.run h) name) (k : Nat) (hk : gotSpace (OfRace.run h) k = none) (th : OfRace.Th)
    (hth : (OfRace.run (h ++ t)).ths[k]? = some th) (hn : th.name = name) (m : Nat)
    (hg : gotSpace (OfRace.run (h ++ t)) k = some m) : m = n := by
  have main : ∀ (t : List OfRace.Ev), (OfRace.run (h ++ t)).nsps.get? name = some n ∧
      NoCreator (OfRace.run (h ++ t)) name ∧
      ∀ k, gotSpace (OfRace.run h) k = none → ∀ th, (OfRace.run (h ++ t)).ths[k]? = some th → th.name = name →
        ∀ m, th.pc = .done m → m = n := by
    intro t
    induction t using snocRec with
    | nil =>
      rw [List.append_nil]
      refine ⟨hr, hc, fun k hk th hth _ m hm => ?_⟩
      obtain ⟨nm, jn, pc⟩ := th
      simp only at hm; subst hm
      simp [gotSpace, hth] at hk
    | append_singleton t e ih =>
      have hrun : OfRace.run (h ++ (t ++ [e])) = OfRace.step (OfRace.run (h ++ t)) e := by simp [OfRace.run]
      rw [hrun]
      generalize OfRace.run (h ++ t) = s at *
      obtain ⟨i1, i2, i4⟩ := ih
      obtain ⟨k1, k2⟩ := OfRace.keeps i1 i2 e
      refine ⟨k1, k2, ?_⟩
      · intro j hj th hth hn m hm
        cases e with
        | spawn nm jn =>
          simp only [OfRace.step] at hth
          rw [List.getElem?_append] at hth
          split at hth
          · exact i4 j hj th hth hn m hm
          · have hmem : th ∈ [({ name := nm, joins := jn } : OfRace.Th)] := List.mem_of_getElem? hth
            rw [List.mem_singleton] at hmem; subst hmem; cases hm
        | adv i =>
          simp only [OfRace.step] at hth
          split at hth
          · rename_i u hu
            simp only at hth
            rw [List.getElem?_set] at hth
            split at hth
            · rename_i eij; subst eij
              split at hth
              · cases hth
                have hun : u.name = name := by
                  have : (advance s u).2.name = u.name := by simp only [advance]; split <;> (try split) <;> rfl
                  rw [← this]; exact hn
                have hns := i2 u (List.mem_of_getElem? hu) hun
                simp only [advance] at hm
                split at hm
                · rw [hun, i1] at hm
                  simp only at hm
                  split at hm <;> cases hm
                  rfl
                · rename_i e; exact absurd e hns
                · rw [hun, i1] at hm; cases hm; rfl
                · exact i4 i hj u hu hun m hm
              · cases hth
            · exact i4 j hj th hth hn m hm
          · exact i4 j hj th hth hn m hm
  have := (main t).2.2 k hk th hth hn m
  unfold gotSpace at hg
  rw [hth] at hg
  split at hg
  · rename_i e; cases hg; cases e; exact this rfl
  · cases hg

/-- **C63**, when a call ends: under every interleaving, the namespace a call ends with is the one registered under its name at
that moment. -/
theorem C63_registered (h : List OfRace.Ev) (e : OfRace.Ev) (k m : Nat) (th : OfRace.Th)
    (hth : (OfRace.run (h ++ [e])).ths[k]? = some th) (hb : gotSpace (OfRace.run h) k = none)
    (hg : gotSpace (OfRace.run (h ++ [e])) k = some m) : (OfRace.run (h ++ [e])).nsps.get? th.name = some m := by
  have hrun : OfRace.run (h ++ [e]) = OfRace.step (OfRace.run h) e := by simp [OfRace.run]
  rw [hrun] at hth hg ⊢
  generalize OfRace.run h = s at *
  have hd : th.pc = .done m := by
    unfold gotSpace at hg
    rw [hth] at hg
    split at hg
    · rename_i e; cases hg; cases e; rfl
    · cases hg
  cases e with
  | spawn nm jn =>
    simp only [OfRace.step] at hth ⊢
    rw [List.getElem?_append] at hth
    split at hth
    · have : gotSpace s k = some m := by
        obtain ⟨nm, jn, pc⟩ := th
        simp only at hd; subst hd
        simp [gotSpace, hth]
      rw [this] at hb; cases hb
    · have hmem : th ∈ [({ name := nm, joins := jn } : OfRace.Th)] := List.mem_of_getElem? hth
      rw [List.mem_singleton] at hmem; subst hmem; cases hd
  | adv i =>
    have old : s.ths[k]? = some th → False := fun ho => by
      obtain ⟨nm, jn, pc⟩ := th
      simp only at hd; subst hd
      simp [gotSpace, ho] at hb
    simp only [OfRace.step] at hth ⊢
    split at hth
    · rename_i u hu
      simp only at hth ⊢
      rw [List.getElem?_set] at hth
      split at hth
      · rename_i eij; subst eij
        split at hth
        · injection hth with hth
          have hun : (advance s u).2.name = u.name := by simp only [advance]; split <;> (try split) <;> rfl
          rw [← hth, hun]
          rw [← hth] at hd
          revert hd
          simp only [advance]
          split
          · split
            · rename_i n hn
              intro hd
              simp only at hd
              split at hd <;> cases hd
              exact hn
            · intro hd; cases hd
          · intro hd
            simp only at hd
            split at hd <;> cases hd
            exact FMap.get?_insert_self _ _ _
          · split
            · rename_i n hn
              intro hd
              cases hd
              exact hn
            · intro hd; cases hd
          · rename_i n hp
            intro hd
            have : u.pc = .done m := hd
            exfalso
            obtain ⟨nm, jn, pc⟩ := u
            simp only at this; subst this
            simp [gotSpace, hu] at hb
        · cases hth
      · exact absurd hth (fun ho => old ho)
    · exact absurd hth (fun ho => old ho)

example : gotSpace (OfRace.run [.spawn "/a" true, .adv 0, .adv 0]) 0 = none ∧
    gotSpace (OfRace.run ([.spawn "/a" true, .adv 0, .adv 0] ++ [.adv 0])) 0 = some 0 := by decide

/-- **C63 fails**: two goroutines that call `Of` with the same new name can get different namespaces. -/
theorem C63_of_fail : ¬ ∀ (h : List OfRace.Ev) (i j m n : Nat) (a b : OfRace.Th),
    (OfRace.run h).ths[i]? = some a → (OfRace.run h).ths[j]? = some b → a.name = b.name →
    gotSpace (OfRace.run h) i = some m → gotSpace (OfRace.run h) j = some n → m = n := by
  intro hall
  have := hall [.spawn "/a" false, .spawn "/a" false, .adv 0, .adv 1, .adv 0, .adv 1] 0 1 0 1 _ _ rfl rfl (by decide)
    (by decide) (by decide)
  exact absurd this (by decide)

/-- **C63 fails for clients**: two clients that connect to the same new dynamic namespace at the same time can end up in
different namespaces of that name, so that they do not receive each other's broadcasts. -/
theorem C63_join_fail : ¬ ∀ (h : List OfRace.Ev) (i j m n : Nat) (a b : OfRace.Th),
    (OfRace.run h).ths[i]? = some a → (OfRace.run h).ths[j]? = some b → a.name = b.name → a.joins = true → b.joins = true →
    gotSpace (OfRace.run h) i = some m → gotSpace (OfRace.run h) j = some n → m = n := by
  intro hall
  have := hall [.spawn "/a" true, .spawn "/a" true, .adv 0, .adv 1, .adv 0, .adv 0, .adv 1, .adv 1] 0 1 0 1 _ _ rfl rfl (by decide)
    (by decide) (by decide) (by decide) (by decide)
  exact absurd this (by decide)

/-- Two clients create the same namespace; both then look it up, after the second has registered its own, and are in the same one. -/
example :
    let h : List OfRace.Ev := [.spawn "/a" true, .spawn "/a" true, .adv 0, .adv 1, .adv 0, .adv 1]
    (OfRace.run h).nsps.get? "/a" = some 1 ∧ NoCreator (OfRace.run h) "/a" ∧ gotSpace (OfRace.run h) 0 = none ∧ gotSpace (OfRace.run h) 1 = none ∧
    gotSpace (OfRace.run (h ++ [.adv 0, .adv 1])) 0 = some 1 ∧ gotSpace (OfRace.run (h ++ [.adv 0, .adv 1])) 1 = some 1 := by
  refine ⟨by decide, ?_, by decide, by decide, by decide, by decide⟩
  unfold NoCreator; decide

/-- A case of `C63_partial`: one call has created the namespace, then three interleave. -/
example : (OfRace.run [.spawn "/a" false, .adv 0, .adv 0]).nsps.get? "/a" = some 0 ∧
    NoCreator (OfRace.run [.spawn "/a" false, .adv 0, .adv 0]) "/a" ∧
    gotSpace (OfRace.run ([.spawn "/a" false, .adv 0, .adv 0] ++
      [.spawn "/a" true, .spawn "/a" false, .adv 1, .adv 2, .adv 1])) 1 = some 0 := by
  refine ⟨by decide, ?_, by decide⟩
  unfold NoCreator; decide

end Verif.Props
