import Verif.Proof.NodeRace
import Verif.Proof.Heartbeat

namespace Verif.NodeRace
open Verif Verif.Spec Verif.World

/-- A call that handles one message, to the end. -/
theorem message_end (T : Nat) (s : St) (u : Nat) (c : Bool) :
    let s' := (.msg u c :: List.replicate 3 (.onMsg s.msgs.length)).foldl (step T) s
    s'.now = s.now ∧ s'.cleans = s.cleans ∧ s'.seen = upd s.seen u (if c then none else some s.now) ∧
      s'.msgs = s.msgs ++ [{ uid := u, close := c, pc := .done }] := by
  have g : ∀ x : Msg, (s.msgs ++ [x])[s.msgs.length]? = some x := fun x => List.getElem?_concat_length
  have st : ∀ x y : Msg, (s.msgs ++ [x]).set s.msgs.length y = s.msgs ++ [y] := by
    intro x y; rw [List.set_append_right _ _ (Nat.le_refl _)]; simp
  cases c <;> simp only [List.replicate, List.foldl, step, g, actMsg, st, if_true, if_false, Bool.false_eq_true]
  · simp
  · simp
    funext w; simp only [upd_apply]; split <;> rfl

theorem clean_one (T : Nat) (s : St) (cl : List CPC) (c : CPC) (h : s.cleans = cl ++ [c]) :
    (step T s (.onClean cl.length)).now = (actClean T s c).1.now ∧ (step T s (.onClean cl.length)).msgs = (actClean T s c).1.msgs ∧
      (step T s (.onClean cl.length)).seen = (actClean T s c).1.seen ∧
      (step T s (.onClean cl.length)).cleans = cl ++ [(actClean T s c).2] := by
  have g : s.cleans[cl.length]? = some c := by rw [h]; exact List.getElem?_concat_length
  simp only [step, g]
  refine ⟨trivial, trivial, trivial, ?_⟩
  rw [h, List.set_append_right _ _ (Nat.le_refl _)]; simp

/-- The part of a clean-up that has still to come. -/
theorem clean_loop (T : Nat) (l : List Nat) : ∀ (m : Nat) (s : St) (n : Nat) (cl : List CPC), 2 * l.length ≤ m → s.cleans = cl ++ [.visit n l] →
    ∃ s', (List.replicate m (.onClean cl.length)).foldl (step T) s = s' ∧ s'.now = s.now ∧ s'.msgs = s.msgs ∧
      s'.cleans = cl ++ [.visit n []] ∧ ∀ w, s'.seen w = if w ∈ l then (s.seen w).filter (fun t => decide (n ≤ t + T)) else s.seen w := by
  induction l with
  | nil =>
    intro m
    induction m with
    | zero => intro s n cl _ h; exact ⟨s, rfl, rfl, rfl, h, by simp⟩
    | succ m ih =>
      intro s n cl _ h
      obtain ⟨e1, e2, e3, e4⟩ := clean_one T s cl _ h
      obtain ⟨s', h1, h2, h3, h4, h5⟩ := ih (step T s (.onClean cl.length)) n cl (by simp) e4
      refine ⟨s', by rw [List.replicate_succ, List.foldl_cons]; exact h1, h2.trans e1, h3.trans e2, h4, fun w => ?_⟩
      rw [h5, e3]; rfl
  | cons u l ih =>
    intro m s n cl hm h
    simp only [List.length_cons] at hm
    obtain ⟨m, rfl⟩ : ∃ m', m = m' + 1 := ⟨m - 1, by omega⟩
    obtain ⟨e1, e2, e3, e4⟩ := clean_one T s cl _ h
    have keep : (actClean T s (.visit n (u :: l))).1 = s := by simp only [actClean]; split <;> rfl
    rw [keep] at e1 e2 e3
    by_cases hx : ∃ t, s.seen u = some t ∧ n - t > T
    · obtain ⟨t, ht, hgt⟩ := hx
      have e4' : (step T s (.onClean cl.length)).cleans = cl ++ [.drop n u l] := by rw [e4]; simp [actClean, ht, hgt]
      obtain ⟨m, rfl⟩ : ∃ m', m = m' + 1 := ⟨m - 1, by omega⟩
      obtain ⟨f1, f2, f3, f4⟩ := clean_one T _ cl _ e4'
      obtain ⟨s', h1, h2, h3, h4, h5⟩ := ih m (step T (step T s (.onClean cl.length)) (.onClean cl.length)) n cl (by omega) f4
      refine ⟨s', by rw [List.replicate_succ, List.foldl_cons, List.replicate_succ, List.foldl_cons]; exact h1, ?_, ?_, h4, fun w => ?_⟩
      · rw [h2, f1]; exact e1
      · rw [h3, f2]; exact e2
      · rw [h5, f3]
        simp only [actClean, e3, upd_apply]
        by_cases hw : w = u
        · subst hw
          simp only [List.mem_cons, true_or, if_true, ht]
          have : decide (n ≤ t + T) = false := by simp; omega
          by_cases hl : w ∈ l <;> simp [hl, Option.filter, this]
        · simp [hw]
    · have e4' : (step T s (.onClean cl.length)).cleans = cl ++ [.visit n l] := by
        rw [e4]; simp only [actClean]
        cases ht : s.seen u with
        | none => rfl
        | some t => simp only; rw [if_neg (fun hgt => hx ⟨t, ht, hgt⟩)]
      obtain ⟨s', h1, h2, h3, h4, h5⟩ := ih m (step T s (.onClean cl.length)) n cl (by omega) e4'
      refine ⟨s', by rw [List.replicate_succ, List.foldl_cons]; exact h1, h2.trans e1, h3.trans e2, h4, fun w => ?_⟩
      rw [h5, e3]
      by_cases hw : w = u
      · subst hw
        simp only [List.mem_cons, true_or, if_true]
        cases ht : s.seen w with
        | none => simp
        | some t =>
          have : decide (n ≤ t + T) = true := by
            simp; rcases Nat.lt_or_ge T (n - t) with h | h
            · exact absurd ⟨t, ht, h⟩ hx
            · omega
          simp [Option.filter, this]
      · simp [hw]

/-- A clean-up to the end. -/
theorem clean_end (T : Nat) (s : St) (order : List Nat) :
    let s' := (.clean order :: List.replicate (2 * order.length + 1) (.onClean s.cleans.length)).foldl (step T) s
    s'.now = s.now ∧ s'.msgs = s.msgs ∧ s'.cleans = s.cleans ++ [.visit s.now []] ∧
      ∀ w, s'.seen w = if w ∈ order then (s.seen w).filter (fun t => decide (s.now ≤ t + T)) else s.seen w := by
  intro s'
  obtain ⟨e1, e2, e3, e4⟩ := clean_one T (step T s (.clean order)) s.cleans (.start order) rfl
  obtain ⟨x, h1, h2, h3, h4, h5⟩ := clean_loop T order (2 * order.length) _ s.now s.cleans (Nat.le_refl _) e4
  have : s' = x := by rw [← h1]; rfl
  rw [this]
  refine ⟨h2.trans e1, h3.trans e2, h4, fun w => ?_⟩
  rw [h5, e3]; rfl

end Verif.NodeRace
