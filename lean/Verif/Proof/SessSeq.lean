import Verif.Proof.SessRace
import Verif.Proof.Session

namespace Verif.SessRace
open Verif Verif.Spec Verif.World

/-- The last goroutine takes a step. -/
theorem one_step (M : Nat) (s : St) (ts : List Task) (a : Task) (h : s.tasks = ts ++ [a]) :
    (step M s (.adv ts.length)).now = s.now ∧ (step M s (.adv ts.length)).tab = (act M s a).1.tab ∧
      (step M s (.adv ts.length)).tasks = ts ++ [(act M s a).2] := by
  have g : s.tasks[ts.length]? = some a := by rw [h]; exact List.getElem?_concat_length
  simp only [step, g, act_now]
  refine ⟨trivial, trivial, ?_⟩
  rw [h, List.set_append_right _ _ (Nat.le_refl _)]; simp

theorem persist_end (M : Nat) (s : St) (pid n : Nat) :
    ((.persist pid n :: List.replicate 2 (.adv s.tasks.length)).foldl (step M) s).tab = upd s.tab pid (some (n, s.now)) := by
  obtain ⟨a1, a2, a3⟩ := one_step M (step M s (.persist pid n)) s.tasks (.save pid n) rfl
  obtain ⟨b1, b2, b3⟩ := one_step M _ s.tasks _ a3
  simp only [List.replicate, List.foldl_cons, List.foldl_nil]
  rw [b2]
  simp only [act] at a2 ⊢
  rw [a2]; rfl

theorem restore_end (M : Nat) (s : St) (pid : Nat) :
    let s' := (.restore pid :: List.replicate 3 (.adv s.tasks.length)).foldl (step M) s
    match s.tab pid with
    | none => s'.tab = s.tab ∧ s'.tasks = s.tasks ++ [.got pid none]
    | some (n, t) => if t + M < s.now then s'.tab = upd s.tab pid none ∧ s'.tasks = s.tasks ++ [.got pid none]
      else s'.tab = s.tab ∧ s'.tasks = s.tasks ++ [.got pid (some n)] := by
  obtain ⟨a1, a2, a3⟩ := one_step M (step M s (.restore pid)) s.tasks (.look pid) rfl
  simp only [List.replicate, List.foldl_cons, List.foldl_nil]
  have t0 : (step M s (.restore pid)).tab = s.tab := rfl
  have n0 : (step M s (.restore pid)).now = s.now := rfl
  simp only [act, t0] at a2 a3
  rw [n0] at a1
  generalize step M (step M s (.restore pid)) (.adv s.tasks.length) = x at *
  cases ht : s.tab pid with
  | none =>
    simp only [ht] at a3 ⊢
    obtain ⟨b1, b2, b3⟩ := one_step M x s.tasks _ a3
    obtain ⟨c1, c2, c3⟩ := one_step M _ s.tasks _ b3
    simp only [act] at b2 b3 c2 c3
    exact ⟨c2.trans (b2.trans a2), c3⟩
  | some y =>
    obtain ⟨n, t⟩ := y
    simp only [ht] at a3 ⊢
    obtain ⟨b1, b2, b3⟩ := one_step M x s.tasks _ a3
    obtain ⟨c1, c2, c3⟩ := one_step M _ s.tasks _ b3
    simp only [act] at b2
    by_cases hx : t + M < s.now
    · rw [if_pos hx]
      simp only [act, a1, if_pos hx] at b3 c2 c3
      exact ⟨by rw [c2, b2, a2], c3⟩
    · rw [if_neg hx]
      simp only [act, a1, if_neg hx] at b3 c2 c3
      exact ⟨c2.trans (b2.trans a2), c3⟩

theorem timer_loop (M : Nat) (l : List Nat) : ∀ (m : Nat) (s : St) (n : Nat) (ts : List Task), 2 * l.length ≤ m → s.tasks = ts ++ [.visit n l] →
    ∃ s', (List.replicate m (.adv ts.length)).foldl (step M) s = s' ∧ s'.tasks = ts ++ [.visit n []] ∧
      ∀ w, s'.tab w = if w ∈ l then (s.tab w).filter (fun x => decide (n ≤ x.2 + M)) else s.tab w := by
  induction l with
  | nil =>
    intro m
    induction m with
    | zero => intro s n ts _ h; exact ⟨s, rfl, h, by simp⟩
    | succ m ih =>
      intro s n ts _ h
      obtain ⟨e1, e2, e3⟩ := one_step M s ts _ h
      obtain ⟨s', h1, h2, h3⟩ := ih (step M s (.adv ts.length)) n ts (by simp) e3
      refine ⟨s', by rw [List.replicate_succ, List.foldl_cons]; exact h1, h2, fun w => ?_⟩
      rw [h3, e2]; rfl
  | cons u l ih =>
    intro m s n ts hm h
    simp only [List.length_cons] at hm
    obtain ⟨m, rfl⟩ : ∃ m', m = m' + 1 := ⟨m - 1, by omega⟩
    obtain ⟨e1, e2, e3⟩ := one_step M s ts _ h
    simp only [act] at e2 e3
    by_cases hx : ∃ x, s.tab u = some x ∧ x.2 + M < n
    · obtain ⟨x, ht, hlt⟩ := hx
      obtain ⟨x1, x2⟩ := x
      simp only at hlt
      simp only [ht, if_pos hlt] at e3
      obtain ⟨m, rfl⟩ : ∃ m', m = m' + 1 := ⟨m - 1, by omega⟩
      obtain ⟨f1, f2, f3⟩ := one_step M _ ts _ e3
      obtain ⟨s', h1, h2, h3⟩ := ih m (step M (step M s (.adv ts.length)) (.adv ts.length)) n ts (by omega) f3
      refine ⟨s', by rw [List.replicate_succ, List.foldl_cons, List.replicate_succ, List.foldl_cons]; exact h1, h2, fun w => ?_⟩
      rw [h3, f2]
      simp only [act, e2, upd_apply]
      by_cases hw : w = u
      · subst hw
        simp only [List.mem_cons, true_or, if_true, ht]
        have : decide (n ≤ x2 + M) = false := by simp; omega
        by_cases hl : w ∈ l <;> simp [hl, Option.filter, this]
      · simp [hw]
    · have e3' : (step M s (.adv ts.length)).tasks = ts ++ [.visit n l] := by
        rw [e3]
        cases ht : s.tab u with
        | none => rfl
        | some x => simp only; rw [if_neg (fun hgt => hx ⟨x, ht, hgt⟩)]
      obtain ⟨s', h1, h2, h3⟩ := ih m (step M s (.adv ts.length)) n ts (by omega) e3'
      refine ⟨s', by rw [List.replicate_succ, List.foldl_cons]; exact h1, h2, fun w => ?_⟩
      rw [h3, e2]
      by_cases hw : w = u
      · subst hw
        simp only [List.mem_cons, true_or, if_true]
        cases ht : s.tab w with
        | none => simp
        | some x =>
          have : decide (n ≤ x.2 + M) = true := by
            simp; rcases Nat.lt_or_ge (x.2 + M) n with h | h
            · exact absurd ⟨x, ht, h⟩ hx
            · omega
          simp [Option.filter, this]
      · simp [hw]

theorem timer_end (M : Nat) (s : St) (order : List Nat) (w : Nat) :
    ((.timer order :: List.replicate (2 * order.length + 1) (.adv s.tasks.length)).foldl (step M) s).tab w =
      if w ∈ order then (s.tab w).filter (fun x => decide (s.now ≤ x.2 + M)) else s.tab w := by
  obtain ⟨e1, e2, e3⟩ := one_step M (step M s (.timer order)) s.tasks (.clean order) rfl
  obtain ⟨x, h1, _, h3⟩ := timer_loop M order (2 * order.length) _ s.now s.tasks (Nat.le_refl _) e3
  have : (.timer order :: List.replicate (2 * order.length + 1) (.adv s.tasks.length)).foldl (step M) s = x := by rw [← h1]; rfl
  rw [this, h3, e2]; rfl

end Verif.SessRace
