import Verif.Spec.SessRace
import Verif.Proof.RoomCalls

namespace Verif.SessRace
open Verif Verif.Spec Verif.World

theorem run_snoc (M : Nat) (h : List Ev) (e : Ev) : run M (h ++ [e]) = step M (run M h) e := by simp [run]

theorem act_now (M : Nat) (s : St) (a : Task) : (act M s a).1.now = s.now := by
  cases a with
  | visit start l => cases l <;> rfl
  | _ => rfl

theorem now_step (M : Nat) (s : St) (e : Ev) : s.now ≤ (step M s e).now := by
  cases e with
  | adv k =>
    simp only [step]; split
    · simp [act_now]
    · simp
  | _ => simp [step]

theorem now_run (M : Nat) (p q : List Ev) : (run M p).now ≤ (run M (p ++ q)).now := by
  induction q using snocRec with
  | nil => simp
  | append_singleton q e ih => rw [← List.append_assoc, run_snoc]; exact Nat.le_trans ih (now_step M _ e)

/-- Where a goroutine stands after a step. -/
theorem task_step (M : Nat) (s : St) (e : Ev) (k : Nat) (a : Task) (h : (step M s e).tasks[k]? = some a) :
    s.tasks[k]? = some a ∨ (e = .adv k ∧ ∃ b, s.tasks[k]? = some b ∧ a = (act M s b).2) ∨
      (k = s.tasks.length ∧ ((∃ pid n, a = .save pid n) ∨ (∃ pid, a = .look pid) ∨ ∃ o, a = .clean o)) := by
  have new : ∀ x, (s.tasks ++ [x])[k]? = some a → s.tasks[k]? = some a ∨ (k = s.tasks.length ∧ a = x) := by
    intro x hx
    rcases Nat.lt_trichotomy k s.tasks.length with hk | hk | hk
    · rw [List.getElem?_append_left hk] at hx; exact .inl hx
    · subst hk; rw [List.getElem?_concat_length] at hx; cases hx; exact .inr ⟨rfl, rfl⟩
    · rw [List.getElem?_eq_none (by simp; omega)] at hx; cases hx
  cases e with
  | tick d => exact .inl h
  | persist pid n => rcases new _ h with h | ⟨h', rfl⟩
                     · exact .inl h
                     · exact .inr (.inr ⟨h', .inl ⟨_, _, rfl⟩⟩)
  | restore pid => rcases new _ h with h | ⟨h', rfl⟩
                   · exact .inl h
                   · exact .inr (.inr ⟨h', .inr (.inl ⟨_, rfl⟩)⟩)
  | timer o => rcases new _ h with h | ⟨h', rfl⟩
               · exact .inl h
               · exact .inr (.inr ⟨h', .inr (.inr ⟨_, rfl⟩)⟩)
  | adv j =>
    cases hj : s.tasks[j]? with
    | none => simp only [step, hj] at h; exact .inl h
    | some b =>
      simp only [step, hj] at h
      by_cases hjk : j = k
      · subst hjk
        obtain ⟨hl, _⟩ := List.getElem?_eq_some_iff.1 hj
        rw [List.getElem?_set_self hl] at h
        cases h
        exact .inr (.inl ⟨rfl, b, hj, rfl⟩)
      · rw [List.getElem?_set_ne hjk] at h; exact .inl h

theorem tasks_other (M : Nat) (s : St) (e : Ev) (k : Nat) (a : Task) (hk : s.tasks[k]? = some a) (he : e ≠ .adv k) :
    (step M s e).tasks[k]? = some a := by
  obtain ⟨hl, _⟩ := List.getElem?_eq_some_iff.1 hk
  cases e with
  | tick d => exact hk
  | adv j =>
    have hj : j ≠ k := fun h => he (by rw [h])
    simp only [step]; split
    · simp only [List.getElem?_set_ne hj]; exact hk
    · exact hk
  | _ => simp only [step]; rw [List.getElem?_append_left hl]; exact hk

theorem tasks_self (M : Nat) (s : St) (k : Nat) (a : Task) (hk : s.tasks[k]? = some a) :
    (step M s (.adv k)).tasks[k]? = some (act M s a).2 := by
  obtain ⟨hl, _⟩ := List.getElem?_eq_some_iff.1 hk
  simp only [step, hk]
  rw [List.getElem?_set_self hl]

/-- What a goroutine is about to store, with which time. -/
theorem store_run (M : Nat) (h : List Ev) (k pid n t : Nat) (hk : (run M h).tasks[k]? = some (.store pid n t)) :
    ∃ a b, h = a ++ .adv k :: b ∧ (run M a).tasks[k]? = some (.save pid n) ∧ t = (run M a).now ∧ .adv k ∉ b := by
  induction h using snocRec with
  | nil => simp [run] at hk
  | append_singleton h e ih =>
    rw [run_snoc] at hk
    by_cases he : e = .adv k
    · subst he
      cases hb : (run M h).tasks[k]? with
      | none => simp [step, hb] at hk
      | some b =>
        rw [tasks_self M _ k b hb] at hk
        cases b with
        | save pid' n' => simp [act] at hk; obtain ⟨rfl, rfl, rfl⟩ := hk; exact ⟨h, [], rfl, hb, rfl, by simp⟩
        | look v => simp only [act] at hk; split at hk <;> cases hk
        | test v m u => simp only [act] at hk; split at hk <;> cases hk
        | visit st l =>
          cases l with
          | nil => cases hk
          | cons w l => simp only [act] at hk; split at hk <;> try (split at hk)
                        all_goals cases hk
        | _ => cases hk
    · rcases task_step M _ e k _ hk with h' | ⟨h', _⟩ | ⟨_, ⟨_, _, h'⟩ | ⟨_, h'⟩ | ⟨_, h'⟩⟩
      · obtain ⟨a, b, rfl, h1, h2, h3⟩ := ih h'
        exact ⟨a, b ++ [e], by simp, h1, h2, by simpa [h3] using fun h => he h.symm⟩
      · exact absurd h' he
      · cases h'
      · cases h'
      · cases h'

/-- What has been saved, in terms of the goroutine that saves it. -/
theorem saved_iff (M : Nat) (h : List Ev) (pid n t : Nat) :
    SessSaved M h pid n t ↔ ∃ a k, h = a ++ [.adv k] ∧ (run M a).tasks[k]? = some (.store pid n t) := by
  constructor
  · rintro ⟨a, b, k, rfl, hk, rfl, hb⟩
    refine ⟨a ++ .adv k :: b, k, rfl, ?_⟩
    induction b using snocRec with
    | nil => rw [run_snoc, tasks_self M _ k _ hk]; rfl
    | append_singleton b e ih =>
      rw [show a ++ .adv k :: (b ++ [e]) = (a ++ .adv k :: b) ++ [e] by simp, run_snoc]
      exact tasks_other M _ e k _ (ih (by simp at hb; exact hb.1)) (by rintro rfl; simp at hb)
  · rintro ⟨a', k, rfl, hk⟩
    obtain ⟨a, b, rfl, h1, h2, h3⟩ := store_run M a' k pid n t hk
    exact ⟨a, b, k, rfl, h1, h2, h3⟩

/-- The entry of an id changes only by the three calls about it. -/
theorem tab_step (M : Nat) (s : St) (e : Ev) (pid : Nat) :
    (step M s e).tab pid = s.tab pid ∨
      (∃ k n t, e = .adv k ∧ s.tasks[k]? = some (.store pid n t) ∧ (step M s e).tab pid = some (n, t)) ∨
      ((step M s e).tab pid = none ∧ ∃ k, e = .adv k ∧ (s.tasks[k]? = some (.drop pid) ∨ ∃ st l, s.tasks[k]? = some (.sweep st pid l))) := by
  cases e with
  | adv j =>
    cases hj : s.tasks[j]? with
    | none => simp [step, hj]
    | some b =>
      cases b with
      | store v n t =>
        by_cases hv : v = pid
        · subst hv; exact .inr (.inl ⟨j, n, t, rfl, hj, by simp [step, hj, act, upd_same]⟩)
        · refine .inl ?_; simp only [step, hj, act]; rw [upd_ne]; exact fun h => hv h.symm
      | drop v =>
        by_cases hv : v = pid
        · subst hv; exact .inr (.inr ⟨by simp [step, hj, act, upd_same], j, rfl, .inl hj⟩)
        · refine .inl ?_; simp only [step, hj, act]; rw [upd_ne]; exact fun h => hv h.symm
      | sweep st v l =>
        by_cases hv : v = pid
        · subst hv; exact .inr (.inr ⟨by simp [step, hj, act, upd_same], j, rfl, .inr ⟨_, _, hj⟩⟩)
        · refine .inl ?_; simp only [step, hj, act]; rw [upd_ne]; exact fun h => hv h.symm
      | visit st l => cases l <;> simp [step, hj, act]
      | _ => simp [step, hj, act]
  | _ => exact .inl rfl

/-- A clean-up started in the past. -/
def Past (s : St) : Prop := ∀ (k : Nat) (st : Nat), ((∃ l, s.tasks[k]? = some (.visit st l)) ∨ ∃ v l, s.tasks[k]? = some (.sweep st v l)) → st ≤ s.now

theorem past_run (M : Nat) (h : List Ev) : Past (run M h) := by
  induction h using snocRec with
  | nil => intro k st hk; simp [run] at hk
  | append_singleton h e ih =>
    rw [run_snoc]
    have hn := now_step M (run M h) e
    generalize run M h = s at *
    have key : ∀ (k : Nat) a st, (step M s e).tasks[k]? = some a → ((∃ l, a = .visit st l) ∨ ∃ v l, a = .sweep st v l) → st ≤ s.now := by
      intro k a st ha hs
      rcases task_step M s e k a ha with h | ⟨_, b, hb, rfl⟩ | ⟨_, h⟩
      · rcases hs with ⟨l, rfl⟩ | ⟨v, l, rfl⟩
        · exact ih k st (.inl ⟨l, h⟩)
        · exact ih k st (.inr ⟨v, l, h⟩)
      · cases b with
        | clean o => rcases hs with ⟨l, h⟩ | ⟨v, l, h⟩ <;> simp [act] at h; omega
        | visit st' l' =>
          have h1 := ih k st' (.inl ⟨_, hb⟩)
          cases l' with
          | nil => rcases hs with ⟨l, h⟩ | ⟨v, l, h⟩ <;> simp [act] at h; omega
          | cons w l' =>
            simp only [act] at hs
            cases ht : s.tab w with
            | none => simp only [ht] at hs; rcases hs with ⟨l, h⟩ | ⟨v, l, h⟩ <;> simp at h; omega
            | some x =>
              simp only [ht] at hs
              by_cases hx : x.2 + M < st'
              · rw [if_pos hx] at hs; rcases hs with ⟨l, h⟩ | ⟨v, l, h⟩ <;> simp at h; omega
              · rw [if_neg hx] at hs; rcases hs with ⟨l, h⟩ | ⟨v, l, h⟩ <;> simp at h; omega
        | sweep st' w l' =>
          have h1 := ih k st' (.inr ⟨_, _, hb⟩)
          rcases hs with ⟨l, h⟩ | ⟨v, l, h⟩ <;> simp [act] at h; omega
        | look v =>
          simp only [act] at hs
          cases ht : s.tab v with
          | none => simp [ht] at hs
          | some x => simp [ht] at hs
        | test v n t =>
          simp only [act] at hs
          by_cases hx : t + M < s.now
          · simp [hx] at hs
          · simp [hx] at hs
        | _ => simp [act] at hs
      · rcases h with ⟨_, _, rfl⟩ | ⟨_, rfl⟩ | ⟨_, rfl⟩ <;> simp at hs
    intro k st hk
    refine Nat.le_trans ?_ hn
    rcases hk with ⟨l, h⟩ | ⟨v, l, h⟩
    · exact key k _ st h (.inl ⟨l, rfl⟩)
    · exact key k _ st h (.inr ⟨v, l, rfl⟩)

/-- While the session is young enough: it is in the table, everybody who has looked has seen it, and nobody is about to remove it. -/
structure Fresh (s : St) (pid n t L : Nat) : Prop where
  tab : s.tab pid = some (n, t)
  test : ∀ (k : Nat) n' t', s.tasks[k]? = some (.test pid n' t') → n' = n ∧ t' = t
  drop : ∀ k : Nat, s.tasks[k]? ≠ some (.drop pid)
  sweep : ∀ (k : Nat) st l, s.tasks[k]? ≠ some (.sweep st pid l)
  got : ∀ k : Nat, L ≤ k → ∀ res, s.tasks[k]? = some (.got pid res) → res = some n

theorem fresh_step (M : Nat) (s : St) (e : Ev) (pid n t L : Nat) (past : Past s) (f : Fresh s pid n t L)
    (quiet : ∀ (k : Nat) n' t', e = .adv k → s.tasks[k]? ≠ some (.store pid n' t')) (young : s.now ≤ t + M) :
    Fresh (step M s e) pid n t L := by
  constructor
  · rcases tab_step M s e pid with h | ⟨k, n', t', he, hk, _⟩ | ⟨_, k, _, h | ⟨st, l, h⟩⟩
    · rw [h]; exact f.tab
    · exact absurd hk (quiet k n' t' he)
    · exact absurd h (f.drop k)
    · exact absurd h (f.sweep k st l)
  · intro k n' t' hk
    rcases task_step M s e k _ hk with h | ⟨_, b, hb, h⟩ | ⟨_, ⟨_, _, h⟩ | ⟨_, h⟩ | ⟨_, h⟩⟩
    · exact f.test k n' t' h
    · cases b with
      | look v =>
        simp only [act] at h
        cases ht : s.tab v with
        | none => simp [ht] at h
        | some x =>
          simp only [ht, Task.test.injEq] at h
          obtain ⟨rfl, rfl, rfl⟩ := h
          rw [f.tab] at ht; cases ht; exact ⟨rfl, rfl⟩
      | test v m u =>
        simp only [act] at h; split at h <;> cases h
      | visit st l =>
        cases l with
        | nil => cases h
        | cons w l => simp only [act] at h; split at h <;> try (split at h) 
                      all_goals cases h
      | _ => cases h
    · cases h
    · cases h
    · cases h
  · intro k hk
    rcases task_step M s e k _ hk with h | ⟨_, b, hb, h⟩ | ⟨_, ⟨_, _, h⟩ | ⟨_, h⟩ | ⟨_, h⟩⟩
    · exact f.drop k h
    · cases b with
      | look v => simp only [act] at h; split at h <;> cases h
      | test v m u =>
        simp only [act] at h; split at h
        · cases h
          obtain ⟨rfl, rfl⟩ := f.test k m u hb
          omega
        · cases h
      | visit st l =>
        cases l with
        | nil => cases h
        | cons w l => simp only [act] at h; split at h <;> try (split at h)
                      all_goals cases h
      | _ => cases h
    · cases h
    · cases h
    · cases h
  · intro k st l hk
    rcases task_step M s e k _ hk with h | ⟨_, b, hb, h⟩ | ⟨_, ⟨_, _, h⟩ | ⟨_, h⟩ | ⟨_, h⟩⟩
    · exact f.sweep k st l h
    · cases b with
      | look v => simp only [act] at h; split at h <;> cases h
      | test v m u => simp only [act] at h; split at h <;> cases h
      | visit st' l' =>
        have hp := past k st' (.inl ⟨_, hb⟩)
        cases l' with
        | nil => cases h
        | cons w l' =>
          simp only [act] at h
          cases ht : s.tab w with
          | none => simp [ht] at h
          | some x =>
            simp only [ht] at h
            split at h
            · cases h
              rw [f.tab] at ht; cases ht
              simp only at *
              omega
            · cases h
      | _ => cases h
    · cases h
    · cases h
    · cases h
  · intro k hL res hk
    rcases task_step M s e k _ hk with h | ⟨_, b, hb, h⟩ | ⟨_, ⟨_, _, h⟩ | ⟨_, h⟩ | ⟨_, h⟩⟩
    · exact f.got k hL res h
    · cases b with
      | look v =>
        simp only [act] at h
        cases ht : s.tab v with
        | none =>
          simp only [ht] at h; cases h
          rw [f.tab] at ht; cases ht
        | some x => simp [ht] at h
      | test v m u =>
        simp only [act] at h; split at h
        · cases h
        · cases h
          obtain ⟨rfl, rfl⟩ := f.test k m u hb
          rfl
      | drop v => cases h; exact absurd hb (f.drop k)
      | got v r => cases h; exact f.got k hL _ hb
      | visit st l =>
        cases l with
        | nil => cases h
        | cons w l => simp only [act] at h; split at h <;> try (split at h)
                      all_goals cases h
      | _ => cases h
    · cases h
    · cases h
    · cases h

theorem fresh_run (M : Nat) (p q : List Ev) (pid n t : Nat) (saved : SessSaved M p pid n t) (free : SessFree (run M p) pid)
    (quiet : SessQuiet M pid p q) (young : (run M (p ++ q)).now ≤ t + M) :
    Fresh (run M (p ++ q)) pid n t (run M p).tasks.length := by
  induction q using snocRec with
  | nil =>
    rw [List.append_nil]
    have hf : ∀ (k : Nat) a, (run M p).tasks[k]? = some a → _ := fun k a h => free a (List.mem_of_getElem? h)
    refine ⟨?_, ?_, ?_, ?_, ?_⟩
    · obtain ⟨a, k, rfl, hk⟩ := (saved_iff M _ _ _ _).1 saved
      rw [run_snoc]; simp [step, hk, act, upd_same]
    · intro k n' t' h; exact absurd rfl ((hf k _ h).1 n' t')
    · intro k h; exact absurd rfl (hf k _ h).2.1
    · intro k st l h; exact absurd rfl ((hf k _ h).2.2 st l)
    · intro k hL res h; rw [List.getElem?_eq_none hL] at h; cases h
  | append_singleton q e ih =>
    have hrun : run M (p ++ (q ++ [e])) = step M (run M (p ++ q)) e := by rw [← List.append_assoc, run_snoc]
    rw [hrun] at young ⊢
    have yq := Nat.le_trans (now_step M _ e) young
    refine fresh_step M _ e pid n t _ (past_run M _) (ih (fun q₁ h1 => quiet q₁ (h1.trans (List.prefix_append q [e]))) yq) ?_ yq
    rintro k n' t' rfl hk
    exact quiet (q ++ [.adv k]) (List.prefix_refl _) (by simp) n' t' ((saved_iff M _ _ _ _).2 ⟨p ++ q, k, by simp, hk⟩)

/-- Every session in the table or in the hands of a goroutine was saved at some moment, and its time is that of the saving goroutine. -/
def Known (M : Nat) (h : List Ev) (pid n t : Nat) : Prop := ∃ h₁, h₁ <+: h ∧ SessSaved M h₁ pid n t

theorem Known.mono {M : Nat} {h : List Ev} {pid n t : Nat} (k : Known M h pid n t) (e : Ev) : Known M (h ++ [e]) pid n t :=
  let ⟨h₁, a, b⟩ := k; ⟨h₁, a.trans (List.prefix_append h [e]), b⟩

theorem known_run (M : Nat) (h : List Ev) :
    (∀ pid n t, (run M h).tab pid = some (n, t) → Known M h pid n t) ∧
    (∀ (k : Nat) pid n t, (run M h).tasks[k]? = some (.test pid n t) → Known M h pid n t) := by
  induction h using snocRec with
  | nil =>
    constructor
    · intro pid n t h; cases h
    · intro k pid n t h; simp [run] at h
  | append_singleton h e ih =>
    obtain ⟨i1, i2⟩ := ih
    rw [run_snoc]
    refine ⟨fun pid n t ht => ?_, fun k pid n t hk => ?_⟩
    · rcases tab_step M (run M h) e pid with h' | ⟨k, n', t', rfl, hk, h'⟩ | ⟨h', _⟩
      · rw [h'] at ht; exact (i1 pid n t ht).mono e
      · rw [h'] at ht; cases ht; exact ⟨h ++ [.adv k], List.prefix_refl _, (saved_iff M _ _ _ _).2 ⟨h, k, rfl, hk⟩⟩
      · rw [h'] at ht; cases ht
    · rcases task_step M _ e k _ hk with h' | ⟨_, b, hb, h'⟩ | ⟨_, ⟨_, _, h'⟩ | ⟨_, h'⟩ | ⟨_, h'⟩⟩
      · exact (i2 k pid n t h').mono e
      · cases b with
        | look v =>
          simp only [act] at h'
          cases ht : (run M h).tab v with
          | none => simp [ht] at h'
          | some x => simp only [ht] at h'; cases h'; exact (i1 _ _ _ ht).mono e
        | test v m u => simp only [act] at h'; split at h' <;> cases h'
        | visit st l =>
          cases l with
          | nil => cases h'
          | cons w l => simp only [act] at h'; split at h' <;> try (split at h')
                        all_goals cases h'
        | _ => cases h'
      · cases h'
      · cases h'
      · cases h'

/-- A session that was returned was tested and found young enough. -/
theorem got_run (M : Nat) (h : List Ev) (k pid n : Nat) (hk : (run M h).tasks[k]? = some (.got pid (some n))) :
    ∃ a b t, h = a ++ .adv k :: b ∧ (run M a).tasks[k]? = some (.test pid n t) ∧ (run M a).now ≤ t + M := by
  induction h using snocRec with
  | nil => simp [run] at hk
  | append_singleton h e ih =>
    rw [run_snoc] at hk
    have keep : (run M h).tasks[k]? = some (.got pid (some n)) → ∃ a b t, h ++ [e] = a ++ .adv k :: b ∧
        (run M a).tasks[k]? = some (.test pid n t) ∧ (run M a).now ≤ t + M := by
      intro h'
      obtain ⟨a, b, t, rfl, h1, h2⟩ := ih h'
      exact ⟨a, b ++ [e], t, by simp, h1, h2⟩
    rcases task_step M _ e k _ hk with h' | ⟨rfl, b, hb, h'⟩ | ⟨_, ⟨_, _, h'⟩ | ⟨_, h'⟩ | ⟨_, h'⟩⟩
    · exact keep h'
    · cases b with
      | look v => simp only [act] at h'; split at h' <;> cases h'
      | test v m u =>
        simp only [act] at h'; split at h'
        · cases h'
        · cases h'; exact ⟨h, [], u, rfl, hb, by omega⟩
      | drop v => cases h'
      | got v r => cases h'; exact keep hb
      | visit st l =>
        cases l with
        | nil => cases h'
        | cons w l => simp only [act] at h'; split at h' <;> try (split at h')
                      all_goals cases h'
      | _ => cases h'
    · cases h'
    · cases h'
    · cases h'

/-- Who is about to remove what is saved under an id has found a session saved under it too old. -/
theorem doomed_run (M : Nat) (h : List Ev) (k pid : Nat)
    (hk : (run M h).tasks[k]? = some (.drop pid) ∨ ∃ st l, (run M h).tasks[k]? = some (.sweep st pid l)) :
    ∃ a b n t, h = a ++ .adv k :: b ∧ t + M < (run M a).now ∧ Known M a pid n t := by
  induction h using snocRec with
  | nil => simp [run] at hk
  | append_singleton h e ih =>
    rw [run_snoc] at hk
    have keep : (run M h).tasks[k]? = some (.drop pid) ∨ (∃ st l, (run M h).tasks[k]? = some (.sweep st pid l)) →
        ∃ a b n t, h ++ [e] = a ++ .adv k :: b ∧ t + M < (run M a).now ∧ Known M a pid n t := by
      intro h'
      obtain ⟨a, b, n, t, rfl, h1, h2⟩ := ih h'
      exact ⟨a, b ++ [e], n, t, by simp, h1, h2⟩
    obtain ⟨x, hx, hd⟩ : ∃ x, (step M (run M h) e).tasks[k]? = some x ∧ (x = .drop pid ∨ ∃ st l, x = .sweep st pid l) := by
      rcases hk with h' | ⟨st, l, h'⟩
      · exact ⟨_, h', .inl rfl⟩
      · exact ⟨_, h', .inr ⟨st, l, rfl⟩⟩
    rcases task_step M _ e k _ hx with h' | ⟨rfl, b, hb, h'⟩ | ⟨_, h'⟩
    · rcases hd with rfl | ⟨st, l, rfl⟩
      · exact keep (.inl h')
      · exact keep (.inr ⟨st, l, h'⟩)
    · subst h'
      cases b with
      | look v =>
        simp only [act] at hd
        cases ht : (run M h).tab v with
        | none => simp [ht] at hd
        | some x => simp [ht] at hd
      | test v m u =>
        simp only [act] at hd
        by_cases hlt : u + M < (run M h).now
        · simp [hlt] at hd; subst hd
          exact ⟨h, [], m, u, rfl, hlt, (known_run M h).2 k v m u hb⟩
        · simp [hlt] at hd
      | visit st l =>
        have hp := past_run M h k st (.inl ⟨l, hb⟩)
        cases l with
        | nil => simp [act] at hd
        | cons w l =>
          simp only [act] at hd
          cases ht : (run M h).tab w with
          | none => simp [ht] at hd
          | some x =>
            simp only [ht] at hd
            by_cases hlt : x.2 + M < st
            · simp [hlt] at hd; subst hd
              exact ⟨h, [], x.1, x.2, rfl, by omega, (known_run M h).1 w x.1 x.2 ht⟩
            · simp [hlt] at hd
      | _ => simp [act] at hd
    · rcases h' with ⟨_, _, rfl⟩ | ⟨_, rfl⟩ | ⟨_, rfl⟩ <;> simp at hd

/-- The clean-up has still to come to `pid`. -/
def ahead (b pid : Nat) : Task → Prop
  | .clean o => pid ∈ o
  | .visit st l => b ≤ st ∧ pid ∈ l
  | .sweep st v l => b ≤ st ∧ (v = pid ∨ pid ∈ l)
  | _ => False

/-- What a clean-up is before and after every step. -/
def sweeping : Task → Prop
  | .clean _ | .visit _ _ | .sweep _ _ _ => True
  | _ => False

theorem cleaned_inv (M pid : Nat) (p : List Ev) (order : List Nat) (q : List Ev) (listed : pid ∈ order)
    (old : ∀ n t, (run M p).tab pid = some (n, t) → t + M < (run M p).now) (quiet : SessQuiet M pid (p ++ [.timer order]) q) :
    ∃ c, (run M (p ++ .timer order :: q)).tasks[(run M p).tasks.length]? = some c ∧
      ((run M (p ++ .timer order :: q)).tab pid = none ∨
        ∃ n t, (run M (p ++ .timer order :: q)).tab pid = some (n, t) ∧ t + M < (run M p).now ∧ ahead (run M p).now pid c) := by
  induction q using snocRec with
  | nil =>
    rw [run_snoc]
    refine ⟨.clean order, by simp [step], ?_⟩
    cases hs : (run M p).tab pid with
    | none => exact .inl hs
    | some x => exact .inr ⟨x.1, x.2, hs, old _ _ hs, listed⟩
  | append_singleton q e ih =>
    obtain ⟨c, hc, h⟩ := ih fun q₁ h1 h2 => quiet q₁ (h1.trans (List.prefix_append q [e])) h2
    have hrun : run M (p ++ .timer order :: (q ++ [e])) = step M (run M (p ++ .timer order :: q)) e := by simp [run]
    have hnow : (run M p).now ≤ (run M (p ++ .timer order :: q)).now := now_run M p _
    have noRec : ∀ (k : Nat) n t, e = .adv k → (run M (p ++ .timer order :: q)).tasks[k]? = some (.store pid n t) → False := by
      rintro k n t rfl hk
      exact quiet (q ++ [.adv k]) (List.prefix_refl _) (by simp) n t ((saved_iff M _ _ _ _).2 ⟨p ++ .timer order :: q, k, by simp, hk⟩)
    rw [hrun]
    generalize run M (p ++ .timer order :: q) = s at *
    have htab : (step M s e).tab pid = s.tab pid ∨ (step M s e).tab pid = none := by
      rcases tab_step M s e pid with h | ⟨k, n, t, he, hk, _⟩ | ⟨h, _⟩
      · exact .inl h
      · exact absurd hk (fun hk => noRec k n t he hk)
      · exact .inr h
    by_cases hnone : (step M s e).tab pid = none
    · by_cases he : e = .adv (run M p).tasks.length
      · subst he; exact ⟨_, tasks_self M s _ c hc, .inl hnone⟩
      · exact ⟨c, tasks_other M s e _ c hc he, .inl hnone⟩
    · have h' : (step M s e).tab pid = s.tab pid := htab.resolve_right hnone
      obtain ⟨n, t, ht, hlt, ha⟩ := h.resolve_left (by rw [← h']; exact hnone)
      by_cases he : e = .adv (run M p).tasks.length
      · subst he
        refine ⟨_, tasks_self M s _ c hc, .inr ⟨n, t, h'.trans ht, hlt, ?_⟩⟩
        cases c with
        | clean o => exact ⟨hnow, ha⟩
        | visit st l =>
          cases l with
          | nil => exact ha
          | cons w l =>
            simp only [act]
            rcases List.mem_cons.1 ha.2 with rfl | hl
            · rw [ht]; simp only
              rw [if_pos (by have := ha.1; omega)]
              exact ⟨ha.1, .inl rfl⟩
            · split
              · exact ⟨ha.1, hl⟩
              · split
                · exact ⟨ha.1, .inr hl⟩
                · exact ⟨ha.1, hl⟩
        | sweep st w l =>
          rcases ha.2 with rfl | hl
          · exact absurd (by simp [step, hc, act, upd_same]) hnone
          · exact ⟨ha.1, hl⟩
        | _ => cases ha
      · exact ⟨c, tasks_other M s e _ c hc he, .inr ⟨n, t, h'.trans ht, hlt, ha⟩⟩

end Verif.SessRace
