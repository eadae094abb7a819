import Verif.Proof.JoinRace
import Verif.Proof.AcksEnd
import Verif.Proof.Returns

/-! # Calls of `Join` and closes come to an end -/

namespace Verif.JoinRace
open Verif Verif.Spec

/-- What is so where a call is. -/
def Fine (s : St) (k : Nat) : Kind → PC → Prop
  | .join _, .check => True
  | .join _, .add => True
  | .join _, .done _ => .returned k ∈ s.log
  | .join _, _ => False
  | .close _, .add => False
  | .close _, .forbid => s.registered = false
  | .close _, .flag => s.registered = false ∧ s.canJoin = false
  | .close _, .disconnect => s.connected = false
  | .close _, .done _ => s.connected = false ∧ .returned k ∈ s.log
  | .close _, _ => True

structure Off (s : St) : Prop where
  flags : s.connected = false → s.canJoin = false ∧ s.registered = false
  th : ∀ (k : Nat) (c : Kind) (pc : PC), s.ths[k]? = some (c, pc) → Fine s k c pc

/-- What does not come back. -/
structure Later (s t : St) : Prop where
  connected : s.connected = false → t.connected = false
  canJoin : s.canJoin = false → t.canJoin = false
  registered : s.registered = false → t.registered = false
  log : ∀ x ∈ s.log, x ∈ t.log

theorem fine_later {s t : St} (h : Later s t) {k : Nat} {c : Kind} {pc : PC} (f : Fine s k c pc) : Fine t k c pc := by
  cases c <;> cases pc <;> simp only [Fine] at f ⊢
  all_goals first
    | exact h.log _ f
    | exact h.registered f
    | exact ⟨h.registered f.1, h.canJoin f.2⟩
    | exact h.connected f
    | exact ⟨h.connected f.1, h.log _ f.2⟩

theorem later_act (s : St) (k : Nat) (c : Kind) (pc : PC) : Later s (act s k c pc).1 := by
  cases c <;> cases pc <;> simp only [act]
  all_goals first
    | exact ⟨id, id, id, fun _ => id⟩
    | exact ⟨id, id, id, fun _ h => List.mem_append_left _ h⟩
    | exact ⟨fun _ => rfl, id, id, fun _ => id⟩
    | exact ⟨id, fun _ => rfl, id, fun _ => id⟩
    | exact ⟨id, id, fun _ => rfl, fun _ => id⟩
    | (split
       · exact ⟨id, id, id, fun _ => id⟩
       · exact ⟨id, id, id, fun _ h => List.mem_append_left _ h⟩)

theorem later_step (s : St) (e : Ev) : Later s (step s e) := by
  cases e with
  | call c => exact ⟨id, id, id, fun _ h => List.mem_append_left _ h⟩
  | adv k =>
    simp only [step, advance]
    split
    · next c pc h => obtain ⟨h1, h2, h3, h4⟩ := later_act s k c pc; exact ⟨h1, h2, h3, h4⟩
    · exact ⟨id, id, id, fun _ => id⟩

theorem flags_act (s : St) (k : Nat) (c : Kind) (pc : PC) (o : Off s) (f : Fine s k c pc) :
    ((act s k c pc).1.connected = false → (act s k c pc).1.canJoin = false ∧ (act s k c pc).1.registered = false) ∧
    Fine (act s k c pc).1 k c (act s k c pc).2 := by
  have fl := o.flags
  cases c <;> cases pc <;> simp only [act] <;> simp only [Fine] at f ⊢
  all_goals first
    | exact ⟨fl, f⟩
    | exact ⟨fl, trivial⟩
    | exact ⟨fl, f, by simp⟩
    | exact ⟨fun h => ⟨(fl h).1, trivial⟩, trivial⟩
    | exact ⟨fun h => ⟨trivial, f⟩, f, trivial⟩
    | exact ⟨fun _ => ⟨f.2, f.1⟩, trivial⟩
    | exact ⟨fl, by simp; done⟩
    | (split
       · exact ⟨fl, trivial⟩
       · next hc => exact ⟨fl, by simp_all⟩)

theorem off_step (s : St) (e : Ev) (o : Off s) : Off (step s e) := by
  have hl := later_step s e
  cases e with
  | call c =>
    refine ⟨o.flags, fun k c' pc h => ?_⟩
    simp only [step] at h
    by_cases hk : k < s.ths.length
    · rw [List.getElem?_append_left hk] at h
      exact fine_later hl (o.th k c' pc h)
    · by_cases he : k = s.ths.length
      · subst he
        simp at h
        obtain ⟨rfl, rfl⟩ := h
        cases c <;> trivial
      · rw [List.getElem?_eq_none (by simp; omega)] at h; cases h
  | adv j =>
    cases hj : s.ths[j]? with
    | none =>
      have : step s (.adv j) = s := by simp only [step, advance, hj]
      rw [this]; exact o
    | some x =>
      obtain ⟨c, pc⟩ := x
      obtain ⟨f1, f2⟩ := flags_act s j c pc o (o.th j c pc hj)
      have hs : step s (.adv j) = { (act s j c pc).1 with ths := s.ths.set j (c, (act s j c pc).2) } := by simp only [step, advance, hj]
      rw [hs] at hl ⊢
      refine ⟨f1, fun k c' pc' h => ?_⟩
      simp only at h
      rw [get_set _ _ _ _ _ hj] at h
      split at h
      · next e =>
        subst e; cases h
        cases c <;> cases hp : (act s k _ pc).2 <;> rw [hp] at f2 <;> exact f2
      · exact fine_later hl (o.th k c' pc' h)

theorem off_fold (q : List Ev) (s : St) (o : Off s) : Off (q.foldl step s) := by
  induction q generalizing s with
  | nil => exact o
  | cons e q ih => exact ih _ (off_step s e o)

theorem off_run (rooms : List Nat) (h : List Ev) : Off (run rooms h) :=
  off_fold h _ ⟨fun h => by simp at h, fun k c pc h => by simp at h⟩

/-- What a call has left to do at most. -/
def pcLeft : PC → Nat
  | .check => 9 | .add => 1 | .disconnecting => 8 | .persist => 7 | .leaveAll => 6 | .remove => 5 | .forbid => 4 | .flag => 3
  | .disconnect => 2 | .done _ => 0

def thLeft (k : Nat) (s : St) : Nat := match s.ths[k]? with
  | some (_, pc) => pcLeft pc
  | none => 0

/-- Call `k` does nothing any more. -/
def Still (k : Nat) (s : St) : Prop := match s.ths[k]? with
  | some (c, pc) => (∃ b, pc = .done b) ∨ ¬ Fine s k c pc
  | none => True

theorem act_less (s : St) (k : Nat) (c : Kind) (pc : PC) (f : Fine s k c pc) (hd : ∀ b, pc ≠ .done b) :
    pcLeft (act s k c pc).2 < pcLeft pc := by
  cases c <;> cases pc <;> simp only [act, Fine] at f ⊢ <;> (repeat' split)
  all_goals first
    | exact absurd rfl (hd _)
    | exact f.elim
    | decide
    | simp [pcLeft]

theorem call_ends (σ : Nat → Ev) (k : Nat) (fair : AgainAndAgain (.adv k) σ) (s : St) : ∃ n, Still k ((firstOf σ n).foldl step s) := by
  refine Returns.ends step (Still k) (.adv k) (thLeft k) (· < ·) Nat.lt_wfRel.wf (fun s h => .inr ?_) (fun s e he h => .inr ?_) σ fair s
  · cases hk : s.ths[k]? with
    | none => exact absurd (by simp [Still, hk]) h
    | some x =>
      obtain ⟨c, pc⟩ := x
      simp only [Still, hk] at h
      have hf : Fine s k c pc := Classical.byContradiction fun hf => h (.inr hf)
      have hg : (step s (.adv k)).ths[k]? = some (c, (act s k c pc).2) := by
        simp only [step, advance, hk]
        rw [get_set _ _ _ _ _ hk, if_pos rfl]
      simp only [thLeft, hk, hg]
      exact act_less s k c pc hf fun b hb => h (.inl ⟨b, hb⟩)
  · cases hk : s.ths[k]? with
    | none => exact absurd (by simp [Still, hk]) h
    | some x =>
      have hg : (step s e).ths[k]? = some x := by
        cases e with
        | call c => simp only [step]; rw [List.getElem?_append_left (by exact (List.getElem?_eq_some_iff.1 hk).1)]; exact hk
        | adv j =>
          simp only [step, advance]
          split
          · next c pc hj =>
            rw [get_set _ _ _ _ _ hj, if_neg (fun e => he (by rw [e]))]; exact hk
          · exact hk
      simp only [thLeft, hk, hg]

theorem later_fold (q : List Ev) (s : St) : Later s (q.foldl step s) := by
  induction q generalizing s with
  | nil => exact ⟨id, id, id, fun _ => id⟩
  | cons e q ih =>
    obtain ⟨a, b, c, d⟩ := later_step s e
    obtain ⟨a', b', c', d'⟩ := ih (step s e)
    exact ⟨a' ∘ a, b' ∘ b, c' ∘ c, fun x h => d' x (d x h)⟩

/-- The calls keep their places and what they are. -/
theorem kind_fold (q : List Ev) (s : St) (k : Nat) (c : Kind) (pc : PC) (h : s.ths[k]? = some (c, pc)) :
    ∃ pc', (q.foldl step s).ths[k]? = some (c, pc') := by
  induction q generalizing s pc with
  | nil => exact ⟨pc, h⟩
  | cons e q ih =>
    cases e with
    | call c' => exact ih _ pc (by simp only [step]; rw [List.getElem?_append_left (by exact (List.getElem?_eq_some_iff.1 h).1)]; exact h)
    | adv j =>
      simp only [List.foldl_cons, step, advance]
      cases hj : s.ths[j]? with
      | none => exact ih _ pc h
      | some x =>
        obtain ⟨c1, p1⟩ := x
        by_cases hjk : k = j
        · subst hjk
          rw [h] at hj; cases hj
          exact ih _ _ (by simp only; rw [get_set _ _ _ _ _ h, if_pos rfl])
        · exact ih _ pc (by simp only; rw [get_set _ _ _ _ _ hj, if_neg hjk]; exact h)

end Verif.JoinRace
