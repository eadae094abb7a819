import Verif.Proof.JoinRace

/-! What the handlers of "disconnecting" and "disconnect" find. -/

namespace Verif.JoinRace
open Verif Verif.Spec

/-- A close that has removed the socket from the namespace. -/
def removed : PC → Bool
  | .forbid | .flag | .disconnect | .done true => true
  | _ => false

/-- A close that has cleared `connected`. -/
def flagged : PC → Bool
  | .disconnect | .done true => true
  | _ => false

structure Late (s : St) : Prop where
  reg : s.registered = false ↔ ∃ (k : Nat) (b : Bool) (pc : PC), s.ths[k]? = some (Kind.close b, pc) ∧ removed pc = true
  con : s.connected = false ↔ ∃ (k : Nat) (b : Bool) (pc : PC), s.ths[k]? = some (Kind.close b, pc) ∧ flagged pc = true
  ret : ∀ (k : Nat) (c : Kind) (b : Bool), s.ths[k]? = some (c, PC.done b) → Out.returned k ∈ s.log

theorem removed_left (pc : PC) (h : removed pc = true) : left pc = true := by
  cases pc with
  | done b => cases b <;> simp_all [removed, left]
  | _ => simp_all [removed, left]

theorem flagged_left (pc : PC) (h : flagged pc = true) : left pc = true := by
  cases pc with
  | done b => cases b <;> simp_all [flagged, left]
  | _ => simp_all [flagged, left]

/-- A set that grows with the step of one call. -/
theorem some_set (q : PC → Bool) (l : List (Kind × PC)) (k : Nat) (c : Kind) (pc pc' : PC) (hk : l[k]? = some (c, pc)) :
    (∃ (j : Nat) (b : Bool) (p : PC), (l.set k (c, pc'))[j]? = some (Kind.close b, p) ∧ q p = true) ↔
    (∃ b, c = .close b ∧ q pc' = true) ∨ ∃ (j : Nat) (b : Bool) (p : PC), j ≠ k ∧ l[j]? = some (Kind.close b, p) ∧ q p = true := by
  constructor
  · rintro ⟨j, b, p, h1, h2⟩
    rw [get_set _ _ _ _ _ hk] at h1
    split at h1
    · cases h1; exact .inl ⟨b, rfl, h2⟩
    · rename_i hj; exact .inr ⟨j, b, p, hj, h1, h2⟩
  · rintro (⟨b, rfl, h2⟩ | ⟨j, b, p, hj, h1, h2⟩)
    · exact ⟨k, b, pc', by rw [get_set _ _ _ _ _ hk, if_pos rfl], h2⟩
    · exact ⟨j, b, p, by rw [get_set _ _ _ _ _ hk, if_neg hj]; exact h1, h2⟩

theorem some_split (q : PC → Bool) (l : List (Kind × PC)) (k : Nat) (c : Kind) (pc : PC) (hk : l[k]? = some (c, pc)) :
    (∃ (j : Nat) (b : Bool) (p : PC), l[j]? = some (Kind.close b, p) ∧ q p = true) ↔
    (∃ b, c = .close b ∧ q pc = true) ∨ ∃ (j : Nat) (b : Bool) (p : PC), j ≠ k ∧ l[j]? = some (Kind.close b, p) ∧ q p = true := by
  have := some_set q l k c pc pc hk
  rwa [same_set _ _ _ hk] at this

theorem late_move {s : St} (i : Late s) {k : Nat} {c : Kind} {pc : PC} (hk : s.ths[k]? = some (c, pc)) (pc' : PC) (es : List Out) (s' : St)
    (ht : s'.ths = s.ths.set k (c, pc')) (hl : s'.log = s.log ++ es)
    (h1 : (s'.registered = s.registered ∧ (∀ b, c = .close b → removed pc' = removed pc)) ∨ (s'.registered = false ∧ (∃ b, c = .close b) ∧ removed pc' = true))
    (h2 : (s'.connected = s.connected ∧ (∀ b, c = .close b → flagged pc' = flagged pc)) ∨ (s'.connected = false ∧ (∃ b, c = .close b) ∧ flagged pc' = true))
    (h3 : ∀ b, pc' = .done b → .returned k ∈ es) : Late s' := by
  refine ⟨?_, ?_, ?_⟩
  · rw [ht, some_set removed _ _ _ _ _ hk]
    rcases h1 with ⟨h, h'⟩ | ⟨h, ⟨b, hb⟩, h'⟩
    · rw [h, i.reg, some_split removed _ _ _ _ hk]
      constructor
      · rintro (⟨b, hb, h4⟩ | h4)
        · exact .inl ⟨b, hb, by rw [h' b hb]; exact h4⟩
        · exact .inr h4
      · rintro (⟨b, hb, h4⟩ | h4)
        · exact .inl ⟨b, hb, by rw [← h' b hb]; exact h4⟩
        · exact .inr h4
    · exact ⟨fun _ => .inl ⟨b, hb, h'⟩, fun _ => h⟩
  · rw [ht, some_set flagged _ _ _ _ _ hk]
    rcases h2 with ⟨h, h'⟩ | ⟨h, ⟨b, hb⟩, h'⟩
    · rw [h, i.con, some_split flagged _ _ _ _ hk]
      constructor
      · rintro (⟨b, hb, h4⟩ | h4)
        · exact .inl ⟨b, hb, by rw [h' b hb]; exact h4⟩
        · exact .inr h4
      · rintro (⟨b, hb, h4⟩ | h4)
        · exact .inl ⟨b, hb, by rw [← h' b hb]; exact h4⟩
        · exact .inr h4
    · exact ⟨fun _ => .inl ⟨b, hb, h'⟩, fun _ => h⟩
  · intro j c' b hj
    rw [ht, get_set _ _ _ _ _ hk] at hj
    rw [hl]
    split at hj
    · rename_i e; cases hj; rw [e]; exact List.mem_append_right _ (h3 b rfl)
    · exact List.mem_append_left _ (i.ret j c' b hj)

theorem late_call {s : St} (i : Late s) (c : Kind) : Late (step s (.call c)) := by
  have key : ∀ (j : Nat) (c' : Kind) (p : PC), (s.ths ++ [(c, PC.check)])[j]? = some (c', p) → s.ths[j]? = some (c', p) ∨ p = .check := by
    intro j c' p h
    by_cases hj : j < s.ths.length
    · rw [List.getElem?_append_left hj] at h; exact .inl h
    · rw [List.getElem?_append_right (by omega)] at h
      have := (List.getElem?_eq_some_iff.1 h).1
      simp only [List.length_singleton] at this
      have e : j - s.ths.length = 0 := by omega
      rw [e] at h; simp at h; exact .inr h.2.symm
  have old : ∀ (j : Nat) (x : Kind × PC), s.ths[j]? = some x → (s.ths ++ [(c, PC.check)])[j]? = some x := by
    intro j x h; rw [List.getElem?_append_left (List.getElem?_eq_some_iff.1 h).1]; exact h
  refine ⟨?_, ?_, ?_⟩
  · refine i.reg.trans ⟨?_, ?_⟩
    · rintro ⟨k, b, pc, h1, h2⟩; exact ⟨k, b, pc, old _ _ h1, h2⟩
    · rintro ⟨k, b, pc, h1, h2⟩
      rcases key _ _ _ h1 with h | h
      · exact ⟨k, b, pc, h, h2⟩
      · rw [h] at h2; cases h2
  · refine i.con.trans ⟨?_, ?_⟩
    · rintro ⟨k, b, pc, h1, h2⟩; exact ⟨k, b, pc, old _ _ h1, h2⟩
    · rintro ⟨k, b, pc, h1, h2⟩
      rcases key _ _ _ h1 with h | h
      · exact ⟨k, b, pc, h, h2⟩
      · rw [h] at h2; cases h2
  · intro k c' b h
    rcases key _ _ _ h with h | h
    · exact List.mem_append_left _ (i.ret k c' b h)
    · cases h

theorem late_adv {s : St} (i : Late s) (k : Nat) : Late (step s (.adv k)) := by
  simp only [step, advance]
  split
  · rename_i c pc hk
    have idle : act s k c pc = (s, pc) → Late { (act s k c pc).1 with ths := s.ths.set k (c, (act s k c pc).2) } := by
      intro e; rw [e]; simp only [same_set _ _ _ hk]; exact i
    cases c with
    | join rs =>
      cases pc with
      | check =>
        by_cases h : s.canJoin = true
        · simp only [act, h, if_true]
          exact late_move i hk .add [] _ rfl (by simp) (.inl ⟨rfl, by simp⟩) (.inl ⟨rfl, by simp⟩) (by simp)
        · simp only [act, h]
          exact late_move i hk (.done false) [.returned k] _ rfl rfl (.inl ⟨rfl, by simp⟩) (.inl ⟨rfl, by simp⟩) (by simp)
      | add => exact late_move i hk (.done true) [.returned k] _ rfl rfl (.inl ⟨rfl, by simp⟩) (.inl ⟨rfl, by simp⟩) (by simp)
      | _ => exact idle rfl
    | close b =>
      cases pc with
      | check =>
        by_cases h : s.connected = true
        · simp only [act, h, if_true]
          exact late_move i hk .disconnecting [] _ rfl (by simp) (.inl ⟨rfl, by simp [removed]⟩) (.inl ⟨h.symm, by simp [flagged]⟩) (by simp)
        · simp only [act, h]
          exact late_move i hk (.done false) [.returned k] _ rfl rfl (.inl ⟨rfl, by simp [removed]⟩) (.inl ⟨by simpa using (Bool.eq_false_iff.2 h).symm, by simp [flagged]⟩) (by simp)
      | disconnecting => exact late_move i hk .persist [.disconnecting k] _ rfl rfl (.inl ⟨rfl, by simp [removed]⟩) (.inl ⟨rfl, by simp [flagged]⟩) (by simp)
      | persist =>
        cases b
        · exact late_move i hk .leaveAll [.handled k] _ rfl (by simp [act]) (.inl ⟨rfl, by simp [removed]⟩) (.inl ⟨rfl, by simp [flagged]⟩) (by simp)
        · exact late_move i hk .leaveAll [.handled k, .saved k s.rooms] _ rfl rfl (.inl ⟨rfl, by simp [removed]⟩) (.inl ⟨rfl, by simp [flagged]⟩) (by simp)
      | leaveAll => exact late_move i hk .remove [] _ rfl (by simp [act]) (.inl ⟨rfl, by simp [removed]⟩) (.inl ⟨rfl, by simp [flagged]⟩) (by simp)
      | remove => exact late_move i hk .forbid [] _ rfl (by simp [act]) (.inr ⟨rfl, ⟨b, rfl⟩, rfl⟩) (.inl ⟨rfl, by simp [flagged]⟩) (by simp)
      | forbid => exact late_move i hk .flag [] _ rfl (by simp [act]) (.inl ⟨rfl, by simp [removed]⟩) (.inl ⟨rfl, by simp [flagged]⟩) (by simp)
      | flag => exact late_move i hk .disconnect [] _ rfl (by simp [act]) (.inl ⟨rfl, by simp [removed]⟩) (.inr ⟨rfl, ⟨b, rfl⟩, rfl⟩) (by simp)
      | disconnect => exact late_move i hk (.done true) [.disconnect k, .returned k] _ rfl rfl (.inl ⟨rfl, by simp [removed]⟩) (.inl ⟨rfl, by simp [flagged]⟩) (by simp)
      | done b' => exact idle rfl
      | add => exact idle rfl
  · exact i

theorem late_run (rooms0 : List Nat) (h : List Ev) : Late (run rooms0 h) := by
  induction h using snocRec with
  | nil => exact ⟨by simp [run], by simp [run], by simp [run]⟩
  | append_singleton h e ih =>
    rw [run_snoc]
    cases e with
    | call c => exact late_call ih c
    | adv k => exact late_adv ih k

end Verif.JoinRace
