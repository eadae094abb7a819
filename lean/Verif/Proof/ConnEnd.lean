import Verif.Proof.Settle
import Verif.Spec.ConnRace

/-! # The goroutine that connects a socket and the calls that close it come to their end -/

namespace Verif.ConnRace
open Verif Verif.Spec

/-- The steps left to the goroutine that connects the socket. -/
def connLeft : CPC → Nat
  | .idle => 0
  | .test => 8
  | .store => 7
  | .flag => 6
  | .join => 5
  | .write => 4
  | .register => 3
  | .name => 2
  | .announce => 1
  | .done => 0
  | .refused => 0

/-- The steps left to a call that closes it. -/
def closeLeft : KPC → Nat
  | .range => 10
  | .check => 9
  | .disconnecting => 8
  | .leave => 7
  | .remove => 6
  | .forbid => 5
  | .unregister => 4
  | .unflag => 3
  | .disconnect => 2
  | .clear => 1
  | .done => 0

/-- The steps left to all. -/
def allLeft (s : St) : Nat := connLeft s.conn + (s.closers.map fun t => closeLeft t.2).sum

/-- Goroutine `0` connects the socket, the others are the calls that close it. -/
def turn : Nat → Ev
  | 0 => .conn
  | k + 1 => .adv k

/-- The goroutine has nothing to do. -/
def atEnd (s : St) : Nat → Prop
  | 0 => connLeft s.conn = 0
  | k + 1 => ∀ t, s.closers[k]? = some t → t.2 = .done

theorem close_dec (s : St) (w : Bool) (pc : KPC) (h : pc ≠ .done) : closeLeft (close s w pc).2 < closeLeft pc := by
  cases pc with
  | range => simp only [close]; cases s.registered <;> decide
  | check => simp only [close]; cases s.connected <;> cases w <;> decide
  | disconnect => simp only [close]; cases w <;> decide
  | done => exact absurd rfl h
  | disconnecting => exact (by decide : (7 : Nat) < 8)
  | leave => exact (by decide : (6 : Nat) < 7)
  | remove => exact (by decide : (5 : Nat) < 6)
  | forbid => exact (by decide : (4 : Nat) < 5)
  | unregister => exact (by decide : (3 : Nat) < 4)
  | unflag => exact (by decide : (2 : Nat) < 3)
  | clear => exact (by decide : (0 : Nat) < 1)

theorem close_conn (s : St) (w : Bool) (pc : KPC) : (close s w pc).1.conn = s.conn := by
  cases pc <;> simp only [close]
  split <;> rfl

theorem turn_dec (s : St) (k : Nat) (h : ¬atEnd s k) : allLeft (step s (turn k)) < allLeft s := by
  cases k with
  | zero =>
    simp only [atEnd] at h
    simp only [turn, step, allLeft]
    have sums : ∀ {n m x : Nat}, n < m → n + x < m + x := fun h => by omega
    cases hc : s.conn with
    | idle => exact absurd (by rw [hc]; rfl) h
    | done => exact absurd (by rw [hc]; rfl) h
    | refused => exact absurd (by rw [hc]; rfl) h
    | test => simp only [connect]; split <;> exact sums (by simp [connect, connLeft])
    | store => exact sums (by simp [connect, connLeft])
    | flag => exact sums (by simp [connect, connLeft])
    | join => exact sums (by simp [connect, connLeft])
    | write => exact sums (by simp [connect, connLeft])
    | register => exact sums (by simp [connect, connLeft])
    | name => exact sums (by simp [connect, connLeft])
    | announce => exact sums (by simp [connect, connLeft])
  | succ k =>
    obtain ⟨t, ht⟩ := Classical.not_forall.1 h
    obtain ⟨ht, hd⟩ := Classical.not_imp.1 ht
    obtain ⟨w, pc⟩ := t
    simp only [turn, step, advance, ht, allLeft, close_conn]
    have h1 := sum_set (fun t : Bool × KPC => closeLeft t.2) s.closers k (w, pc) (w, (close s w pc).2) ht
    have h2 := close_dec s w pc hd
    simp only at h1
    omega

theorem turn_still (s : St) (k : Nat) (h : atEnd s k) : step s (turn k) = s := by
  cases k with
  | zero =>
    simp only [atEnd] at h
    simp only [turn, step]
    cases hc : s.conn <;> simp only [hc, connLeft] at h <;> first | rfl | (exact absurd h (by decide))
  | succ k =>
    simp only [turn, step, advance]
    cases ht : s.closers[k]? with
    | none => rfl
    | some t =>
      obtain ⟨w, pc⟩ := t
      have hd : pc = .done := h _ ht
      subst hd
      simp only [close]
      have : s.closers.set k (w, .done) = s.closers := by
        apply List.ext_getElem?
        intro j
        by_cases e : j = k
        · subst e; rw [List.getElem?_set_self (List.getElem?_eq_some_iff.1 ht).1, ht]
        · rw [List.getElem?_set_ne (fun h => e h.symm)]
      rw [this]

theorem conn_settles (σ : Nat → Ev) (only : ∀ n, ∃ k, σ n = turn k) (fair : ∀ k, AgainAndAgain (turn k) σ) (s : St) :
    ∃ n, ∀ k, atEnd ((firstOf σ n).foldl step s) k := by
  refine Settle.settles step turn allLeft atEnd (fun e => ∃ k, e = turn k) (fun s e ⟨j, he⟩ => ?_) turn_dec σ only fair s
  subst he
  by_cases hj : atEnd s j
  · right
    rw [turn_still s j hj]
    exact ⟨rfl, fun _ h _ => h⟩
  · exact .inl (turn_dec s j hj)

/-- What steps leave alone. -/
theorem steps_keep (l : List Ev) (hl : ∀ e ∈ l, ∃ k, e = turn k) (s : St) :
    (l.foldl step s).isOpen = s.isOpen ∧ (l.foldl step s).closers.map (·.1) = s.closers.map (·.1) := by
  induction l generalizing s with
  | nil => exact ⟨rfl, rfl⟩
  | cons e l ih =>
    obtain ⟨h1, h2⟩ := ih (fun e he => hl e (by simp [he])) (step s e)
    rw [List.foldl_cons, h1, h2]
    obtain ⟨k, rfl⟩ := hl e (by simp)
    cases k with
    | zero =>
      simp only [turn, step]
      cases s.conn <;> simp only [connect] <;> (try split) <;> simp
    | succ k =>
      simp only [turn, step, advance]
      cases ht : s.closers[k]? with
      | none => exact ⟨rfl, rfl⟩
      | some t =>
        obtain ⟨w, pc⟩ := t
        refine ⟨?_, ?_⟩
        · cases pc <;> simp only [close]
          split <;> rfl
        · simp only [List.map_set]
          apply List.ext_getElem?
          intro j
          by_cases e : j = k
          · subst e
            have hlen := (List.getElem?_eq_some_iff.1 ht).1
            rw [List.getElem?_set_self (by simpa using hlen), List.getElem?_map, ht]; rfl
          · rw [List.getElem?_set_ne (fun h => e h.symm)]

theorem meanwhile_steps (h l : List Ev) (hl : ∀ e ∈ l, ∃ k, e = turn k) (hm : NotMeanwhile h) : NotMeanwhile (h ++ l) := by
  have quiet : ∀ e ∈ l, ¬(e = .hangup ∨ e = .leave) := by
    intro e he
    obtain ⟨k, rfl⟩ := hl e he
    cases k <;> simp [turn]
  intro p e t hh he
  rcases List.append_eq_append_iff.1 hh with ⟨a, ha, hb⟩ | ⟨a, ha, hb⟩
  · exact absurd he (quiet e (by rw [hb]; simp))
  · cases a with
    | nil => exact absurd he (quiet e (by rw [List.nil_append] at hb; rw [← hb]; simp))
    | cons x a =>
      simp only [List.cons_append, List.cons.injEq] at hb
      obtain ⟨rfl, rfl⟩ := hb
      exact hm p e a ha he

end Verif.ConnRace
