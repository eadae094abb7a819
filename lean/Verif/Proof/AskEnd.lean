import Verif.Proof.Settle
import Verif.Spec.AskRace

/-! # Everything that a request to the cluster sets going comes to its end -/

namespace Verif.AskRace
open Verif Verif.Spec Verif.Heartbeat

def askLeft : APc → Nat
  | .count => 12
  | .timer => 11
  | .keys => 3
  | .store => 2
  | .publish => 1
  | .done => 0

def pcLeft : Pc → Nat
  | .load => 8
  | .push => 7
  | .delete => 6
  | .check => 5
  | .clear => 4
  | .resolve => 3
  | .erase => 2
  | .forget => 1
  | .done => 0

def tmoLeft : TPc → Nat
  | .load => 3
  | .call => 2
  | .erase => 1
  | _ => 0

def timerLeft : Timer → Nat
  | .armed => 5
  | _ => 0

/-- What is left to do. -/
def toDo (s : St) : Nat := askLeft s.asker + (s.ths.map fun t => pcLeft t.pc).sum + tmoLeft s.tmo + timerLeft s.timer

theorem advance_dec (s : St) (u : Uid) (a : Option (List Val)) (pc : Pc) (h : pc ≠ .done) : pcLeft (advance s u a pc).2 < pcLeft pc := by
  cases pc with
  | load => cases hs : s.stored <;> cases a <;> simp [advance, hs, rest, pcLeft]
  | push => exact (by decide : (6 : Nat) < 7)
  | delete => exact (by decide : (5 : Nat) < 6)
  | check => simp only [advance]; split <;> cases a <;> simp [rest, pcLeft]
  | clear => exact (by decide : (3 : Nat) < 4)
  | resolve => exact (by decide : (2 : Nat) < 3)
  | erase => cases a <;> simp [advance, rest, pcLeft]
  | forget => exact (by decide : (0 : Nat) < 1)
  | done => exact absurd rfl h

/-- A call about the request leaves the call that asks and the function of the timer alone, and can only stop the timer. -/
theorem advance_others (s : St) (u : Uid) (a : Option (List Val)) (pc : Pc) :
    (advance s u a pc).1.asker = s.asker ∧ (advance s u a pc).1.tmo = s.tmo ∧ (advance s u a pc).1.asked = s.asked ∧
    timerLeft (advance s u a pc).1.timer ≤ timerLeft s.timer := by
  cases pc <;> refine ⟨rfl, rfl, rfl, ?_⟩ <;> try exact Nat.le_refl _
  simp only [advance]
  cases s.timer <;> decide

/-- The goroutines: the call that asks, the function of the timer, the timer (if it is to go off), the others. -/
def who (fires : Bool) : Nat → Ev
  | 0 => .ask
  | 1 => .tick
  | 2 => if fires then .fire else .ask
  | k + 3 => .adv k

def resting (fires : Bool) (s : St) : Nat → Prop
  | 0 => s.asker = .done
  | 1 => s.tmo = .idle ∨ s.tmo = .done
  | 2 => if fires then s.timer ≠ .armed else s.asker = .done
  | k + 3 => ∀ t, s.ths[k]? = some t → t.pc = .done

theorem ask_dec (here : List Val) (s : St) (h : s.asker ≠ .done) : toDo (askStep here s) < toDo s := by
  simp only [askStep]
  cases ha : s.asker with
  | count => simp only []; split <;> simp only [toDo, ha, askLeft] <;> omega
  | timer =>
    have : timerLeft .armed = 5 := rfl
    simp only [toDo, ha, askLeft, this]; omega
  | keys => simp only [toDo, ha, askLeft]; omega
  | store => simp only [toDo, ha, askLeft]; omega
  | publish => simp only [toDo, ha, askLeft]; omega
  | done => exact absurd ha h

theorem tmo_dec (kind : Kind) (s : St) (h : ¬(s.tmo = .idle ∨ s.tmo = .done)) : toDo (tmoStep kind s) < toDo s := by
  simp only [tmoStep]
  cases ht : s.tmo with
  | idle => exact absurd (.inl ht) h
  | done => exact absurd (.inr ht) h
  | load => simp only [toDo, ht]; cases s.stored <;> simp [tmoLeft]
  | call => simp only [toDo, ht, tmoLeft]; omega
  | erase => simp only [toDo, ht, tmoLeft]; omega

theorem fire_dec (kind : Kind) (here : List Val) (s : St) (h : s.timer = .armed) : toDo (step kind here s .fire) < toDo s := by
  simp only [step, h, if_true, toDo, tmoLeft, timerLeft]
  omega

theorem adv_dec (kind : Kind) (here : List Val) (s : St) (k : Nat) (h : ¬∀ t, s.ths[k]? = some t → t.pc = .done) :
    toDo (step kind here s (.adv k)) < toDo s := by
  obtain ⟨t, ht⟩ := Classical.not_forall.1 h
  obtain ⟨ht, hd⟩ := Classical.not_imp.1 ht
  obtain ⟨o1, o2, _, o3⟩ := advance_others s t.uid t.answer t.pc
  have h1 := sum_set (fun t : Th => pcLeft t.pc) s.ths k t { t with pc := (advance s t.uid t.answer t.pc).2 } ht
  have h2 := advance_dec s t.uid t.answer t.pc hd
  simp only [step, ht, toDo, o1, o2]
  simp only at h1
  omega

theorem still (kind : Kind) (here : List Val) (s : St) (k : Nat) (h : ∀ t, s.ths[k]? = some t → t.pc = .done) : step kind here s (.adv k) = s := by
  simp only [step]
  cases ht : s.ths[k]? with
  | none => rfl
  | some t =>
    obtain ⟨u, a, pc⟩ := t
    have hd : pc = .done := h _ ht
    subst hd
    simp only [advance]
    have : s.ths.set k ⟨u, a, .done⟩ = s.ths := by
      apply List.ext_getElem?
      intro i
      by_cases e : i = k
      · subst e; rw [List.getElem?_set_self (List.getElem?_eq_some_iff.1 ht).1, ht]
      · rw [List.getElem?_set_ne (fun h => e h.symm)]
    rw [this]

theorem ask_settles (fires : Bool) (kind : Kind) (here : List Val) (σ : Nat → Ev) (only : ∀ n, (∀ u l, σ n ≠ .respond u l) ∧ ∀ u, σ n ≠ .leave u)
    (fair : ∀ k, AgainAndAgain (who fires k) σ) (s : St) :
    ∃ n, AtRest ((firstOf σ n).foldl (step kind here) s) ∧ (fires = true → ((firstOf σ n).foldl (step kind here) s).timer ≠ .armed) := by
  obtain ⟨n, hn⟩ := Settle.settles (step kind here) (who fires) toDo (resting fires) (fun e => (∀ u l, e ≠ .respond u l) ∧ ∀ u, e ≠ .leave u)
    (fun s e he => by
      have same : ∀ s', s' = s → toDo s' < toDo s ∨ toDo s' = toDo s ∧ ∀ k, ¬resting fires s k → e ≠ who fires k → ¬resting fires s' k := by
        rintro s' rfl
        exact .inr ⟨rfl, fun _ h _ => h⟩
      cases e with
      | respond u l => exact absurd rfl (he.1 u l)
      | leave u => exact absurd rfl (he.2 u)
      | arrive u =>
        refine .inr ⟨rfl, fun k hk _ => ?_⟩
        match k with
        | 0 => exact hk
        | 1 => exact hk
        | 2 => exact hk
        | k + 3 => exact hk
      | ask =>
        by_cases h : s.asker = .done
        · exact same _ (by simp only [step, askStep, h])
        · exact .inl (ask_dec here s h)
      | tick =>
        by_cases h : s.tmo = .idle ∨ s.tmo = .done
        · refine same _ ?_
          rcases h with h | h <;> simp only [step, tmoStep, h]
        · exact .inl (tmo_dec kind s h)
      | fire =>
        by_cases h : s.timer = .armed
        · exact .inl (fire_dec kind here s h)
        · exact same _ (by simp only [step, h, if_false])
      | adv k =>
        by_cases h : ∀ t, s.ths[k]? = some t → t.pc = .done
        · exact same _ (still kind here s k h)
        · exact .inl (adv_dec kind here s k h))
    (fun s k hk => by
      match k with
      | 0 => exact ask_dec here s hk
      | 1 => exact tmo_dec kind s hk
      | 2 =>
        cases fires with
        | true => exact fire_dec kind here s (by simpa [resting] using hk)
        | false => exact ask_dec here s (by simpa [resting] using hk)
      | k + 3 => exact adv_dec kind here s k hk)
    σ only fair s
  refine ⟨n, ⟨hn 0, fun t ht => ?_, hn 1⟩, fun hf => ?_⟩
  · obtain ⟨k, hk⟩ := List.getElem?_of_mem ht
    exact hn (k + 3) t hk
  · have := hn 2
    simpa [resting, hf] using this

/-- Once the call that asks has returned, whom it asked does not change. -/
theorem asked_step (kind : Kind) (here : List Val) {s : St} (h : s.asker = .done) (e : Ev) :
    (step kind here s e).asker = .done ∧ (step kind here s e).asked = s.asked := by
  cases e with
  | ask => simp only [step, askStep, h]; exact ⟨trivial, trivial⟩
  | arrive u => exact ⟨h, rfl⟩
  | respond u l => simp only [step]; split <;> exact ⟨h, rfl⟩
  | leave u => exact ⟨h, rfl⟩
  | adv k =>
    simp only [step]
    cases ht : s.ths[k]? with
    | none => exact ⟨h, rfl⟩
    | some t =>
      obtain ⟨o1, _, o2, _⟩ := advance_others s t.uid t.answer t.pc
      exact ⟨o1.trans h, o2⟩
  | fire => simp only [step]; split <;> exact ⟨h, rfl⟩
  | tick => simp only [step, tmoStep]; cases ht : s.tmo <;> exact ⟨h, rfl⟩

theorem asked_run (kind : Kind) (here : List Val) (l : List Ev) {s : St} (h : s.asker = .done) :
    (l.foldl (step kind here) s).asker = .done ∧ (l.foldl (step kind here) s).asked = s.asked := by
  induction l generalizing s with
  | nil => exact ⟨h, rfl⟩
  | cons e l ih =>
    obtain ⟨h1, h2⟩ := asked_step kind here h e
    exact ⟨(ih h1).1, (ih h1).2.trans h2⟩

end Verif.AskRace
