import Verif.Spec.ListenRace
import Verif.Lib.ListExtra
import Verif.Proof.Once

namespace Verif.ListenRace
open Verif Verif.Spec Verif.Listeners

theorem run_snoc (code : Nat → Nat) (h : List Ev) (e : Ev) : run code (h ++ [e]) = step code (run code h) e := by simp [run]

theorem edits_append (a b : List Ev) : listenEdits (a ++ b) = listenEdits a ++ listenEdits b := by
  induction a with
  | nil => rfl
  | cons e a ih =>
    cases e with
    | edit k i e => cases e <;> simp [listenEdits, ih]
    | event => simp [listenEdits, ih]
    | adv => simp [listenEdits, ih]

theorem events_append (a b : List Ev) : eventsOf (a ++ b) = eventsOf a + eventsOf b := by
  induction a with
  | nil => simp [eventsOf]
  | cons e a ih => cases e <;> simp [eventsOf, ih] <;> omega

theorem act_lists (s : St) (j : Nat) (n : Note) : (act s j n).lists = s.lists := by unfold act; split <;> rfl

theorem act_length (s : St) (j : Nat) (n : Note) : (act s j n).notes.length = s.notes.length := by
  unfold act; split <;> simp

/-- The listeners are those of C50. -/
theorem lists_run (code : Nat → Nat) (h : List Ev) : (run code h).lists = (Listeners.run code (listenEdits h)).lists := by
  induction h using snocRec with
  | nil => rfl
  | append_singleton h e ih =>
    rw [run_snoc, edits_append]
    cases e with
    | edit k i e =>
      cases e with
      | on l => simp [listenEdits, Listeners.run, Listeners.step, St.put, step, edited, ih]
      | prepend l => simp [listenEdits, Listeners.run, Listeners.step, St.put, step, edited, ih]
      | off l => cases l <;> simp [listenEdits, Listeners.run, Listeners.step, St.put, step, edited, ih]
    | event k i args => simpa [listenEdits, step] using ih
    | adv j =>
      simp only [step]
      split
      · rw [act_lists]; simpa [listenEdits] using ih
      · simpa [listenEdits] using ih

theorem length_run (code : Nat → Nat) (h : List Ev) : (run code h).notes.length = eventsOf h := by
  induction h using snocRec with
  | nil => rfl
  | append_singleton h e ih =>
    rw [run_snoc, events_append]
    cases e with
    | edit k i e => simpa [eventsOf, step] using ih
    | event k i args => simp [eventsOf, step, ih]
    | adv j =>
      simp only [step]
      split
      · rw [act_length]; simpa [eventsOf] using ih
      · simpa [eventsOf] using ih

/-- Where the goroutine of an event is: it has not begun, or it has copied the listeners of one moment and called the first of them. -/
inductive At (code : Nat → Nat) (p : List Ev) (k : Kind) (i : Nat) (args : List Val) (q : List Ev) : Prop where
  | fresh (h : (run code (p ++ .event k i args :: q)).notes[eventsOf p]? = some ⟨k, i, args, .all⟩)
      (none : calledBy (eventsOf p) (run code (p ++ .event k i args :: q)) = [])
  | going (q₁ q₂ : List Ev) (hq : q = q₁ ++ q₂) (gone todo : List Nat)
      (h : (run code (p ++ .event k i args :: q)).notes[eventsOf p]? = some ⟨k, i, args, .loop todo⟩)
      (moment : (run code (p ++ .event k i args :: q₁)).lists k i = gone ++ todo)
      (sofar : calledBy (eventsOf p) (run code (p ++ .event k i args :: q)) = gone.map fun l => (l, args))

theorem calls_of (code : Nat → Nat) (h : List Ev) : ∀ c ∈ (run code h).calls, c.1 < eventsOf h := by
  induction h using snocRec with
  | nil => simp [run]
  | append_singleton h e ih =>
    rw [run_snoc, events_append]
    cases e with
    | edit k i e => intro c hc; have := ih c hc; simp [eventsOf]; exact this
    | event k i args => intro c hc; have := ih c hc; simp [eventsOf]; omega
    | adv j =>
      intro c hc
      simp only [eventsOf, Nat.add_zero]
      simp only [step] at hc
      split at hc
      · rename_i n hn
        unfold act at hc
        split at hc
        · exact ih c hc
        · exact ih c hc
        · rcases List.mem_append.1 hc with hc | hc
          · exact ih c hc
          · simp only [List.mem_singleton] at hc
            subst hc
            rw [← length_run code h]
            exact (List.getElem?_eq_some_iff.1 hn).1
      · exact ih c hc

theorem at_run (code : Nat → Nat) (p : List Ev) (k : Kind) (i : Nat) (args : List Val) (q : List Ev) : At code p k i args q := by
  induction q using snocRec with
  | nil =>
    refine .fresh ?_ ?_
    · rw [run_snoc]; simp only [step]; rw [← length_run code p]; simp
    · rw [run_snoc]; simp only [step, calledBy]
      rw [List.filter_eq_nil_iff.2]
      · rfl
      · intro c hc hb
        have := calls_of code p c hc
        simp only [beq_iff_eq] at hb; omega
  | append_singleton q e ih =>
    have e1 : run code (p ++ .event k i args :: (q ++ [e])) = step code (run code (p ++ .event k i args :: q)) e := by
      rw [← run_snoc]; simp
    generalize hs : run code (p ++ .event k i args :: q) = s at e1
    generalize hJ : eventsOf p = J
    cases e with
    | edit k' i' ed =>
      cases ih with
      | fresh h none =>
        rw [hs, hJ] at h none
        exact .fresh (by rw [e1, hJ]; exact h) (by rw [e1, hJ]; exact none)
      | going q₁ q₂ hq gone todo h moment sofar =>
        rw [hs, hJ] at h sofar
        exact .going q₁ (q₂ ++ [.edit k' i' ed]) (by simp [hq]) gone todo (by rw [e1, hJ]; exact h) moment (by rw [e1, hJ]; exact sofar)
    | event k' i' args' =>
      cases ih with
      | fresh h none =>
        rw [hs, hJ] at h none
        exact .fresh (by rw [e1, hJ]; exact Once.app_left h) (by rw [e1, hJ]; exact none)
      | going q₁ q₂ hq gone todo h moment sofar =>
        rw [hs, hJ] at h sofar
        exact .going q₁ (q₂ ++ [.event k' i' args']) (by simp [hq]) gone todo (by rw [e1, hJ]; exact Once.app_left h) moment
          (by rw [e1, hJ]; exact sofar)
    | adv j =>
      simp only [step] at e1
      by_cases hj : j = J
      · subst hj
        cases ih with
        | fresh h none =>
          rw [hs, hJ] at h none
          rw [h] at e1
          simp only [act] at e1
          refine .going q [.adv j] rfl [] (s.lists k i) ?_ ?_ ?_
          · rw [e1, hJ]; exact Once.set_self h
          · rw [hs]; rfl
          · rw [e1, hJ]; exact none
        | going q₁ q₂ hq gone todo h moment sofar =>
          rw [hs, hJ] at h sofar
          rw [h] at e1
          cases todo with
          | nil =>
            simp only [act] at e1
            exact .going q₁ (q₂ ++ [.adv j]) (by simp [hq]) gone [] (by rw [e1, hJ]; exact h) moment (by rw [e1, hJ]; exact sofar)
          | cons l todo =>
            simp only [act] at e1
            refine .going q₁ (q₂ ++ [.adv j]) (by simp [hq]) (gone ++ [l]) todo ?_ (by rw [moment]; simp) ?_
            · rw [e1, hJ]; exact Once.set_self h
            · rw [e1, hJ]
              simp only [calledBy] at sofar ⊢
              simp [List.filter_append, sofar]
      · have hn : ∀ {x}, s.notes[J]? = some x → (step code s (.adv j)).notes[J]? = some x := by
          intro x hx
          simp only [step]
          split
          · unfold act; split
            · exact Once.set_other hx (fun e => hj e.symm)
            · exact hx
            · exact Once.set_other hx (fun e => hj e.symm)
          · exact hx
        have hc : calledBy J (step code s (.adv j)) = calledBy J s := by
          simp only [step]
          split
          · unfold act; split
            · rfl
            · rfl
            · simp [calledBy, List.filter_append, hj]
          · rfl
        have e2 : run code (p ++ .event k i args :: (q ++ [.adv j])) = step code s (.adv j) := by rw [← hs, ← run_snoc]; simp
        cases ih with
        | fresh h none =>
          rw [hs, hJ] at h none
          exact .fresh (by rw [e2, hJ]; exact hn h) (by rw [e2, hJ, hc]; exact none)
        | going q₁ q₂ hq gone todo h moment sofar =>
          rw [hs, hJ] at h sofar
          exact .going q₁ (q₂ ++ [.adv j]) (by simp [hq]) gone todo (by rw [e2, hJ]; exact hn h) moment (by rw [e2, hJ, hc]; exact sofar)

end Verif.ListenRace
