import Verif.Proof.AcksEnd
import Verif.Spec.CloseRace

/-! # The calls that close a socket come to their end -/

namespace Verif.CloseRace
open Verif Verif.Spec

/-- The steps left to a call. -/
def stepsLeft : PC → Nat
  | .check => 6
  | .disconnecting => 5
  | .persist => 4
  | .cleanup => 3
  | .flag => 2
  | .disconnect => 1
  | .done => 0

theorem act_dec (s : St) (k : Nat) (b : Bool) (pc : PC) (h : pc ≠ .done) : stepsLeft (act s k b pc).2 < stepsLeft pc := by
  cases pc with
  | check => simp only [act]; cases s.connected <;> decide
  | disconnecting => exact (by decide : (4 : Nat) < 5)
  | persist => exact (by decide : (3 : Nat) < 4)
  | cleanup => exact (by decide : (2 : Nat) < 3)
  | flag => exact (by decide : (1 : Nat) < 2)
  | disconnect => exact (by decide : (0 : Nat) < 1)
  | done => exact absurd rfl h

/-- Whether the call has come past the flag. -/
def isPast : PC → Bool
  | .disconnect => true
  | .done => true
  | _ => false

/-- Once a call has come past the flag, the socket is disconnected; then the event has fired or is about to. -/
structure Told (s : St) : Prop where
  past : ∀ t ∈ s.ths, isPast t.2 = true → s.connected = false
  fired : s.connected = false → 1 ≤ disconnects s ∨ ∃ t ∈ s.ths, t.2 = .disconnect

theorem act_state (s : St) (k : Nat) (b : Bool) (pc : PC) :
    (s.connected = false → (act s k b pc).1.connected = false) ∧ disconnects s ≤ disconnects (act s k b pc).1 ∧
    (isPast (act s k b pc).2 = true → isPast pc = true ∨ (act s k b pc).1.connected = false) ∧
    ((act s k b pc).1.connected = false → s.connected = false ∨ (act s k b pc).2 = .disconnect) ∧
    (pc = .disconnect → 1 ≤ disconnects (act s k b pc).1) := by
  have more : ∀ o, disconnects s ≤ disconnects { s with log := s.log ++ [o] } := by
    intro o; simp only [disconnects, List.filter_append, List.length_append]; omega
  cases pc with
  | check =>
    refine ⟨fun h => h, Nat.le_refl _, fun h => ?_, fun h => .inl h, fun h => (by cases h)⟩
    cases hc : s.connected with
    | true => simp [act, hc, isPast] at h
    | false => exact .inr hc
  | disconnecting => exact ⟨fun h => h, more _, fun h => (by cases h), fun h => .inl h, fun h => (by cases h)⟩
  | persist => cases b <;> exact ⟨fun h => h, by first | exact Nat.le_refl _ | exact more _, fun h => (by cases h), fun h => .inl h, fun h => (by cases h)⟩
  | cleanup => exact ⟨fun h => h, Nat.le_refl _, fun h => (by cases h), fun h => .inl h, fun h => (by cases h)⟩
  | flag => exact ⟨fun _ => rfl, Nat.le_refl _, fun _ => .inr rfl, fun _ => .inr rfl, fun h => (by cases h)⟩
  | disconnect =>
    refine ⟨fun h => h, more _, fun _ => .inl rfl, fun h => .inl h, fun _ => ?_⟩
    have : (List.filter isDisconnect [Out.disconnect k]).length = 1 := rfl
    simp only [act, disconnects, List.filter_append, List.length_append, this]
    omega
  | done => exact ⟨fun h => h, Nat.le_refl _, fun h => .inl h, fun h => .inl h, fun h => (by cases h)⟩

theorem told_step {s : St} (t : Told s) (e : Ev) : Told (step s e) := by
  cases e with
  | close b =>
    refine ⟨fun u hu hp => ?_, fun hc => ?_⟩
    · simp only [step, List.mem_append, List.mem_singleton] at hu
      rcases hu with hu | rfl
      · exact t.past u hu hp
      · cases hp
    · rcases t.fired hc with h | ⟨u, hu, hp⟩
      · exact .inl h
      · exact .inr ⟨u, List.mem_append_left _ hu, hp⟩
  | adv k =>
    simp only [step, advance]
    cases hk : s.ths[k]? with
    | none => exact t
    | some c =>
      obtain ⟨b, pc⟩ := c
      obtain ⟨a1, a2, a3, a4, a5⟩ := act_state s k b pc
      have hl := (List.getElem?_eq_some_iff.1 hk).1
      have self : (b, (act s k b pc).2) ∈ s.ths.set k (b, (act s k b pc).2) :=
        List.mem_of_getElem? (i := k) (List.getElem?_set_self hl)
      refine ⟨fun u hu hp => ?_, fun hc => ?_⟩
      · rcases List.mem_or_eq_of_mem_set hu with hu | rfl
        · exact a1 (t.past u hu hp)
        · rcases a3 hp with h | h
          · exact a1 (t.past _ (List.mem_of_getElem? hk) h)
          · exact h
      · rcases a4 hc with h | h
        · rcases t.fired h with h' | ⟨u, hu, hp⟩
          · exact .inl (Nat.le_trans h' a2)
          · obtain ⟨j, hj⟩ := List.getElem?_of_mem hu
            by_cases e : j = k
            · subst e
              rw [hk] at hj
              cases hj
              exact .inl (a5 hp)
            · exact .inr ⟨u, List.mem_of_getElem? (i := j) (by rw [← hj]; exact List.getElem?_set_ne (fun h => e h.symm)), hp⟩
        · exact .inr ⟨_, self, h⟩

theorem told_run (rooms : List Nat) (h : List Ev) : Told (run rooms h) := by
  induction h using snocRec with
  | nil => exact ⟨fun t ht => by simp [run] at ht, fun hc => by simp [run] at hc⟩
  | append_singleton h e ih =>
    have : run rooms (h ++ [e]) = step (run rooms h) e := by simp [run]
    rw [this]
    exact told_step ih e

/-- A socket that is disconnected stays so, and events that have fired have fired. -/
theorem closed_stays (s : St) (e : Ev) : (s.connected = false → (step s e).connected = false) ∧ disconnects s ≤ disconnects (step s e) ∧
    s.ths.length ≤ (step s e).ths.length := by
  cases e with
  | close b => exact ⟨fun h => h, Nat.le_refl _, by simp [step]⟩
  | adv k =>
    simp only [step, advance]
    cases hk : s.ths[k]? with
    | none => exact ⟨fun h => h, Nat.le_refl _, Nat.le_refl _⟩
    | some c =>
      obtain ⟨b, pc⟩ := c
      obtain ⟨a1, a2, _⟩ := act_state s k b pc
      exact ⟨a1, a2, by simp⟩

theorem closed_run (l : List Ev) (s : St) : (s.connected = false → (l.foldl step s).connected = false) ∧
    disconnects s ≤ disconnects (l.foldl step s) ∧ s.ths.length ≤ (l.foldl step s).ths.length := by
  induction l generalizing s with
  | nil => exact ⟨fun h => h, Nat.le_refl _, Nat.le_refl _⟩
  | cons e l ih =>
    obtain ⟨h1, h2, h3⟩ := closed_stays s e
    obtain ⟨g1, g2, g3⟩ := ih (step s e)
    exact ⟨fun h => g1 (h1 h), Nat.le_trans h2 g2, Nat.le_trans h3 g3⟩

/-- The steps left to call `k`. -/
def leftTo (k : Nat) (s : St) : Nat := match s.ths[k]? with
  | some t => stepsLeft t.2
  | none => 0

theorem other_ths (s : St) (e : Ev) (k : Nat) (he : e ≠ .adv k) (hl : k < s.ths.length) : (step s e).ths[k]? = s.ths[k]? := by
  cases e with
  | close b => exact List.getElem?_append_left hl
  | adv j =>
    simp only [step, advance]
    cases hj : s.ths[j]? with
    | none => rfl
    | some t => exact List.getElem?_set_ne (fun e => he (by rw [e]))

theorem call_ends (σ : Nat → Ev) (k : Nat) (fair : AgainAndAgain (.adv k) σ) (s : St) (hk : k < s.ths.length) :
    ∃ n t, ((firstOf σ n).foldl step s).ths[k]? = some t ∧ t.2 = .done := by
  obtain ⟨n, hn⟩ := Returns.ends step (fun s => leftTo k s = 0) (.adv k) (leftTo k) (· < ·) Nat.lt_wfRel.wf
    (fun s hd => by
      refine .inr ?_
      cases ht : s.ths[k]? with
      | none => exact absurd (by simp only [leftTo, ht]) hd
      | some t =>
        obtain ⟨b, pc⟩ := t
        have hl := (List.getElem?_eq_some_iff.1 ht).1
        have e1 : leftTo k (step s (.adv k)) = stepsLeft (act s k b pc).2 := by
          simp only [leftTo, step, advance, ht, List.getElem?_set_self hl]
        have e2 : leftTo k s = stepsLeft pc := by simp only [leftTo, ht]
        rw [e1, e2]
        exact act_dec s k b pc (fun h => hd (by rw [e2, h]; rfl)))
    (fun s e he hd => by
      have hl : k < s.ths.length := by
        refine Nat.lt_of_not_le fun hn => hd ?_
        simp only [leftTo, List.getElem?_eq_none hn]
      exact .inr (by simp only [leftTo, other_ths s e k he hl])) σ fair s
  have hl := Nat.lt_of_lt_of_le hk (closed_run (firstOf σ n) s).2.2
  refine ⟨n, _, List.getElem?_eq_getElem hl, ?_⟩
  simp only [leftTo, List.getElem?_eq_getElem hl] at hn
  generalize (((firstOf σ n).foldl step s).ths[k]).2 = pc at hn
  cases pc <;> simp [stepsLeft] at hn ⊢

/-- A call that is about to fire the event does so in the end. -/
theorem fires (σ : Nat → Ev) (fair : ∀ k, AgainAndAgain (.adv k) σ) (s : St) (h : ∃ t ∈ s.ths, t.2 = .disconnect) :
    ∃ n, 1 ≤ disconnects ((firstOf σ n).foldl step s) := by
  obtain ⟨⟨b, pc⟩, ht, hp⟩ := h
  cases hp
  obtain ⟨j, hj⟩ := List.getElem?_of_mem ht
  have next : ∀ n, (firstOf σ (n + 1)).foldl step s = step ((firstOf σ n).foldl step s) (σ n) := by
    intro n; rw [Returns.firstOf_succ]; simp
  have logs : ∀ s : St, s.ths[j]? = some (b, .disconnect) → 1 ≤ disconnects (step s (.adv j)) := by
    intro s h
    simp only [step, advance, h]
    exact (act_state s j b .disconnect).2.2.2.2 rfl
  have key : ∀ n, 1 ≤ disconnects ((firstOf σ n).foldl step s) ∨ ((firstOf σ n).foldl step s).ths[j]? = some (b, .disconnect) := by
    intro n
    induction n with
    | zero => exact .inr hj
    | succ n ih =>
      rw [next]
      rcases ih with h | h
      · exact .inl (Nat.le_trans h (closed_stays _ _).2.1)
      · by_cases e : σ n = .adv j
        · rw [e]; exact .inl (logs _ h)
        · exact .inr (by rw [other_ths _ _ _ e (List.getElem?_eq_some_iff.1 h).1]; exact h)
  obtain ⟨m, _, hm⟩ := fair j 0
  rcases key m with h | h
  · exact ⟨m, h⟩
  · exact ⟨m + 1, by rw [next, hm]; exact logs _ h⟩

end Verif.CloseRace
