import Verif.Spec.BeatSeq
import Verif.Proof.Turns

/-! The steps of a call that nobody interrupts do what the call does. -/

namespace Verif.BeatRace
open Verif Verif.Spec

/-- The two states say the same of the timer. -/
structure SameBeat (d : Option Nat) (l : List Msg) (s : St) : Prop where
  log : s.log = l
  timer : s.field = none ∧ s.timers = [] ∧ d = none ∨
    ∃ t, s.field = some 0 ∧ s.timers = [t] ∧ (t = .armed ↔ d.isSome)

theorem brun_append (h h' : List Ev) : run true (h ++ h') = h'.foldl (step true) (run true h) := by simp [run]

theorem same_publish {d : Option Nat} {l : List Msg} {s : St} (i : SameBeat d l s) (x : Nat) :
    SameBeat (some x) (l ++ [.message]) ((beatSteps s.ths.length (some .message)).foldl (step true) s) := by
  obtain ⟨i1, i2⟩ := i
  obtain ⟨timers, field, T, log⟩ := s
  simp only at i1 i2
  subst i1
  rcases i2 with ⟨rfl, rfl, rfl⟩ | ⟨t, rfl, rfl, ht⟩
  · have e : (beatSteps T.length (some .message)).foldl (step true) ⟨[], none, T, log⟩ = ⟨[.armed], some 0, T ++ [⟨.message, .done⟩], log ++ [.message]⟩ := by
      simp [beatSteps, List.replicate, step, advance]
    rw [e]
    exact ⟨rfl, .inr ⟨.armed, rfl, rfl, by simp⟩⟩
  · have e : (beatSteps T.length (some .message)).foldl (step true) ⟨[t], some 0, T, log⟩ = ⟨[.armed], some 0, T ++ [⟨.message, .done⟩], log ++ [.message]⟩ := by
      cases t <;> simp [beatSteps, List.replicate, step, advance, refreshed]
    rw [e]
    exact ⟨rfl, .inr ⟨.armed, rfl, rfl, by simp⟩⟩

theorem same_close {d : Option Nat} {l : List Msg} {s : St} (i : SameBeat d l s) :
    SameBeat none (l ++ [.goodbye]) ((beatSteps s.ths.length (some .goodbye)).foldl (step true) s) := by
  obtain ⟨i1, i2⟩ := i
  obtain ⟨timers, field, T, log⟩ := s
  simp only at i1 i2
  subst i1
  rcases i2 with ⟨rfl, rfl, rfl⟩ | ⟨t, rfl, rfl, ht⟩
  · have e : (beatSteps T.length (some .goodbye)).foldl (step true) ⟨[], none, T, log⟩ = ⟨[.stopped], some 0, T ++ [⟨.goodbye, .done⟩], log ++ [.goodbye]⟩ := by
      simp [beatSteps, List.replicate, step, advance]
    rw [e]
    exact ⟨rfl, .inr ⟨.stopped, rfl, rfl, by simp⟩⟩
  · have e : (beatSteps T.length (some .goodbye)).foldl (step true) ⟨[t], some 0, T, log⟩ = ⟨[.stopped], some 0, T ++ [⟨.goodbye, .done⟩], log ++ [.goodbye]⟩ := by
      cases t <;> simp [beatSteps, List.replicate, step, advance, refreshed]
    rw [e]
    exact ⟨rfl, .inr ⟨.stopped, rfl, rfl, by simp⟩⟩

theorem same_beat {y : Nat} {l : List Msg} {s : St} (i : SameBeat (some y) l s) (x : Nat) :
    SameBeat (some x) (l ++ [.heartbeat]) ((beatSteps s.ths.length (some .heartbeat)).foldl (step true) s) := by
  obtain ⟨i1, i2⟩ := i
  obtain ⟨timers, field, T, log⟩ := s
  simp only at i1 i2
  subst i1
  rcases i2 with ⟨_, _, h⟩ | ⟨t, rfl, rfl, ht⟩
  · cases h
  · have : t = .armed := ht.2 rfl
    subst this
    have e : (beatSteps T.length (some .heartbeat)).foldl (step true) ⟨[.armed], some 0, T, log⟩ =
        ⟨[.armed], some 0, T ++ [⟨.heartbeat, .done⟩], log ++ [.heartbeat]⟩ := by
      simp [beatSteps, List.replicate, step, advance, refreshed]
    rw [e]
    exact ⟨rfl, .inr ⟨.armed, rfl, rfl, by simp⟩⟩

theorem publish_deadline (cfg : Beat.Cfg) (s : Beat.St) (i j : Nat) (m : Heartbeat.MType) :
    (Beat.publish cfg s j m).deadline i = if i = j then some (s.now + cfg.I) else s.deadline i := rfl

/-- What an event does to the timer of server `i` in `Model/Beat`. -/
theorem deadline_step (cfg : Beat.Cfg) (s : Beat.St) (i : Nat) (e : Beat.Ev) :
    match publishes cfg s i e with
    | none => (Beat.step cfg s e).deadline i = s.deadline i
    | some .goodbye => (Beat.step cfg s e).deadline i = none
    | some .message => ∃ x, (Beat.step cfg s e).deadline i = some x
    | some .heartbeat => (∃ y, s.deadline i = some y) ∧ ∃ x, (Beat.step cfg s e).deadline i = some x := by
  cases e with
  | tick d => rfl
  | create j => simp only [publishes, Beat.step]; split <;> rfl
  | cleanup j o => simp only [publishes, Beat.step]; split <;> rfl
  | broadcast j => simp only [publishes, Beat.step, Beat.send]; split <;> rfl
  | init j =>
    simp only [publishes, Beat.step]
    by_cases hj : j = i
    · subst hj
      by_cases hp : s.phase j = .up
      · simp [hp, publish_deadline]
      · simp [hp]
    · have hj' : ¬ i = j := fun h => hj h.symm
      by_cases hp : s.phase j = .up <;> simp [hj, hj', hp, publish_deadline]
  | request j =>
    simp only [publishes, Beat.step]
    by_cases hj : j = i
    · subst hj
      by_cases hp : s.phase j = .up
      · simp [hp, publish_deadline]
      · simp [hp]
    · have hj' : ¬ i = j := fun h => hj h.symm
      by_cases hp : s.phase j = .up <;> simp [hj, hj', hp, publish_deadline]
  | close j =>
    simp only [publishes, Beat.step]
    by_cases hj : j = i
    · subst hj
      by_cases hp : s.phase j = .up
      · simp [hp]
      · simp [hp]
    · have hj' : ¬ i = j := fun h => hj h.symm
      by_cases hp : s.phase j = .up <;> simp [hj, hj', hp, publish_deadline]
  | fire j =>
    simp only [publishes, Beat.step]
    by_cases hj : j = i
    · subst hj
      rw [if_pos rfl]
      cases hd : s.deadline j with
      | none => exact hd
      | some d =>
        dsimp only
        by_cases hn : d ≤ s.now
        · simp only [if_pos hn]; exact ⟨⟨d, rfl⟩, _, by rw [publish_deadline, if_pos rfl]⟩
        · simp only [if_neg hn]; exact hd
    · have hj' : ¬ i = j := fun h => hj h.symm
      rw [if_neg hj]
      dsimp only
      cases hd : s.deadline j with
      | none => rfl
      | some d =>
        dsimp only
        split
        · rw [publish_deadline, if_neg hj']
        · rfl
  | deliver k =>
    simp only [publishes, Beat.step]
    cases hk : s.net[k]? with
    | none => rfl
    | some p =>
      dsimp only
      have hl : ∀ j, Beat.listens cfg { s with net := s.net.eraseIdx k } j = Beat.listens cfg s j := fun _ => rfl
      simp only [Beat.receive, hl]
      by_cases h1 : Beat.listens cfg s p.dst = true
      · rw [if_pos h1]
        by_cases h2 : p.type = .initialHeartbeat
        · rw [if_pos h2]
          by_cases h3 : p.dst = i
          · subst h3
            rw [if_pos ⟨rfl, h2, h1⟩]
            exact ⟨_, by rw [publish_deadline, if_pos rfl]⟩
          · rw [if_neg (fun h => h3 h.1)]
            dsimp only
            rw [publish_deadline, if_neg (fun h => h3 h.symm)]
        · rw [if_neg h2, if_neg (fun h => h2 h.2.1)]
      · rw [if_neg h1]
        rw [if_neg]
        rintro ⟨rfl, _, h⟩
        exact h1 h

theorem beats_same {cfg : Beat.Cfg} {i : Nat} {es : List Beat.Ev} {h : List Ev} {l : List Msg} (t : BeatsInTurn cfg i es h l) :
    SameBeat ((Beat.run cfg es).deadline i) l (run true h) := by
  induction t with
  | nil => exact ⟨rfl, .inl ⟨rfl, rfl, rfl⟩⟩
  | @next es h l e _ ih =>
    rw [brun_append, show Beat.run cfg (es ++ [e]) = Beat.step cfg (Beat.run cfg es) e from by simp [Beat.run]]
    have hd := deadline_step cfg (Beat.run cfg es) i e
    cases hp : publishes cfg (Beat.run cfg es) i e with
    | none =>
      rw [hp] at hd
      dsimp only at hd
      rw [hd]
      simpa [beatSteps] using ih
    | some m =>
      rw [hp] at hd
      cases m with
      | message => obtain ⟨x, hx⟩ := hd; rw [hx]; exact same_publish ih x
      | heartbeat =>
        obtain ⟨⟨y, hy⟩, x, hx⟩ := hd
        rw [hy] at ih
        rw [hx]
        exact same_beat ih x
      | goodbye => dsimp only at hd; rw [hd]; exact same_close ih

end Verif.BeatRace
