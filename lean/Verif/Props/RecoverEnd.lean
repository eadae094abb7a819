import Verif.Proof.RecoverEnd
import Verif.Props.RecoverRace
import Verif.Props.Settle

/-! # C124: restoring a session comes to an end -/

namespace Verif.Props
open Verif Verif.Spec

/-- **C124**, every interleaving: a recovery that is not over has taken at most as many steps as there were packets at the beginning and
broadcasts begun since, and six more. -/
theorem C124_steps (mine : Nat → Bool) (offset : Nat) (old : List Nat) (h : List RecoverRace.Ev)
    (going : ¬RecoveryOver (RecoverRace.run mine offset old h)) : recoverySteps h ≤ old.length + (castsOf h).length + 6 := by
  have hb := RecoverRace.bounded_run mine offset old h
  have ha := hb.at_
  simp only [RecoveryOver] at going
  cases hp : (RecoverRace.run mine offset old h).rpc <;> rw [hp] at ha <;> simp only [RecoverRace.At] at ha <;> first | omega | simp [hp] at going

/-- **C124, partial**: if no more broadcasts begin, the client is let in in the end, with its session or without (or the call panics, see
`C56_panic_fail`), whatever goes on meanwhile. -/
theorem C124_in_the_end_partial (mine : Nat → Bool) (offset : Nat) (old : List Nat) (h : List RecoverRace.Ev) (σ : Nat → RecoverRace.Ev)
    (noMore : ∀ n p, σ n ≠ .cast p) (fair : AgainAndAgain .recover σ) :
    ∃ n, ∀ m, n ≤ m → RecoveryOver (RecoverRace.run mine offset old (h ++ firstOf σ m)) := by
  obtain ⟨n, hn⟩ := RecoverRace.many_steps σ fair (old.length + (castsOf h).length + 7)
  refine ⟨n, fun m hm => ?_⟩
  have over : RecoveryOver (RecoverRace.run mine offset old (h ++ firstOf σ n)) := by
    refine Classical.byContradiction fun hc => ?_
    have := C124_steps mine offset old _ hc
    rw [RecoverRace.steps_append, RecoverRace.begun_append, RecoverRace.none_begun σ noMore n] at this
    omega
  obtain ⟨d, rfl⟩ := Nat.exists_eq_add_of_le hm
  have e : RecoverRace.run mine offset old (h ++ firstOf σ (n + d)) =
      (firstOf (fun i => σ (n + i)) d).foldl (RecoverRace.step mine offset) (RecoverRace.run mine offset old (h ++ firstOf σ n)) := by
    have : firstOf σ (n + d) = firstOf σ n ++ firstOf (fun i => σ (n + i)) d := by
      simp only [firstOf, List.range_add, List.map_append, List.map_map]
      rfl
    rw [this]
    simp [RecoverRace.run]
  rw [e]
  exact RecoverRace.ended_run _ over

/-- **C124, partial**: and it is let in, if moreover the timer does not fire while the missed packets are being collected: as a new socket, or
with its session, in its rooms and in the table of the namespace. -/
theorem C124_let_in_partial (mine : Nat → Bool) (offset : Nat) (old : List Nat) (h : List RecoverRace.Ev) (σ : Nat → RecoverRace.Ev)
    (noMore : ∀ n p, σ n ≠ .cast p) (fair : AgainAndAgain .recover σ) (quiet : ∀ n, NoCleaning mine offset old (h ++ firstOf σ n)) :
    ∃ n, let s := RecoverRace.run mine offset old (h ++ firstOf σ n)
      (s.rpc = .done ∧ s.inRoom = true ∧ s.stored = true) ∨ s.rpc = .fresh := by
  obtain ⟨n, hn⟩ := C124_in_the_end_partial mine offset old h σ noMore fair
  refine ⟨n, ?_⟩
  rcases hn n (Nat.le_refl n) with h1 | h1 | h1
  · have fl := RecoverRace.flags_run (mine := mine) (offset := offset) (old := old) (h ++ firstOf σ n)
    exact .inl ⟨h1, fl.inRoom h1, fl.stored.2 h1⟩
  · exact .inr h1
  · exact absurd h1 (C56_replay_partial mine offset old _ (quiet n)).1

namespace Demo
/-- Somebody broadcasts a packet whenever the loop has reached the last one; every goroutine gets its turn. -/
def chase (n : Nat) : RecoverRace.Ev :=
  if n % 4 = 0 then .cast (n / 4 + 2)
  else if n % 4 = 1 then .adv (n / 4)
  else if n % 4 = 2 then .recover
  else .adv (n / 4 - 2 ^ (n / 4).log2)

/-- The loop has not caught up: every broadcast begun has stored its packet. -/
structure Behind (m : Nat) (s : RecoverRace.St) : Prop where
  looping : ∃ i, s.rpc = .get i ∧ i ≤ s.packets.length
  casts : s.casts.length = m
  stored : ∀ c ∈ s.casts, c.2 ≠ .push
end Demo

theorem demo_adv {m : Nat} {s : RecoverRace.St} (h : Demo.Behind m s) (k : Nat) : Demo.Behind m (RecoverRace.step (fun _ => true) 1 s (.adv k)) := by
  simp only [RecoverRace.step, RecoverRace.advance]
  cases hk : s.casts[k]? with
  | none => exact h
  | some c =>
    obtain ⟨p, pc⟩ := c
    have hp := h.stored _ (List.mem_of_getElem? hk)
    have next : ∀ c ∈ s.casts.set k (p, (RecoverRace.castStep (fun _ => true) s p pc).2), c.2 ≠ .push := by
      intro c hc
      rcases List.mem_or_eq_of_mem_set hc with hc | rfl
      · exact h.stored c hc
      · cases pc with
        | push => exact absurd rfl hp
        | room => simp only [RecoverRace.castStep]; split <;> simp
        | socket => simp [RecoverRace.castStep]
        | done => simp [RecoverRace.castStep]
    cases pc with
    | push => exact absurd rfl hp
    | room => exact ⟨h.looping, by simpa [RecoverRace.castStep] using h.casts, next⟩
    | done => exact ⟨h.looping, by simpa [RecoverRace.castStep] using h.casts, next⟩
    | socket =>
      refine ⟨?_, by simpa using h.casts, next⟩
      simp only [RecoverRace.castStep]
      split <;> exact h.looping

theorem demo_round {m : Nat} {s : RecoverRace.St} (h : Demo.Behind m s) (p k : Nat) :
    Demo.Behind (m + 1) ([RecoverRace.Ev.cast p, .adv m, .recover, .adv k].foldl (RecoverRace.step (fun _ => true) 1) s) := by
  simp only [List.foldl_cons, List.foldl_nil]
  refine demo_adv ?_ k
  obtain ⟨i, hi, hl⟩ := h.looping
  have e1 : (s.casts ++ [(p, RecoverRace.CPC.push)])[m]? = some (p, .push) := by rw [← h.casts]; simp
  have e2 : (s.casts ++ [(p, RecoverRace.CPC.push)]).set m (p, .room) = s.casts ++ [(p, .room)] := by rw [← h.casts]; simp
  simp only [RecoverRace.step, RecoverRace.advance, e1, RecoverRace.castStep, e2, hi, RecoverRace.recStep]
  have hg : i < (s.packets ++ [p]).length := by simp; omega
  rw [List.getElem?_eq_getElem hg]
  refine ⟨⟨i + 1, rfl, by simpa using hl⟩, by simp [h.casts], ?_⟩
  intro c hc
  rcases List.mem_append.1 hc with hc | hc
  · exact h.stored c hc
  · simp at hc; subst hc; simp

theorem demo_chased (m : Nat) : Demo.Behind m (RecoverRace.run (fun _ => true) 1 [1] ([.recover, .recover] ++ firstOf Demo.chase (4 * m))) := by
  induction m with
  | zero => exact ⟨⟨1, by decide, by decide⟩, by decide, by decide⟩
  | succ m ih =>
    have e : firstOf Demo.chase (4 * (m + 1)) = firstOf Demo.chase (4 * m) ++ [.cast (m + 2), .adv m, .recover, .adv (m - 2 ^ m.log2)] := by
      have h4 : 4 * (m + 1) = 4 * m + 1 + 1 + 1 + 1 := by omega
      rw [h4, Returns.firstOf_succ, Returns.firstOf_succ, Returns.firstOf_succ, Returns.firstOf_succ]
      have d0 : Demo.chase (4 * m) = .cast (m + 2) := by
        have : 4 * m % 4 = 0 := by omega
        have : 4 * m / 4 = m := by omega
        simp [Demo.chase, *]
      have d1 : Demo.chase (4 * m + 1) = .adv m := by
        have : (4 * m + 1) % 4 = 1 := by omega
        have : (4 * m + 1) / 4 = m := by omega
        simp [Demo.chase, *]
      have d2 : Demo.chase (4 * m + 1 + 1) = .recover := by
        have : (4 * m + 1 + 1) % 4 = 2 := by omega
        simp only [Demo.chase, this]; rfl
      have d3 : Demo.chase (4 * m + 1 + 1 + 1) = .adv (m - 2 ^ m.log2) := by
        have h1 : (4 * m + 1 + 1 + 1) % 4 = 3 := by omega
        have h2 : (4 * m + 1 + 1 + 1) / 4 = m := by omega
        simp only [Demo.chase, h1, h2]; rfl
      rw [d0, d1, d2, d3]
      simp
    rw [e, ← List.append_assoc]
    have : ∀ a b, RecoverRace.run (fun _ => true) 1 [1] (a ++ b) =
        b.foldl (RecoverRace.step (fun _ => true) 1) (RecoverRace.run (fun _ => true) 1 [1] a) := by
      intro a b; simp [RecoverRace.run]
    rw [this]
    exact demo_round ih _ _

theorem demo_chase_fair : AgainAndAgain .recover Demo.chase ∧ ∀ k, AgainAndAgain (.adv k) Demo.chase := by
  refine ⟨fun n => ⟨4 * n + 2, by omega, ?_⟩, fun k n => ?_⟩
  · have : (4 * n + 2) % 4 = 2 := by omega
    simp only [Demo.chase, this]; rfl
  · obtain ⟨m, hm, he⟩ := everyTurn (fun k => RecoverRace.Ev.adv k) k n
    refine ⟨4 * m + 3, by omega, ?_⟩
    have h1 : (4 * m + 3) % 4 = 3 := by omega
    have h2 : (4 * m + 3) / 4 = m := by omega
    simp only [Demo.chase, h1, h2]
    exact he

/-- **C124** is false: somebody who broadcasts as fast as the missed packets are collected keeps a client from being let in, for ever. -/
theorem C124_endless_fails : ¬ ∀ (mine : Nat → Bool) (offset : Nat) (old : List Nat) (h : List RecoverRace.Ev) (σ : Nat → RecoverRace.Ev),
    AgainAndAgain .recover σ → (∀ k, AgainAndAgain (.adv k) σ) → ∃ n, RecoveryOver (RecoverRace.run mine offset old (h ++ firstOf σ n)) := by
  intro hall
  obtain ⟨n, hn⟩ := hall (fun _ => true) 1 [1] [.recover, .recover] Demo.chase demo_chase_fair.1 demo_chase_fair.2
  obtain ⟨i, hi, _⟩ := (demo_chased n).looping
  have e : RecoverRace.run (fun _ => true) 1 [1] ([.recover, .recover] ++ firstOf Demo.chase (4 * n)) =
      (firstOf (fun i => Demo.chase (n + i)) (3 * n)).foldl (RecoverRace.step (fun _ => true) 1)
        (RecoverRace.run (fun _ => true) 1 [1] ([.recover, .recover] ++ firstOf Demo.chase n)) := by
    have : firstOf Demo.chase (4 * n) = firstOf Demo.chase n ++ firstOf (fun i => Demo.chase (n + i)) (3 * n) := by
      have h4 : 4 * n = n + 3 * n := by omega
      rw [h4]
      simp only [firstOf, List.range_add, List.map_append, List.map_map]
      rfl
    rw [this]
    simp [RecoverRace.run]
  have over := RecoverRace.ended_run (mine := fun _ => true) (o := 1) (firstOf (fun i => Demo.chase (n + i)) (3 * n)) hn
  rw [← e] at over
  simp only [RecoveryOver, hi] at over
  rcases over with h | h | h <;> cases h

/-- A case of `C124_steps`, where the bound is not far: three packets, a broadcast meanwhile. -/
example : ¬RecoveryOver (RecoverRace.run (fun _ => true) 1 [1, 2, 3] ([.cast 4, .adv 0] ++ List.replicate 9 .recover)) ∧
    recoverySteps ([.cast 4, .adv 0] ++ List.replicate 9 .recover) = 9 := by decide

/-- The hypotheses of the others are met: broadcasts under way when the recovery begins, and no more after. -/
example : (∀ n p, (fun n => if n % 2 = 0 then RecoverRace.Ev.recover else .adv (n / 2)) n ≠ .cast p) ∧
    AgainAndAgain .recover (fun n => if n % 2 = 0 then RecoverRace.Ev.recover else .adv (n / 2)) ∧
    (∀ n, NoCleaning (fun _ => true) 1 [1, 2] ([.cast 3, .clean 0, .cast 4] ++ firstOf (fun n => if n % 2 = 0 then RecoverRace.Ev.recover else .adv (n / 2)) n)) := by
  refine ⟨fun n p => ?_, fun n => ⟨2 * n, by omega, ?_⟩, fun n p k t e => ?_⟩
  · simp only []; split <;> simp
  · have : 2 * n % 2 = 0 := by omega
    simp [this]
  · have hno : ∀ k, RecoverRace.Ev.clean k ∉ firstOf (fun n => if n % 2 = 0 then RecoverRace.Ev.recover else .adv (n / 2)) n := by
      intro k hk
      simp only [firstOf, List.mem_map] at hk
      obtain ⟨a, _, ha⟩ := hk
      split at ha <;> cases ha
    match p with
    | [] => simp at e
    | [x] =>
      simp at e
      obtain ⟨rfl, _⟩ := e
      rintro (⟨i, hi⟩ | ⟨i, hi⟩) <;> simp [RecoverRace.run, RecoverRace.step] at hi
    | [_, _] => simp at e
    | _ :: _ :: _ :: p =>
      simp at e
      obtain ⟨_, _, _, e⟩ := e
      exact absurd (by rw [e]; simp) (hno k)

end Verif.Props
