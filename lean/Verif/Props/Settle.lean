import Verif.Proof.Settle
import Verif.Props.Writer
import Verif.Props.Acks

/-! # C31, C35: the calls return -/

namespace Verif.Props
open Verif Verif.Spec

/-- **C31**: the calls do return, and the packet is sent.  However many goroutines have called the acknowledgement function of an event: if no
goroutine is forgotten by the scheduler, all calls return in the end, and an ACK packet has been sent if there was a call. -/
theorem C31_returns (nsp : String) (id : Nat) (h : List Once.Ev) (σ : Nat → Once.Ev) (noMore : ∀ n args, σ n ≠ .call args)
    (fair : ∀ k, AgainAndAgain (.adv k) σ) :
    ∃ n, (∀ (k : Nat) (args : List Val) (pc : Once.Pc), (Once.run (Once.ackPkt nsp id) (h ++ firstOf σ n)).calls[k]? = some (args, pc) → pc = .returned) ∧
      ((Once.run (Once.ackPkt nsp id) h).calls ≠ [] → (Once.run (Once.ackPkt nsp id) (h ++ firstOf σ n)).sent ≠ []) := by
  obtain ⟨n, hn⟩ := Settle.once_settles (Once.ackPkt nsp id) σ noMore fair (Once.run (Once.ackPkt nsp id) h)
  have hr : (firstOf σ n).foldl (Once.step (Once.ackPkt nsp id)) (Once.run (Once.ackPkt nsp id) h) =
      Once.run (Once.ackPkt nsp id) (h ++ firstOf σ n) := by simp [Once.run]
  rw [hr] at hn
  have hi := Once.inv_run (Once.ackPkt nsp id) (h ++ firstOf σ n)
  have mono : (Once.run (Once.ackPkt nsp id) h).calls.length ≤ (Once.run (Once.ackPkt nsp id) (h ++ firstOf σ n)).calls.length := by
    rw [← hr]
    generalize Once.run (Once.ackPkt nsp id) h = s
    generalize firstOf σ n = t
    induction t generalizing s with
    | nil => exact Nat.le_refl _
    | cons e t ih =>
      refine Nat.le_trans ?_ (ih _)
      cases e with
      | call args => simp [Once.step]
      | adv k =>
        simp only [Once.step]
        split
        · rename_i a pc hc
          cases pc <;> simp only [Once.advCall]
          · split <;> simp
          · simp
          · simp
          · exact Nat.le_refl _
        · exact Nat.le_refl _
  have free : ∀ (k : Nat) (args : List Val) (pc : Once.Pc), (Once.run (Once.ackPkt nsp id) (h ++ firstOf σ n)).calls[k]? = some (args, pc) →
      (∃ j, (Once.run (Once.ackPkt nsp id) (h ++ firstOf σ n)).once = .running j) ∨ pc = .returned := by
    intro k args pc hk
    have := hn k
    simp only [Settle.onceIdle, hk] at this
    cases pc with
    | start => exact .inl this
    | returned => exact .inr rfl
    | inside => exact this.elim
    | written => exact this.elim
  refine ⟨n, ?_, ?_⟩
  · intro k args pc hk
    rcases free k args pc hk with ⟨j, hj⟩ | h'
    · cases hi with
      | fresh h' => rw [h'] at hj; cases hj
      | done k' a h' => rw [h'] at hj; cases hj
      | inside k' a h' sent me => have := hn k'; simp only [Settle.onceIdle, me] at this
      | written k' a h' sent me => have := hn k'; simp only [Settle.onceIdle, me] at this
    · exact h'
  · intro hne
    cases hi with
    | fresh h' sent all =>
      have hpos := List.length_pos_iff.2 hne
      obtain ⟨c, hc⟩ : ∃ c, (Once.run (Once.ackPkt nsp id) (h ++ firstOf σ n)).calls[0]? = some c :=
        ⟨_, List.getElem?_eq_getElem (by omega)⟩
      obtain ⟨args, pc⟩ := c
      have hs := all 0 args pc hc
      rcases free 0 args pc hc with ⟨j, hj⟩ | h2
      · rw [h'] at hj; cases hj
      · rw [hs] at h2; cases h2
    | inside k' a h' sent me => have := hn k'; simp only [Settle.onceIdle, me] at this
    | written k' a h' sent me => rw [sent]; simp
    | done k' a h' sent => rw [sent]; simp

/-- **C35**: the writes do end.  However many goroutines write to a connection, and whatever becomes of the transport meanwhile: if no goroutine
is forgotten by the scheduler, every write is finished or dropped in the end. -/
theorem C35_returns (h : List Writer.Ev) (σ : Nat → Writer.Ev) (noMore : ∀ n j, σ n ≠ .write j) (fair : ∀ k, AgainAndAgain (.adv k) σ) :
    ∃ n, ∀ (k : Nat) (j : Writer.Job) (pc : Writer.Pc), (Writer.run (h ++ firstOf σ n)).jobs[k]? = some (j, pc) → pc = .done ∨ ∃ d, pc = .dropped d := by
  obtain ⟨n, hn⟩ := Settle.write_settles σ noMore fair (Writer.run h)
  have hr : (firstOf σ n).foldl Writer.step (Writer.run h) = Writer.run (h ++ firstOf σ n) := by simp [Writer.run]
  rw [hr] at hn
  exact ⟨n, fun k j pc hk => C35_all_written _ (fun k => Settle.write_same _ k (hn k)) k j pc hk⟩

/-- Every number comes again and again: 0, 0 1, 0 1 2 3, ... -/
theorem everyTurn {E : Type} (adv : Nat → E) (k : Nat) : AgainAndAgain (adv k) fun n => adv (n - 2 ^ n.log2) := by
  intro n
  have hk : k < 2 ^ k := Nat.lt_two_pow_self
  have hn : n < 2 ^ n := Nat.lt_two_pow_self
  have h1 : 2 ^ k ≤ 2 ^ (k + n) := Nat.pow_le_pow_right (by decide) (by omega)
  have h2 : 2 ^ n ≤ 2 ^ (k + n) := Nat.pow_le_pow_right (by decide) (by omega)
  refine ⟨2 ^ (k + n) + k, by omega, ?_⟩
  have : (2 ^ (k + n) + k).log2 = k + n := (Nat.log2_eq_iff (by omega)).2 ⟨by omega, by rw [Nat.pow_succ]; omega⟩
  simp [this]

example : (∀ k, AgainAndAgain (.adv k) fun n => Once.Ev.adv (n - 2 ^ n.log2)) ∧ (∀ n args, Once.Ev.adv (n - 2 ^ n.log2) ≠ .call args) ∧
    (Once.run (Once.ackPkt "/" 3) [.call [Val.str "a"], .call [Val.str "b"], .adv 1, .adv 0]).calls ≠ [] :=
  ⟨everyTurn _, by simp, by decide⟩

example : (∀ k, AgainAndAgain (.adv k) fun n => Writer.Ev.adv (n - 2 ^ n.log2)) ∧ (∀ n j, Writer.Ev.adv (n - 2 ^ n.log2) ≠ .write j) :=
  ⟨everyTurn _, by simp⟩

end Verif.Props
