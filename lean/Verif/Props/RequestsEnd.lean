import Verif.Proof.RequestsEnd
import Verif.Props.Heartbeat
import Verif.Props.Settle

/-! # C41: whoever asks other servers hears in the end -/

namespace Verif.Props
open Verif Verif.Spec Verif.Heartbeat

/-- **C41**, every interleaving of any number of answers: once every server asked has answered, the callback is called in the end, and with the
whole answer of each of them, provided that no goroutine is forgotten by the scheduler. -/
theorem C41_in_the_end_partial (missing : List Uid) (here : List Val) (h : List RequestsConc.Ev) (ne : missing ≠ [])
    (answered : ∀ u ∈ missing, ∃ l, .respond u l ∈ h) (σ : Nat → RequestsConc.Ev) (noMore : ∀ n u l, σ n ≠ .respond u l)
    (fair : ∀ k, AgainAndAgain (.adv k) σ) :
    ∃ n, ∃ c ∈ (RequestsConc.run missing here (h ++ firstOf σ n)).calls, ∀ u ∈ missing, ∃ l, .respond u l ∈ h ∧ l <:+: c := by
  obtain ⟨n, hn⟩ := RequestsConc.resp_settles σ noMore fair (RequestsConc.run missing here h)
  have e1 : (firstOf σ n).foldl RequestsConc.step (RequestsConc.run missing here h) = RequestsConc.run missing here (h ++ firstOf σ n) := by
    simp [RequestsConc.run]
  rw [e1] at hn
  have h1 := C41_called_partial missing here (h ++ firstOf σ n) ne
    (fun u hu => by obtain ⟨l, hl⟩ := answered u hu; exact ⟨l, List.mem_append_left _ hl⟩) hn
  refine ⟨n, ?_⟩
  cases hc : (RequestsConc.run missing here (h ++ firstOf σ n)).calls with
  | nil => rw [hc] at h1; simp at h1
  | cons c cs =>
    refine ⟨c, List.mem_cons_self, fun u hu => ?_⟩
    obtain ⟨l, h2, h3⟩ := (C41_values missing here (h ++ firstOf σ n) c (by rw [hc]; exact List.mem_cons_self)).1 u hu
    refine ⟨l, ?_, h3⟩
    rcases List.mem_append.1 h2 with h2 | h2
    · exact h2
    · simp only [firstOf, List.mem_map] at h2
      obtain ⟨i, _, hi⟩ := h2
      exact absurd hi (noMore i u l)

/-- The hypotheses are met by two servers, one of which answers twice. -/
example : let h : List RequestsConc.Ev := [.respond "a" [.str "1"], .adv 0, .respond "b" [], .respond "a" [.str "2"], .adv 2]
    (["a", "b"] : List Uid) ≠ [] ∧ (∀ u ∈ (["a", "b"] : List Uid), ∃ l, RequestsConc.Ev.respond u l ∈ h) ∧
    (∀ k, AgainAndAgain (.adv k) fun n => RequestsConc.Ev.adv (n - 2 ^ n.log2)) ∧ ∀ n u l, RequestsConc.Ev.adv (n - 2 ^ n.log2) ≠ .respond u l := by
  refine ⟨by simp, ?_, everyTurn _, by simp⟩
  intro u hu
  simp only [List.mem_cons, List.not_mem_nil, or_false] at hu
  rcases hu with rfl | rfl
  · exact ⟨[.str "1"], by simp⟩
  · exact ⟨[], by simp⟩

end Verif.Props
