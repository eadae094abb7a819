import Verif.Proof.CastEnd
import Verif.Proof.KickRace

/-! # A call of `DisconnectSockets` that has returned stays so -/

namespace Verif.KickRace
open Verif Verif.Spec

theorem kick_rest (s : St) (h : s.idle = true) : step s .adv = s := by
  obtain ⟨h1, h2, h3⟩ := (idle_iff s).1 h
  simp only [step, does, other, h2, h3, ne_eq, not_true_eq_false, if_false, List.foldl, Returns.cast_rest _ h1, BulkRace.reached,
    List.drop_length, List.head?_nil, Option.map_none]
  rw [← h2]

theorem kick_stays (q : List Ev) (s : St) (one : ∀ a b c, .kick a b c ∉ q) (h : s.idle = true) : (q.foldl step s).idle = true := by
  induction q generalizing s with
  | nil => exact h
  | cons e q ih =>
    refine ih _ (fun a b c hm => one a b c (List.mem_cons_of_mem _ hm)) ?_
    cases e with
    | kick a b c => exact absurd (List.mem_cons_self ..) (one a b c)
    | adv => rw [kick_rest s h]; exact h
    | room e =>
      obtain ⟨h1, h2, h3⟩ := (idle_iff s).1 h
      refine (idle_iff _).2 ?_
      simp only [step, does, other]
      by_cases hw : BulkRace.who e = 0
      · simp [hw, h1, h2, h3]
      · simp only [hw, if_false, List.foldl, CastRace.step]
        rw [Returns.th_other _ e 0 hw]
        exact ⟨h1, h2, h3⟩
    | store id | flag id | remove id | forbid id | unflag id =>
      obtain ⟨h1, h2, h3⟩ := (idle_iff s).1 h
      refine (idle_iff _).2 ?_
      simp only [step, does, other]
      repeat' split
      all_goals exact ⟨h1, h2, h3⟩

end Verif.KickRace
