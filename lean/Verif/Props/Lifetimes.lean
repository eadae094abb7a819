import Verif.Proof.Lifetimes

/-! # C112: what is left of namespaces and adapters that are no longer used -/

namespace Verif.Props
open Verif Verif.Spec Verif.Lifetimes

/-- Partial: without recovery, and if adapters are replaced only while they are idle (see the theorems below).  An adapter that still
cleans up or sends heartbeats is the adapter of a namespace that the server lists. -/
theorem C112_used_partial (k : Kind) (h : List Op) (plain : k ≠ .recovery ∧ .use .recovery ∉ h) (swaps : SwapsIdle k h)
    (i : Nat) (a : Adp) (made : (run k h).adps[i]? = some a) (busy : Busy a) : InUse (run k h) i :=
  (tidy_run k h plain.1 plain.2 swaps).used i a made busy

/-- Partial likewise.  When the server has been closed no adapter that it ever had has a timer running. -/
theorem C112_closed_partial (k : Kind) (h : List Op) (plain : k ≠ .recovery ∧ .use .recovery ∉ h) (swaps : SwapsIdle k h)
    (i : Nat) (a : Adp) (made : (run k (h ++ [.close])).adps[i]? = some a) : ¬ Busy a := by
  rw [run_snoc] at made
  exact closed_idle _ (tidy_run k h plain.1 plain.2 swaps) i a made

/-- Two namespaces with heartbeats, one of which comes and goes. -/
example :
    let h : List Op := [.use .heartbeat, .of 0, .of 1, .publish 0, .publish 1, .remove 1, .of 2, .of 1]
    SwapsIdle .plain h ∧ .use .recovery ∉ h ∧ (run .plain h).nsps = [(0, 0), (2, 2), (1, 3)] ∧
      (run .plain h).adps.map (fun a => decide (Busy a)) = [true, false, true, true] ∧
      (run .plain (h ++ [.close])).adps.map (fun a => decide (Busy a)) = [false, false, false, false] := by
  refine ⟨?_, by decide, by decide, by decide, by decide⟩
  intro h₁ k' hp i hi a ha
  have : h₁ = [] := by
    cases h₁ with
    | nil => rfl
    | cons x h₁ =>
      have h1 : Op.use k' ∈ [Op.of 0, .of 1, .publish 0, .publish 1, .remove 1, .of 2, .of 1] := by
        obtain ⟨r, hr⟩ := hp
        simp only [List.cons_append, List.cons.injEq] at hr
        rw [← hr.2]; simp
      simp at h1
  subst this
  simp [run] at ha

/-- False in the code: an adapter with recovery keeps its timer, with all its sessions and packets, for as long as the program runs. -/
theorem C112_recovery_stays (k : Kind) (h t : List Op) (i : Nat) (a : Adp) (made : (run k h).adps[i]? = some a)
    (recovery : a.kind = .recovery) : (run k (h ++ t)).adps[i]? = some a ∧ a.cleaning = true := by
  refine ⟨recovery_run k h t i a made recovery, ?_⟩
  rw [recovery_made k h a (List.mem_of_getElem? made) recovery]; rfl

/-- In particular there may be any number of timers of namespaces that were removed as empty, though the server lists none. -/
theorem C112_removed_fails (n : Nat) :
    (run .recovery (comeAndGo n)).nsps = [] ∧ ((run .recovery (comeAndGo n)).adps.filter (fun a => Busy a)).length = n := by
  obtain ⟨h1, _, h3⟩ := come_and_go n
  refine ⟨h1, ?_⟩
  rw [h3, List.filter_eq_self.2 fun a ha => ?_, List.length_replicate]
  rw [List.eq_of_mem_replicate ha]; decide

/-- The same for `Close`. -/
theorem C112_closed_fails : ∃ a ∈ (run .recovery [.of 0, .close]).adps, Busy a :=
  ⟨make .recovery, by decide, by decide⟩

/-- False in the code: an adapter with heartbeats that was replaced sends heartbeats for ever, also after the server has been closed, so
that the other servers go on counting it. -/
theorem C112_replaced_fails :
    let h : List Op := [.of 0, .publish 0, .use .heartbeat, .close]
    (∃ a, (run .heartbeat h).adps[0]? = some a ∧ a.beating = true) ∧ ¬ InUse (run .heartbeat h) 0 := by
  refine ⟨⟨{ kind := .heartbeat, cleaning := true, beating := true }, by decide, rfl⟩, ?_⟩
  rintro ⟨n, hn⟩
  have : (run .heartbeat [.of 0, .publish 0, .use .heartbeat, .close]).nsps = [(0, 1)] := by decide
  rw [this] at hn
  simp at hn

end Verif.Props
