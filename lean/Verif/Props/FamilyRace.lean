import Verif.Proof.FamilyRace
import Verif.Proof.Returns
import Verif.Props.DynRace

/-! # C116: an event sent through a parent namespace while its children come and go -/

namespace Verif.Props
open Verif Verif.Spec Verif.FamilyRace

/-- Part of C116, under every interleaving: nobody gets the event twice. -/
theorem C116_once (c : DynRace.Cfg) (p q : List FamilyRace.Ev) : (gotEvent c p q).Nodup :=
  (once_run c (p ++ .emit :: q)).gotNodup

/-- Part of C116, under every interleaving: who gets the event was let pass by the middlewares of the parent, and was connected at some time
during the call. -/
theorem C116_only (c : DynRace.Cfg) (p q : List FamilyRace.Ev) (w : WholeFamily c p q) (k : Nat) (hk : k ∈ gotEvent c p q) :
    c.admit k = true ∧ ∃ q₁ q₂, q = q₁ ++ q₂ ∧ DynConnected (FamilyRace.run c (p ++ .emit :: q₁)) k :=
  got_from c p q w.begins w.one k hk

/-- **C116**, the part that holds: without the option, or if clients do not come and go at the same moment (as in C109), everybody that is
connected from the beginning of the call until it has returned gets the event. -/
theorem C116_reached_partial (c : DynRace.Cfg) (p q : List FamilyRace.Ev) (w : WholeFamily c p q)
    (safe : c.cleanup = false ∨ DynInTurn c (dynPart (p ++ .emit :: q))) (k : Nat) (all : DynConnectedThroughout c p q k) :
    k ∈ gotEvent c p q := by
  have h := coming_run c p q k w.begins w.one (fun q₁ q₂ hq n hn => by
    rw [run_dyn] at hn ⊢
    rcases safe with hc | ht
    · exact (C109_kept_partial c hc _ k n hn).2.1
    · refine (C109_ordered_partial c _ (fun h₁ h₂ he => ht h₁ (h₂ ++ dynPart q₂) ?_) k n hn).2.2.1
      rw [← List.append_assoc, ← he, hq]
      simp [dynPart]) all
  simp only [Coming, w.ends] at h
  exact h

/-- Part of C116: the call returns, whatever the clients do meanwhile, if its goroutine goes on being scheduled. -/
theorem C116_returns (c : DynRace.Cfg) (p : List FamilyRace.Ev) (σ : Nat → FamilyRace.Ev) (fair : AgainAndAgain .adv σ) :
    ∃ n, (FamilyRace.run c (p ++ .emit :: firstOf σ n)).pc = .idle := by
  obtain ⟨n, h⟩ := Returns.ends (step c) (fun s => s.pc = .idle) .adv (fun s => left s.pc) Returns.Lex2 Returns.lex2_wf
    (fun s h => by
      simp only [step, act]
      split
      · next e => exact absurd e h
      · next e => exact .inr (by rw [e]; exact Prod.Lex.left _ _ (by decide))
      · exact .inl rfl
      · next e => exact .inr (by rw [e]; exact Prod.Lex.right _ (by simp)))
    (fun s e he h => by
      cases e with
      | dyn e => exact .inr rfl
      | emit => exact .inr (by simp only [step]; rw [if_neg h])
      | adv => exact absurd rfl he) σ fair (FamilyRace.run c (p ++ [.emit]))
  refine ⟨n, ?_⟩
  rw [show p ++ .emit :: firstOf σ n = (p ++ [.emit]) ++ firstOf σ n by simp]
  simpa [FamilyRace.run, List.foldl_append] using h

/-- Two clients are connected, a third is about to come. -/
def Demo.famKinDyn : List DynRace.Ev := [.connect 1] ++ dynGoes 1 7 ++ [.connect 2] ++ dynGoes 2 5 ++ [.connect 3]
def Demo.famKin : List FamilyRace.Ev := Demo.famKinDyn.map .dyn

/-- All is settled but client 2 is in a namespace that was removed at the moment it came (`C109_orphan_fails`). -/
def Demo.famOrphanedDyn : List DynRace.Ev :=
  [.connect 1] ++ dynGoes 1 7 ++ [.connect 2, .adv 2, .adv 2, .leave 1] ++ dynGoes 1 5 ++ dynGoes 2 2
def Demo.famOrphaned : List FamilyRace.Ev := Demo.famOrphanedDyn.map .dyn

/-- Client 2 comes and is refused, the namespace is cleaned up, client 1 comes, for whom it is made anew. -/
def Demo.famAgainDyn : List DynRace.Ev := [.connect 2] ++ dynGoes 2 11 ++ [.connect 1] ++ dynGoes 1 7
def Demo.famAgain : List FamilyRace.Ev := Demo.famAgainDyn.map .dyn

/-- For schedules that can be looked at one by one. -/
theorem famThroughout_of {c : DynRace.Cfg} {p q : List FamilyRace.Ev} {k n : Nat}
    (h : ∀ i, i < q.length + 1 → k ∈ ((FamilyRace.run c (p ++ .emit :: q.take i)).dyn.nsp n).socks) : DynConnectedThroughout c p q k := by
  intro q₁ q₂ e
  refine ⟨n, ?_⟩
  have := h q₁.length (by rw [e, List.length_append]; omega)
  rwa [e, List.take_left] at this

/-- The hypotheses hold here: an event is sent through the parent while the third client comes, and the others get it. -/
example : WholeFamily { dynLax with cleanup := false } Demo.famKin [.adv, .dyn (.adv 3), .adv, .adv] ∧
    DynConnectedThroughout { dynLax with cleanup := false } Demo.famKin [.adv, .dyn (.adv 3), .adv, .adv] 1 ∧
    DynConnectedThroughout { dynLax with cleanup := false } Demo.famKin [.adv, .dyn (.adv 3), .adv, .adv] 2 ∧
    gotEvent { dynLax with cleanup := false } Demo.famKin [.adv, .dyn (.adv 3), .adv, .adv] = [1, 2] :=
  ⟨⟨by decide, by decide, by decide⟩, famThroughout_of (n := 0) (by decide), famThroughout_of (n := 0) (by decide), by decide⟩

set_option maxRecDepth 20000 in
/-- And with the option: client 2 comes and is refused, the namespace is cleaned up, client 1 comes, and gets the event. -/
example : WholeFamily (dynStrict false) Demo.famAgain [.adv, .adv, .adv] ∧
    DynInTurn (dynStrict false) (dynPart (Demo.famAgain ++ .emit :: [.adv, .adv, .adv])) ∧
    DynConnectedThroughout (dynStrict false) Demo.famAgain [.adv, .adv, .adv] 1 ∧
    gotEvent (dynStrict false) Demo.famAgain [.adv, .adv, .adv] = [1] := by
  refine ⟨⟨by decide, by decide, by decide⟩, ?_, famThroughout_of (n := 1) (by decide), by decide⟩
  rw [show dynPart (Demo.famAgain ++ .emit :: [.adv, .adv, .adv]) = Demo.famAgainDyn by decide]
  exact dynTurns_of (dynStrict false) [2, 1] Demo.famAgainDyn (by intro k hk; simp [Demo.famAgainDyn, dynGoes] at hk ⊢; omega) (by decide)

/-- **C116 fails** with the option: a client that came at the moment its namespace was found empty is connected, all the time, and an event
sent through the parent long after that does not reach it, though nothing happens meanwhile. -/
theorem C116_orphan_fails : ∃ p q k, WholeFamily dynLax p q ∧ DynSettled (FamilyRace.run dynLax p).dyn ∧ (∀ e ∈ q, e = .adv) ∧
    DynConnectedThroughout dynLax p q k ∧ k ∉ gotEvent dynLax p q := by
  refine ⟨Demo.famOrphaned, [.adv, .adv], 2, ⟨by decide, by decide, by decide⟩, ?_, by decide, famThroughout_of (n := 0) (by decide), by decide⟩
  intro k
  by_cases h1 : k = 1
  · subst h1; right; right; decide
  · by_cases h2 : k = 2
    · subst h2; right; left; exact ⟨0, by decide⟩
    · left
      rw [run_dyn, show dynPart Demo.famOrphaned = Demo.famOrphanedDyn by decide]
      exact DynRace.idle_run _ _ _ (by simp [Demo.famOrphanedDyn, dynGoes, h1, h2])

end Verif.Props
