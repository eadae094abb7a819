import Verif.Proof.TableEnd
import Verif.Proof.CastEnd
import Verif.Props.DynRace
import Verif.Props.FamilyRace
import Verif.Props.ListenRace

/-! # C109, C116 and C121 under schedules that forget nobody -/

namespace Verif.Props
open Verif Verif.Spec Verif.DynRace

/-- **C109**: under every schedule that goes on with what the server does for a client, whatever other clients do, a client that asks for a
dynamic namespace and does not leave is connected in the end and remains so, or is refused, which happens only if the middlewares refuse it. -/
theorem C109_answered_in_the_end (c : Cfg) (p : List Ev) (k : Nat) (fresh : (run c p).pc k = .idle) (σ : Nat → Ev)
    (stays : ∀ i, σ i ≠ .leave k) (fair : AgainAndAgain (.adv k) σ) :
    ∃ m, ∀ m', m ≤ m' →
      (∃ n, k ∈ ((run c (p ++ .connect k :: firstOf σ m')).nsp n).socks) ∨
      ((run c (p ++ .connect k :: firstOf σ m')).pc k = .gone ∧ c.admit k = false) := by
  obtain ⟨m, hm⟩ := Returns.often (.adv k) σ fair 13
  exact ⟨m, fun m' h => C109_answered c p k _ fresh
    (fun hl => by obtain ⟨i, hi⟩ := Returns.mem_firstOf hl; exact stays i hi) (hm m' h)⟩

/-- The hypotheses are met: client 1 asks while client 2 does, who is refused. -/
example :
    let σ := Returns.thenOn ([.connect 2, .adv 2] ++ dynGoes 2 3) (.adv 1)
    (run (dynStrict false) []).pc 1 = .idle ∧ (∀ i, σ i ≠ .leave 1) ∧ AgainAndAgain (.adv 1) σ := by
  refine ⟨rfl, fun i h => ?_, Returns.thenOn_fair _ _⟩
  rcases Returns.thenOn_mem h with h | h
  · cases h
  · simp [dynGoes] at h

/-- **C116**, partial as `C116_reached_partial`: under every schedule that goes on with the call, everybody that is connected from its beginning
on gets the event in the end. -/
theorem C116_reached_in_the_end_partial (c : DynRace.Cfg) (p : List FamilyRace.Ev) (begins : (FamilyRace.run c p).pc = .idle)
    (σ : Nat → FamilyRace.Ev) (one : ∀ i, σ i ≠ .emit) (fair : AgainAndAgain .adv σ)
    (safe : c.cleanup = false ∨ ∀ n, DynInTurn c (dynPart (p ++ .emit :: firstOf σ n))) (k : Nat)
    (all : ∀ n, DynConnected (FamilyRace.run c (p ++ .emit :: firstOf σ n)) k) :
    ∃ n, k ∈ gotEvent c p (firstOf σ n) := by
  obtain ⟨n, hn⟩ := C116_returns c p σ fair
  exact ⟨n, C116_reached_partial c p _ ⟨begins, hn, fun h => by obtain ⟨i, hi⟩ := Returns.mem_firstOf h; exact one i hi⟩
    (safe.imp id fun h => h n) k fun q₁ q₂ e => by rw [Returns.prefix_firstOf e]; exact all _⟩

theorem family_rest (c : DynRace.Cfg) (s : FamilyRace.St) (h : s.pc = .idle) : FamilyRace.step c s .adv = s := by
  simp [FamilyRace.step, FamilyRace.act, h]

/-- The hypotheses are met: an event is sent through the parent while the third client comes. -/
example :
    let c := { dynLax with cleanup := false }
    let σ := Returns.thenOn [.adv, .dyn (.adv 3), .adv, .adv] FamilyRace.Ev.adv
    (FamilyRace.run c Demo.famKin).pc = .idle ∧ (∀ i, σ i ≠ .emit) ∧ AgainAndAgain .adv σ ∧ c.cleanup = false ∧
    ∀ n, DynConnected (FamilyRace.run c (Demo.famKin ++ .emit :: firstOf σ n)) 2 := by
  have t := famThroughout_of (c := { dynLax with cleanup := false }) (p := Demo.famKin) (q := [.adv, .dyn (.adv 3), .adv, .adv])
    (k := 2) (n := 0) (by decide)
  have e : ∀ q, FamilyRace.run { dynLax with cleanup := false } (Demo.famKin ++ .emit :: q) =
      q.foldl (FamilyRace.step { dynLax with cleanup := false }) (FamilyRace.run { dynLax with cleanup := false } (Demo.famKin ++ [.emit])) := by
    intro q
    rw [show Demo.famKin ++ .emit :: q = (Demo.famKin ++ [.emit]) ++ q by simp]
    simp [FamilyRace.run, List.foldl_append]
  refine ⟨by decide, fun i h => ?_, Returns.thenOn_fair _ _, rfl, fun n => ?_⟩
  · rcases Returns.thenOn_mem h with h | h
    · cases h
    · simp at h
  · rw [e]
    exact Returns.thenOn_always (FamilyRace.step { dynLax with cleanup := false }) _ _ .adv (family_rest _ _ (by decide))
      (fun s => DynConnected s 2) (fun a b hab => by rw [← e]; exact t a b hab) n

open Verif.Listeners in
/-- **C121**, partial as `C121_throughout_partial`: under every schedule that goes on with the goroutine of the event, a listener that is
registered a number of times from the event on is called that often in the end, whatever else is registered and removed. -/
theorem C121_throughout_in_the_end_partial (code : Nat → Nat) (p : List ListenRace.Ev) (k : Kind) (i : Nat) (args : List Val)
    (σ : Nat → ListenRace.Ev) (fair : AgainAndAgain (.adv (eventsOf p)) σ)
    (hcode : ∀ n, ListenDistinct code (p ++ .event k i args :: firstOf σ n)) (l times : Nat)
    (all : ∀ n, (listening k i (listenEdits (p ++ firstOf σ n))).count l = times) :
    ∃ n, Notified (eventsOf p) (ListenRace.run code (p ++ .event k i args :: firstOf σ n)) ∧
      (calledBy (eventsOf p) (ListenRace.run code (p ++ .event k i args :: firstOf σ n))).count (l, args) = times := by
  obtain ⟨n, hn⟩ := C121_returns code p k i args σ fair
  exact ⟨n, hn, C121_throughout_partial code p k i args _ (hcode n) hn l times
    fun q₁ ⟨q₂, e⟩ => by rw [Returns.prefix_firstOf e.symm]; exact all _⟩

theorem edits_fold (q p : List ListenRace.Ev) :
    q.foldl (fun acc e => acc ++ listenEdits [e]) (listenEdits p) = listenEdits (p ++ q) := by
  induction q generalizing p with
  | nil => simp
  | cons e q ih =>
    rw [List.foldl_cons, ← ListenRace.edits_append, ih]
    simp

/-- The hypotheses are met: listener 1 stays, while 2 is removed, 3 registered and another event comes. -/
example :
    let σ := Returns.thenOn Demo.listenQ (.adv 0)
    AgainAndAgain (.adv (eventsOf Demo.listenP)) σ ∧
    (∀ n, ListenDistinct id (Demo.listenP ++ .event .incoming 0 [.str "x"] :: firstOf σ n)) ∧
    ∀ n, (listening .incoming 0 (listenEdits (Demo.listenP ++ firstOf σ n))).count 1 = 1 := by
  have t : RegisteredThroughout .incoming 0 1 1 Demo.listenP Demo.listenQ := registeredThroughout_of (by decide)
  refine ⟨Returns.thenOn_fair _ _, fun n _ _ _ _ h => h, fun n => ?_⟩
  rw [← edits_fold]
  exact Returns.thenOn_always (fun acc e => acc ++ listenEdits [e]) (listenEdits Demo.listenP) Demo.listenQ (.adv 0) (by simp [listenEdits])
    (fun o => (listening .incoming 0 o).count 1 = 1) (fun a b e => by rw [edits_fold]; exact t a ⟨b, e.symm⟩) n

end Verif.Props
