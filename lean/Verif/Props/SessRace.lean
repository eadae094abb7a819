import Verif.Proof.SessRace

/-! # C111: the table of the saved sessions -/

namespace Verif.Props
open Verif Verif.Spec Verif.SessRace

theorem sess_prefixes {P : List Ev → Prop} (h : List Ev) (all : ∀ k, k < h.length + 1 → P (h.take k)) (h₁ : List Ev) (hp : h₁ <+: h) : P h₁ := by
  rw [List.prefix_iff_eq_take.1 hp]
  exact all _ (Nat.lt_succ_of_le hp.length_le)

def sessSavedB (max : Nat) (h : List Ev) (pid : Nat) : Bool :=
  match h.getLast? with
  | some (.adv k) => match (run max h.dropLast).tasks[k]? with
    | some (.store v _ _) => v == pid
    | _ => false
  | _ => false

theorem sess_saved (max : Nat) (h : List Ev) (pid n t : Nat) (hs : SessSaved max h pid n t) : sessSavedB max h pid = true := by
  obtain ⟨a, k, rfl, hk⟩ := (saved_iff max _ _ _ _).1 hs
  simp [sessSavedB, hk]

/-- Partial: if no goroutine had looked at an earlier session of the client and not finished with it when the new one was saved (see
`C111_swept_fails`, `C111_dropped_fails`).  From the moment a session has been saved until its time is up, unless the client saves another,
everybody who asks for it gets it: whatever other sessions are saved and asked for, and however often the timer fires. -/
theorem C111_restored_partial (max : Nat) (p q : List Ev) (pid n t : Nat) (saved : SessSaved max p pid n t) (free : SessFree (run max p) pid)
    (quiet : SessQuiet max pid p q) (young : (run max (p ++ q)).now ≤ t + max)
    (k : Nat) (later : (run max p).tasks.length ≤ k) (res : Option Nat) (returned : (run max (p ++ q)).tasks[k]? = some (.got pid res)) :
    res = some n :=
  (fresh_run max p q pid n t saved free quiet young).got k later res returned

/-- Clients 7 and 8 with a timer that fires meanwhile. -/
example :
    let p : List Ev := [.persist 7 1, .adv 0, .adv 0, .tick 11, .timer [8, 7], .adv 1, .persist 7 2, .adv 2, .adv 2]
    let q : List Ev := [.adv 1, .adv 1, .tick 5, .persist 8 3, .restore 7, .adv 3, .adv 4, .adv 3, .tick 5, .adv 4]
    SessSaved 10 p 7 2 11 ∧ SessFree (run 10 p) 7 ∧ SessQuiet 10 7 p q ∧ (run 10 (p ++ q)).now = 21 ∧
      (run 10 (p ++ q)).tasks[4]? = some (.got 7 (some 2)) ∧ (run 10 p).tasks.length = 3 := by
  refine ⟨⟨[.persist 7 1, .adv 0, .adv 0, .tick 11, .timer [8, 7], .adv 1, .persist 7 2], [], 2, by decide, by decide, by decide, by decide⟩, ?_, ?_,
    by decide, by decide, by decide⟩
  · have : (run 10 [.persist 7 1, .adv 0, .adv 0, .tick 11, .timer [8, 7], .adv 1, .persist 7 2, .adv 2, .adv 2]).tasks =
      [.saved, .visit 11 [8, 7], .saved] := by decide
    simp [SessFree, this]
  · refine sess_prefixes _ fun j hj hne n t hr => ?_
    have := sess_saved 10 _ 7 n t hr
    clear hr; revert this hne; revert j; decide

/-- A session that a client is given was saved under the private id it showed, and its time was not up at the moment it was looked at. -/
theorem C111_valid (max : Nat) (h : List Ev) (k pid n : Nat) (returned : (run max h).tasks[k]? = some (.got pid (some n))) :
    ∃ a b t, h = a ++ .adv k :: b ∧ (run max a).now ≤ t + max ∧ ∃ h₁, h₁ <+: a ∧ SessSaved max h₁ pid n t := by
  obtain ⟨a, b, t, rfl, hk, hn⟩ := got_run max h k pid n returned
  exact ⟨a, b, t, rfl, hn, (known_run max a).2 k pid n t hk⟩

/-- If the time of all that was saved under a private id is up when the timer fires, none is kept when its function returns, unless another is
saved meanwhile. -/
theorem C111_cleaned (max pid : Nat) (p : List Ev) (order : List Nat) (q : List Ev) (listed : pid ∈ order)
    (old : ∀ h₁, h₁ <+: p → ∀ n t, SessSaved max h₁ pid n t → t + max < (run max p).now) (quiet : SessQuiet max pid (p ++ [.timer order]) q)
    (start : Nat) (returned : (run max (p ++ .timer order :: q)).tasks[(run max p).tasks.length]? = some (.visit start [])) :
    (run max (p ++ .timer order :: q)).tab pid = none := by
  obtain ⟨c, hc, h⟩ := cleaned_inv max pid p order q listed
    (fun n t ht => let ⟨h₁, h, hs⟩ := (known_run max p).1 pid n t ht; old h₁ h n t hs) quiet
  rw [returned] at hc; cases hc
  rcases h with h | ⟨_, _, _, _, ha⟩
  · exact h
  · cases ha.2

example :
    let p : List Ev := [.persist 7 1, .adv 0, .adv 0, .tick 6, .persist 8 2, .adv 1, .adv 1, .tick 5]
    let q : List Ev := [.adv 2, .restore 7, .adv 2, .adv 3, .adv 2, .adv 2]
    (∀ h₁, h₁ <+: p → ∀ n t, SessSaved 10 h₁ 7 n t → t + 10 < (run 10 p).now) ∧ SessQuiet 10 7 (p ++ [.timer [7, 8]]) q ∧
      (run 10 (p ++ .timer [7, 8] :: q)).tasks[(run 10 p).tasks.length]? = some (.visit 11 []) ∧
      (run 10 (p ++ .timer [7, 8] :: q)).tab 8 = some (2, 6) := by
  refine ⟨?_, ?_, by decide, by decide⟩
  · refine sess_prefixes _ fun j hj n t hr => ?_
    have := sess_saved 10 _ 7 n t hr
    have h3 : j = 3 := by clear hr; revert this; revert j; decide
    subst h3
    obtain ⟨a, k, e, hk⟩ := (saved_iff 10 _ _ _ _).1 hr
    have e' : a ++ [.adv k] = [.persist 7 1, .adv 0] ++ [.adv 0] := e.symm
    obtain ⟨rfl, e''⟩ := List.append_inj' e' rfl
    cases e''
    have h : (run 10 [.persist 7 1, .adv 0]).tasks[0]? = some (.store 7 1 0) := by decide
    rw [h] at hk; cases hk; decide
  · refine sess_prefixes _ fun j hj hne n t hr => ?_
    have := sess_saved 10 _ 7 n t hr
    clear hr; revert this hne; revert j; decide

/-- Nothing else is removed: a session leaves the table only when another of the same client is saved or by a goroutine that has found a
session of this client to be too old. -/
theorem C111_only (max : Nat) (h : List Ev) (e : Ev) (pid : Nat) (x : Nat × Nat) (before : (run max h).tab pid = some x)
    (after : (run max (h ++ [e])).tab pid = none) :
    ∃ k a b n t, e = .adv k ∧ h = a ++ .adv k :: b ∧ t + max < (run max a).now ∧ ∃ h₁, h₁ <+: a ∧ SessSaved max h₁ pid n t := by
  rw [run_snoc] at after
  rcases tab_step max (run max h) e pid with h' | ⟨_, _, _, _, _, h'⟩ | ⟨_, k, rfl, h'⟩
  · rw [h', before] at after; cases after
  · rw [h'] at after; cases after
  · obtain ⟨a, b, n, t, rfl, h1, h2⟩ := doomed_run max h k pid h'
    exact ⟨k, a, b, n, t, rfl, rfl, h1, h2⟩

example :
    let h : List Ev := [.persist 7 1, .adv 0, .adv 0, .tick 11, .restore 7, .adv 1, .adv 1]
    (run 10 h).tab 7 = some (1, 0) ∧ (run 10 (h ++ [.adv 1])).tab 7 = none := by decide

/-- The client of private id 7 was saved at time 0 and came back (its session stays in the table).  At 11 the timer finds that old session;
the client leaves, its new session is saved; the timer removes what is saved under the id; the client comes back at once. -/
def sessSwept : List Ev :=
  [.persist 7 1, .adv 0, .adv 0, .tick 11, .timer [7], .adv 1, .adv 1, .persist 7 2, .adv 2, .adv 2]

/-- False in the code: a session saved at this very moment is not found. -/
theorem C111_swept_fails :
    SessSaved 10 sessSwept 7 2 11 ∧ (run 10 (sessSwept ++ [.adv 1, .restore 7, .adv 3])).now = 11 ∧
      (run 10 (sessSwept ++ [.adv 1, .restore 7, .adv 3])).tasks[3]? = some (.got 7 none) :=
  ⟨⟨sessSwept.dropLast.dropLast, [], 2, by decide, by decide, by decide, by decide⟩, by decide, by decide⟩

/-- The same with somebody who asks for the old session. -/
def sessDropped : List Ev :=
  [.persist 7 1, .adv 0, .adv 0, .tick 11, .restore 7, .adv 1, .persist 7 2, .adv 2, .adv 2]

/-- False in the code, without the timer. -/
theorem C111_dropped_fails :
    SessSaved 10 sessDropped 7 2 11 ∧ (run 10 (sessDropped ++ [.adv 1, .adv 1, .restore 7, .adv 3])).now = 11 ∧
      (run 10 (sessDropped ++ [.adv 1, .adv 1, .restore 7, .adv 3])).tasks[3]? = some (.got 7 none) :=
  ⟨⟨sessDropped.dropLast.dropLast, [], 2, by decide, by decide, by decide, by decide⟩, by decide, by decide⟩

end Verif.Props
