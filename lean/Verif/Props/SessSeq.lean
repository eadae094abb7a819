import Verif.Proof.SessSeq

/-! # C111: if nothing overlaps, the table is that of Model/Session -/

namespace Verif.Props
open Verif Verif.Spec Verif.SessRace

/-- The same sessions are saved, with the same times, in `Model/SessRace` and in `Model/Session`; `name` gives the private ids and
`sess pid n` is the session that is number `n` under the private id `pid`. -/
def SameSessions (name : Nat → Session.Pid) (sess : Nat → Nat → Session.Sess) (s : SessRace.St) (t : Session.St) : Prop :=
  ∀ pid, t.sessions.get? (name pid) = (s.tab pid).map (fun x => (sess pid x.1, (x.2 : Int)))

/-- **C111**: a session that is saved while nothing else happens is saved as the call does it at once in `Model/Session`. -/
theorem C111_persist_in_turn (M : Nat) (name : Nat → Session.Pid) (inj : ∀ u v, name u = name v → u = v)
    (sess : Nat → Nat → Session.Sess) (pids : ∀ p n, (sess p n).pid = name p) (s : SessRace.St) (t : Session.St)
    (same : SameSessions name sess s t) (pid n : Nat) :
    SameSessions name sess ((.persist pid n :: List.replicate 2 (.adv s.tasks.length)).foldl (SessRace.step M) s)
      (Session.persist s.now (sess pid n) t) := by
  intro w
  rw [persist_end, World.upd_apply]
  simp only [Session.persist, pids]
  by_cases hw : w = pid
  · subst hw; simp
  · rw [FMap.get?_insert_ne (fun h => hw (inj _ _ h).symm), same w]; simp [hw]

/-- **C111**: a client that asks for its session while nothing else happens leaves the table as the call does at once in `Model/Session`;
and if it is given none here, then it is refused there, and if it is given one here, then that is the session that it gets there, unless
its offset is not known or its missed packets cannot be gathered. -/
theorem C111_restore_in_turn (c : Session.Cfg) (M : Nat) (hM : c.max = M) (name : Nat → Session.Pid) (inj : ∀ u v, name u = name v → u = v)
    (sess : Nat → Nat → Session.Sess) (s : SessRace.St) (t : Session.St)
    (same : SameSessions name sess s t) (pid : Nat) (offset : String) :
    let s' := (.restore pid :: List.replicate 3 (.adv s.tasks.length)).foldl (SessRace.step M) s
    SameSessions name sess s' (Session.restore c s.now (name pid) offset t).1 ∧
    ((s'.tasks = s.tasks ++ [.got pid none] ∧ (Session.restore c s.now (name pid) offset t).2 = .none) ∨
     ∃ n, s'.tasks = s.tasks ++ [.got pid (some n)] ∧
      ((∃ ps, Session.afterOffset offset t.packets = some ps ∧
          ((∃ missed, Session.collect (sess pid n).rooms ps = some missed ∧
              (Session.restore c s.now (name pid) offset t).2 = .ok (sess pid n) missed) ∨
           (Session.collect (sess pid n).rooms ps = none ∧ (Session.restore c s.now (name pid) offset t).2 = .panic))) ∨
       (Session.afterOffset offset t.packets = none ∧ (Session.restore c s.now (name pid) offset t).2 = .none))) := by
  have e := restore_end M s pid
  simp only at e ⊢
  generalize (.restore pid :: List.replicate 3 (.adv s.tasks.length)).foldl (SessRace.step M) s = s' at e ⊢
  have sp := same pid
  cases ht : s.tab pid with
  | none =>
    simp only [ht] at e
    simp only [ht, Option.map_none] at sp
    simp only [Session.restore, sp]
    refine ⟨fun w => by rw [e.1]; exact same w, Or.inl ⟨e.2, trivial⟩⟩
  | some x =>
    obtain ⟨n, d⟩ := x
    simp only [ht] at e
    simp only [ht, Option.map_some] at sp
    simp only [Session.restore, sp]
    by_cases hx : d + M < s.now
    · rw [if_pos hx] at e
      have hx' : (d : Int) + c.max < s.now := by rw [hM]; omega
      rw [if_pos hx']
      refine ⟨fun w => ?_, Or.inl ⟨e.2, rfl⟩⟩
      rw [e.1, World.upd_apply]
      by_cases hw : w = pid
      · subst hw; simp
      · simp only
        rw [FMap.get?_erase_ne (fun h => hw (inj _ _ h).symm), same w]; simp [hw]
    · rw [if_neg hx] at e
      have hx' : ¬ (d : Int) + c.max < s.now := by rw [hM]; omega
      rw [if_neg hx']
      cases ha : Session.afterOffset offset t.packets with
      | none => exact ⟨fun w => by rw [e.1]; exact same w, Or.inr ⟨n, e.2, Or.inr ⟨rfl, rfl⟩⟩⟩
      | some ps =>
        cases hc : Session.collect (sess pid n).rooms ps with
        | none =>
          simp only [hc]
          exact ⟨fun w => by rw [e.1]; exact same w, Or.inr ⟨n, e.2, Or.inl ⟨ps, rfl, Or.inr ⟨hc, trivial⟩⟩⟩⟩
        | some missed =>
          simp only [hc]
          exact ⟨fun w => by rw [e.1]; exact same w, Or.inr ⟨n, e.2, Or.inl ⟨ps, rfl, Or.inl ⟨missed, hc, rfl⟩⟩⟩⟩

/-- **C111**: the clean-up timer, if it visits all saved sessions and nothing else happens, removes the sessions that the call removes at
once in `Model/Session`. -/
theorem C111_timer_in_turn (c : Session.Cfg) (M : Nat) (hM : c.max = M) (name : Nat → Session.Pid)
    (sess : Nat → Nat → Session.Sess) (s : SessRace.St) (t : Session.St) (once : t.sessions.keys.Nodup)
    (same : SameSessions name sess s t) (order : List Nat) (all : ∀ u, s.tab u ≠ none → u ∈ order) :
    SameSessions name sess ((.timer order :: List.replicate (2 * order.length + 1) (.adv s.tasks.length)).foldl (SessRace.step M) s)
      (Session.tick c s.now t) := by
  intro w
  rw [timer_end]
  simp only [Session.tick, Session.pruneSessions]
  rw [Session.get?_filter _ once, same w]
  cases hs : s.tab w with
  | none => simp
  | some x =>
    rw [if_pos (all w (by simp [hs]))]
    by_cases hx : s.now ≤ x.2 + M
    · have : ¬ ((x.2 : Int) < s.now - c.max) := by rw [hM]; omega
      simp [Option.filter, hx, this]
    · have : ((x.2 : Int) < s.now - c.max) := by rw [hM]; omega
      simp [Option.filter, hx, this]

/-- Such names exist, and the two models can start from the same table: here a session of a client that left at time 4. -/
example :
    let name : Nat → Session.Pid := fun u => String.ofList (List.replicate u 'x')
    let sess : Nat → Nat → Session.Sess := fun p n => ⟨toString n, name p, ["r"], none⟩
    let s : SessRace.St := { now := 9, tab := fun u => if u = 1 then some (5, 4) else none }
    let t : Session.St := { sessions := [("x", (⟨"5", "x", ["r"], none⟩, 4))] }
    (∀ u v, name u = name v → u = v) ∧ (∀ p n, (sess p n).pid = name p) ∧ SameSessions name sess s t ∧ t.sessions.keys.Nodup ∧
      (∀ u, s.tab u ≠ none → u ∈ [1]) := by
  refine ⟨fun u v h => ?_, fun _ _ => rfl, fun u => ?_, by decide, fun u hu => ?_⟩
  · have := congrArg (fun s => s.toList.length) h
    simp at this; exact this
  · by_cases hu : u = 1
    · subst hu; decide
    · have : "x" ≠ String.ofList (List.replicate u 'x') := by
        intro h
        have := congrArg (fun s => s.toList.length) h
        simp at this; exact hu this.symm
      simp only [hu, if_false, FMap.get?]
      simp [this]
  · by_cases h : u = 1
    · simp [h]
    · simp [h] at hu

end Verif.Props
