import Verif.Proof.CastEnd
import Verif.Proof.JoinEnd
import Verif.Props.JoinRace

/-! # C65: calls of `Join` and closes return in the end -/

namespace Verif.Props
open Verif Verif.Spec Verif.JoinRace

/-- **C65**: a call of `Join` or a close, made after any history, returns under every schedule that goes on with it, whatever others do. -/
theorem C65_returns (rooms : List Nat) (p : List JoinRace.Ev) (c : JoinRace.Kind) (σ : Nat → JoinRace.Ev)
    (fair : AgainAndAgain (.adv (JoinRace.run rooms p).ths.length) σ) :
    ∃ n, ∀ m, n ≤ m → .returned (JoinRace.run rooms p).ths.length ∈ (JoinRace.run rooms (p ++ .call c :: firstOf σ m)).log := by
  have e : ∀ q, JoinRace.run rooms (p ++ .call c :: q) = q.foldl JoinRace.step (JoinRace.step (JoinRace.run rooms p) (.call c)) := by
    intro q; simp [JoinRace.run]
  obtain ⟨n, hn⟩ := JoinRace.call_ends σ _ fair (JoinRace.step (JoinRace.run rooms p) (.call c))
  rw [← e] at hn
  refine ⟨n, fun m hm => ?_⟩
  obtain ⟨d, rfl⟩ := Nat.exists_eq_add_of_le hm
  have hl := JoinRace.later_fold (firstOf (fun i => σ (n + i)) d) (JoinRace.run rooms (p ++ .call c :: firstOf σ n))
  rw [e (firstOf σ n), ← List.foldl_append, ← Acks.firstOf_add] at hl
  rw [e]
  refine hl.log _ ?_
  rw [← e]
  have o := JoinRace.off_run rooms (p ++ .call c :: firstOf σ n)
  obtain ⟨pc, hpc⟩ := JoinRace.kind_fold (firstOf σ n) (JoinRace.step (JoinRace.run rooms p) (.call c)) (JoinRace.run rooms p).ths.length c .check
    (by simp [JoinRace.step])
  rw [← e] at hpc
  have f := o.th _ _ _ hpc
  simp only [JoinRace.Still, hpc] at hn
  obtain ⟨b, rfl⟩ := hn.resolve_right fun h => h f
  cases c with
  | join => exact f
  | close => exact f.2

/-- **C65**: a close, made after any history, leaves the socket not connected, out of the table of its namespace and unable to join rooms, for
ever, under every schedule that goes on with it, whatever others do. -/
theorem C65_closed_in_the_end (rooms : List Nat) (p : List JoinRace.Ev) (b : Bool) (σ : Nat → JoinRace.Ev)
    (fair : AgainAndAgain (.adv (JoinRace.run rooms p).ths.length) σ) :
    ∃ n, ∀ m, n ≤ m → let s := JoinRace.run rooms (p ++ .call (.close b) :: firstOf σ m)
      s.connected = false ∧ s.registered = false ∧ s.canJoin = false := by
  obtain ⟨n, hn⟩ := C65_returns rooms p (.close b) σ fair
  refine ⟨n, fun m hm => ?_⟩
  have o := JoinRace.off_run rooms (p ++ .call (.close b) :: firstOf σ m)
  obtain ⟨c, b', h⟩ := (JoinRace.inv_run rooms (p ++ .call (.close b) :: firstOf σ m)).returned _ (hn m hm)
  obtain ⟨pc, hpc⟩ := JoinRace.kind_fold (firstOf σ m) (JoinRace.step (JoinRace.run rooms p) (.call (.close b)))
    (JoinRace.run rooms p).ths.length (.close b) .check (by simp [JoinRace.step])
  rw [show (firstOf σ m).foldl JoinRace.step (JoinRace.step (JoinRace.run rooms p) (.call (.close b))) =
    JoinRace.run rooms (p ++ .call (.close b) :: firstOf σ m) by simp [JoinRace.run], h] at hpc
  cases hpc
  have f := (o.th _ _ _ h).1
  exact ⟨f, (o.flags f).2, (o.flags f).1⟩

/-- **C65**, the part about calls that come later: a `Join` that is made when the socket cannot join rooms any more puts it in none, and
returns. -/
theorem C65_too_late (rooms : List Nat) (p : List JoinRace.Ev) (hc : (JoinRace.run rooms p).canJoin = false) (rs : List Nat)
    (σ : Nat → JoinRace.Ev) (fair : AgainAndAgain (.adv (JoinRace.run rooms p).ths.length) σ) :
    ∃ n, ∀ m, n ≤ m →
      (JoinRace.run rooms (p ++ .call (.join rs) :: firstOf σ m)).ths[(JoinRace.run rooms p).ths.length]? = some (.join rs, .done false) := by
  obtain ⟨n, hn⟩ := C65_returns rooms p (.join rs) σ fair
  refine ⟨n, fun m hm => ?_⟩
  have key : ∀ (q : List JoinRace.Ev) (s : JoinRace.St) (k : Nat), s.canJoin = false →
      (s.ths[k]? = some (.join rs, .check) ∨ s.ths[k]? = some (.join rs, .done false)) →
      ((q.foldl JoinRace.step s).ths[k]? = some (.join rs, .check) ∨ (q.foldl JoinRace.step s).ths[k]? = some (.join rs, .done false)) := by
    intro q
    induction q with
    | nil => intro s k _ h; exact h
    | cons e q ih =>
      intro s k hj h
      refine ih _ k ((JoinRace.later_step s e).canJoin hj) ?_
      have hlt : k < s.ths.length := by rcases h with h | h <;> exact (List.getElem?_eq_some_iff.1 h).1
      cases e with
      | call c => simp only [JoinRace.step]; rw [List.getElem?_append_left hlt]; exact h
      | adv j =>
        simp only [JoinRace.step, JoinRace.advance]
        cases hg : s.ths[j]? with
        | none => exact h
        | some x =>
          obtain ⟨c1, p1⟩ := x
          simp only
          rw [JoinRace.get_set _ _ _ _ _ hg]
          by_cases hjk : k = j
          · subst hjk
            rw [if_pos rfl]
            rcases h with h | h <;> rw [h] at hg <;> cases hg
            · exact .inr (by simp [JoinRace.act, hj])
            · exact .inr (by simp [JoinRace.act])
          · rw [if_neg hjk]; exact h
  have e : JoinRace.run rooms (p ++ .call (.join rs) :: firstOf σ m) =
      (firstOf σ m).foldl JoinRace.step (JoinRace.step (JoinRace.run rooms p) (.call (.join rs))) := by simp [JoinRace.run]
  have hk := key (firstOf σ m) (JoinRace.step (JoinRace.run rooms p) (.call (.join rs))) (JoinRace.run rooms p).ths.length hc
    (.inl (by simp [JoinRace.step]))
  rw [← e] at hk
  refine hk.resolve_left fun h => ?_
  obtain ⟨c, b, h'⟩ := (JoinRace.inv_run rooms (p ++ .call (.join rs) :: firstOf σ m)).returned _ (hn m hm)
  rw [h] at h'; cases h'

/-- **C65**, the part about calls that come later: once every call so far has returned and the socket cannot join rooms any more, it gets into
no further room, whatever is called after that. -/
theorem C65_no_more (rooms : List Nat) (p : List JoinRace.Ev) (hr : AllReturned (JoinRace.run rooms p))
    (hc : (JoinRace.run rooms p).canJoin = false) (q : List JoinRace.Ev) :
    ∀ r ∈ (JoinRace.run rooms (p ++ q)).rooms, r ∈ (JoinRace.run rooms p).rooms := by
  have key : ∀ (q : List JoinRace.Ev) (s : JoinRace.St), s.canJoin = false → (∀ (k : Nat) (rs : List Nat), s.ths[k]? ≠ some (JoinRace.Kind.join rs, JoinRace.PC.add)) →
      ∀ r ∈ (q.foldl JoinRace.step s).rooms, r ∈ s.rooms := by
    intro q
    induction q with
    | nil => intro s _ _ r h; exact h
    | cons e q ih =>
      intro s hj hn r hm
      have hstep : (∀ (k : Nat) (rs : List Nat), (JoinRace.step s e).ths[k]? ≠ some (JoinRace.Kind.join rs, JoinRace.PC.add)) ∧ ∀ r ∈ (JoinRace.step s e).rooms, r ∈ s.rooms := by
        cases e with
        | call c =>
          refine ⟨fun k rs h => ?_, fun r h => h⟩
          simp only [JoinRace.step] at h
          by_cases hk : k < s.ths.length
          · rw [List.getElem?_append_left hk] at h; exact hn k rs h
          · rw [List.getElem?_append_right (by omega)] at h
            cases hd : k - s.ths.length with
            | zero => rw [hd] at h; simp at h
            | succ d => rw [hd] at h; simp at h
        | adv j =>
          simp only [JoinRace.step, JoinRace.advance]
          cases hg : s.ths[j]? with
          | none => exact ⟨hn, fun r h => h⟩
          | some x =>
            obtain ⟨c, pc⟩ := x
            simp only
            constructor
            · intro k rs h
              rw [JoinRace.get_set _ _ _ _ _ hg] at h
              split at h
              · cases c <;> cases pc <;> simp only [JoinRace.act, hj] at h <;> (try split at h) <;> simp at h
                all_goals first
                  | contradiction
                  | exact hn j rs (by rw [hg, h])
              · exact hn k rs h
            · intro r h
              cases c <;> cases pc <;> simp only [JoinRace.act, hj] at h <;> (try split at h)
              all_goals first
                | exact h
                | exact absurd hg (hn j _)
                | (simp at h; done)
      exact hstep.2 r (ih _ ((JoinRace.later_step s e).canJoin hj) hstep.1 r hm)
  rw [show JoinRace.run rooms (p ++ q) = q.foldl JoinRace.step (JoinRace.run rooms p) by simp [JoinRace.run]]
  refine key q _ hc fun k rs h => ?_
  obtain ⟨c, b, h'⟩ := (JoinRace.inv_run rooms p).returned k (hr k (List.getElem?_eq_some_iff.1 h).1)
  rw [h] at h'; cases h'

/-- The hypotheses are met: the socket is closed while another goroutine joins a room, and a `Join` is made after that. -/
example : AgainAndAgain (.adv (JoinRace.run [1] [.call (.join [5]), .adv 0]).ths.length)
      (Returns.thenOn [JoinRace.Ev.adv 1, .adv 0, .call (.join [6]), .adv 2] (.adv 1)) ∧
    (JoinRace.run [1] ((.call (.close true)) :: List.replicate 8 (.adv 0))).canJoin = false ∧
    AllReturned (JoinRace.run [1] ((.call (.close true)) :: List.replicate 8 (.adv 0))) :=
  ⟨Returns.thenOn_fair _ _, by decide, by unfold AllReturned; decide⟩

end Verif.Props
