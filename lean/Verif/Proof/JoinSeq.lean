import Verif.Spec.JoinSeq
import Verif.Proof.ConnSeq

/-! # Joins and closes in turn: the fine and the coarse models -/

namespace Verif.World
open Verif Verif.Adapter Verif.Spec

theorem mem_addRooms (rs : List Nat) : ∀ (l : List Nat) (r : Nat), r ∈ JoinRace.addRooms l rs ↔ r ∈ l ∨ r ∈ rs := by
  induction rs with
  | nil => intro l r; simp [JoinRace.addRooms]
  | cons a rs ih =>
    intro l r
    rw [JoinRace.addRooms, List.foldl_cons]
    rw [show List.foldl (fun l r => if r ∈ l then l else l ++ [r]) (if a ∈ l then l else l ++ [a]) rs =
      JoinRace.addRooms (if a ∈ l then l else l ++ [a]) rs from rfl, ih]
    split
    · rename_i h
      constructor
      · rintro (h1 | h1)
        · exact .inl h1
        · exact .inr (List.mem_cons_of_mem _ h1)
      · rintro (h1 | h1)
        · exact .inl h1
        · rcases List.mem_cons.1 h1 with rfl | h1
          · exact .inl h
          · exact .inr h1
    · simp [or_assoc]

/-- A `Join` from its call to its return. -/
theorem join_steps (s : JoinRace.St) (rs : List Nat) :
    ([JoinRace.Ev.call (.join rs), .adv s.ths.length, .adv s.ths.length].foldl JoinRace.step s) =
      { s with rooms := if s.canJoin then JoinRace.addRooms s.rooms rs else s.rooms
               ths := s.ths ++ [(.join rs, .done s.canJoin)]
               log := s.log ++ [.called s.ths.length, .returned s.ths.length] } := by
  obtain ⟨a, b, c, d, e, f⟩ := s
  cases b <;> simp [JoinRace.step, JoinRace.advance, JoinRace.act]

/-- A close from its call to its return. -/
theorem close_steps (s : JoinRace.St) (b : Bool) (hc : s.connected = true) :
    ((.call (.close b) :: List.replicate 8 (JoinRace.Ev.adv s.ths.length)).foldl JoinRace.step s) =
      { connected := false, canJoin := false, registered := false, rooms := []
        ths := s.ths ++ [(.close b, .done true)]
        log := s.log ++ [.called s.ths.length, .disconnecting s.ths.length, .handled s.ths.length] ++
          (if b then [.saved s.ths.length s.rooms] else []) ++ [.disconnect s.ths.length, .returned s.ths.length] } := by
  obtain ⟨a, x, c, d, e, f⟩ := s
  simp only at hc; subst hc
  cases b <;> simp [JoinRace.step, JoinRace.advance, JoinRace.act, List.replicate]

/-- A close from its call to its return (Model/CloseRace). -/
theorem close_steps' (s : CloseRace.St) (b : Bool) (hc : s.connected = true) :
    ((.close b :: List.replicate 6 (CloseRace.Ev.adv s.ths.length)).foldl CloseRace.step s) =
      { connected := false, rooms := [], ths := s.ths ++ [(b, .done)]
        log := s.log ++ [.disconnecting s.ths.length] ++
          (if b then [.saved s.rooms] else []) ++ [.disconnect s.ths.length] } := by
  obtain ⟨a, d, e, f⟩ := s
  simp only at hc; subst hc
  cases b <;> simp [CloseRace.step, CloseRace.advance, CloseRace.act, List.replicate]

theorem sameSets_snoc {ρ : Nat → Room} {a : List (List Room)} {b : List (List Nat)} (h : SameSets ρ a b) {x : List Room} {y : List Nat}
    (hxy : ∀ r, ρ r ∈ x ↔ r ∈ y) : SameSets ρ (a ++ [x]) (b ++ [y]) := by
  obtain ⟨h1, h2⟩ := h
  refine ⟨by simp [h1], fun i u v hu hv r => ?_⟩
  rw [List.getElem?_append] at hu hv
  rw [h1] at hu
  split at hu
  · rename_i hi
    rw [if_pos hi] at hv
    exact h2 i u v hu hv r
  · rename_i hi
    rw [if_neg hi] at hv
    cases hz : i - b.length with
    | zero =>
      rw [hz] at hu hv
      simp only [List.getElem?_cons_zero, Option.some.injEq] at hu hv
      subst hu; subst hv; exact hxy r
    | succ n => rw [hz] at hu; simp at hu

variable {cfg : Cfg} {w : W} {ref : Nat} {ρ : Nat → Room}

/-- What `onclose` does to the rooms of its socket, and what it saves, if no listener interferes. -/
theorem onclose_rooms (ha : Ads w) (reason : String) (hc : (w.socks ref).connected = true) (hh : cfg.hook ref = []) :
    (onclose cfg w ref reason).socks ref = closed (w.socks ref) ∧
    ((onclose cfg w ref reason).nss (w.socks ref).ns).sockets.get? (w.socks ref).sid = none ∧
    (∀ r, r ∉ roomsOf ((onclose cfg w ref reason).nss (w.socks ref).ns).ad (w.socks ref).sid) ∧
    (onclose cfg w ref reason).log = w.log ++ [.disconnecting ref reason] ++
      (if cfg.recovery.isSome ∧ reason ∈ recoverable then [.saved ref (session w ref)] else []) ++ [.disconnect ref reason] := by
  obtain ⟨f1, f2, f3⟩ := onclose_effect cfg reason hc
  refine ⟨by rw [f1]; simp, by rw [f2]; simp, fun r => ?_, ?_⟩
  · rw [onclose_pos cfg reason hc]
    simp only [obs]
    rw [(shut_fields _ _ _).1, (closing_socks cfg w ref reason).1]
    simp only [upd_same, nsCleaned, (closing_socks cfg w ref reason).1]
    have hdel := delAll_spec (ads_closing (cfg := cfg) (ref := ref) ha reason (w.socks ref).ns) cfg.delRet (w.socks ref).sid
    rw [Delivery.mem_roomsOf hdel.1, hdel.2.1]; simp
  · rw [onclose_log cfg reason hc]
    have : session (heard cfg w ref reason) ref = session w ref := by simp [heard, hh, session, obs]
    rw [this]

end Verif.World
