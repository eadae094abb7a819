import Verif.Model.RoomRace

/-! # Concurrent joins and leaves -/

namespace Verif.Spec
open Verif.RoomRace

/-- Socket `id` is reached by broadcasts to room `r`. -/
def InRoom (s : RoomRace.St) (id r : Nat) : Prop := ∃ t, s.rooms r = some t ∧ id ∈ s.rset t

/-- Room `r` is among the rooms of socket `id`. -/
def HasRoom (s : RoomRace.St) (id r : Nat) : Prop := ∃ x, s.sids id = some x ∧ r ∈ s.sset x

/-- Nobody is in a call. -/
def Quiet (s : RoomRace.St) : Prop := ∀ k, (s.th k).2 = .done

/-- Whether socket `id` should be in room `r`, by the calls made for it, most recent first: the last one that says something about
the room decides. -/
def shouldBe (id r : Nat) : List RoomRace.Ev → Bool
  | [] => false
  | .call _ i c :: h =>
    if i = id then
      match c with
      | .join rs => decide (r ∈ rs) || shouldBe id r h
      | .leave r' => decide (r ≠ r') && shouldBe id r h
      | .leaveAll => false
    else shouldBe id r h
  | .adv _ :: h => shouldBe id r h

/-- The calls for each socket are made one after the other: a call for a socket is only made by a free goroutine while no call for
that socket is under way.  Calls for different sockets overlap as they like. -/
def OneByOne (h : List RoomRace.Ev) : Prop :=
  ∀ p k id c t, h = p ++ .call k id c :: t → ((RoomRace.run p).th k).2 = .done ∧
    ∀ k', ((RoomRace.run p).th k').1 = id → ((RoomRace.run p).th k').2 = .done

/-- No call takes socket `id` out of room `r`; it may leave other rooms. -/
def NeverLeaves (id r : Nat) (h : List RoomRace.Ev) : Prop :=
  ∀ k c, RoomRace.Ev.call k id c ∈ h → (∃ rs, c = .join rs) ∨ ∃ r', c = .leave r' ∧ r' ≠ r

/-- A free goroutine made a call by which socket `id` joins room `r`. -/
def Joins (h : List RoomRace.Ev) (id r : Nat) : Prop :=
  ∃ p k rs q, h = p ++ .call k id (.join rs) :: q ∧ ((RoomRace.run p).th k).2 = .done ∧ r ∈ rs

/-- The call may take its socket out of room `r`. -/
def mayLeave (r : Nat) : RoomRace.PC → Bool
  | .d0 c | .d1 _ c | .d2 c | .d3 c _ => c == r
  | .a0 | .a1 _ | .a2 _ | .e2 _ _ | .e3 _ _ _ | .e4 _ _ _ | .e5 _ _ => true
  | _ => false

/-- The rooms that a call under way is about to join. -/
def joining : RoomRace.PC → List Nat
  | .j0 rs => rs
  | .j1 _ rs => rs
  | .j2 _ r rs => r :: rs
  | .j3 _ r _ rs => r :: rs
  | .j4 _ r _ rs => r :: rs
  | _ => []

/-- Goroutine `k`, being free after `p`, calls the adapter for socket `id`, and the call has returned at the end of `q`. -/
structure Returned (p : List RoomRace.Ev) (k id : Nat) (c : RoomRace.Call) (q : List RoomRace.Ev) : Prop where
  free : ((RoomRace.run p).th k).2 = .done
  back : ((RoomRace.run (p ++ .call k id c :: q)).th k).2 = .done

/-- What holds at every moment from the beginning of the call until the end of `q`. -/
def Throughout (p : List RoomRace.Ev) (k id : Nat) (c : RoomRace.Call) (q : List RoomRace.Ev) (P : RoomRace.St → Prop) : Prop :=
  ∀ q₁ q₂, q = q₁ ++ q₂ → P (RoomRace.run (p ++ .call k id c :: q₁))

end Verif.Spec
