import Verif.Proof.NodeSeq

/-! # C110: if nothing overlaps, the table is that of Model/Heartbeat -/

namespace Verif.Props
open Verif Verif.Spec Verif.NodeRace

/-- The same servers are known, with the same times, in `Model/NodeRace` and in `Model/Heartbeat`; `name` gives the servers their ids. -/
def SameNodes (name : Nat → Heartbeat.Uid) (s : NodeRace.St) (t : Heartbeat.St) : Prop := ∀ u, t.nodes.get? (name u) = s.seen u

/-- **C110**: a message that is handled while nothing else happens does to the table what the call does at once in `Model/Heartbeat`. -/
theorem C110_message_in_turn (T : Nat) (self : Heartbeat.Uid) (name : Nat → Heartbeat.Uid) (inj : ∀ u v, name u = name v → u = v)
    (others : ∀ u, name u ≠ self ∧ name u ≠ Heartbeat.EMITTER) (s : NodeRace.St) (t : Heartbeat.St) (same : SameNodes name s t)
    (u : Nat) (m : Heartbeat.MType) :
    SameNodes name ((.msg u (m = .close) :: List.replicate 3 (.onMsg s.msgs.length)).foldl (NodeRace.step T) s)
      (Heartbeat.onMessage self t (name u) m s.now) := by
  intro w
  obtain ⟨_, _, h, _⟩ := message_end T s u (m = .close)
  rw [h, Heartbeat.onMessage_get self t (name u) m s.now (name w) (others w).1 (others w).2, World.upd_apply]
  by_cases hw : w = u
  · subst hw; simp
  · have : name u ≠ name w := fun h => hw (inj _ _ h).symm
    simp [hw, this, same w]

/-- **C110**: so does a clean-up, if it visits all servers known. -/
theorem C110_cleanup_in_turn (T : Nat) (name : Nat → Heartbeat.Uid) (s : NodeRace.St) (t : Heartbeat.St) (same : SameNodes name s t)
    (order : List Nat) (all : ∀ u, s.seen u ≠ none → u ∈ order) (order' : List Heartbeat.Uid) :
    SameNodes name ((.clean order :: List.replicate (2 * order.length + 1) (.onClean s.cleans.length)).foldl (NodeRace.step T) s)
      (Heartbeat.cleanup T t s.now order') := by
  intro w
  obtain ⟨_, _, _, h⟩ := clean_end T s order
  rw [h, Heartbeat.cleanup_get, same w]
  by_cases hw : w ∈ order
  · rw [if_pos hw]
  · rw [if_neg hw]
    have : s.seen w = none := by
      cases hs : s.seen w with
      | none => rfl
      | some x => exact absurd (all w (by simp [hs])) hw
    simp [this]

/-- Such names exist. -/
example :
    let name : Nat → Heartbeat.Uid := fun u => String.ofList (List.replicate (u + 20) 'x')
    (∀ u v, name u = name v → u = v) ∧ (∀ u, name u ≠ "me" ∧ name u ≠ Heartbeat.EMITTER) ∧ SameNodes name {} {} := by
  refine ⟨fun u v h => ?_, fun u => ⟨fun h => ?_, fun h => ?_⟩, fun _ => rfl⟩
  · have := congrArg (fun s => s.toList.length) h
    simp at this; exact this
  · have := congrArg (fun s => s.toList.length) h
    simp at this
  · have := congrArg (fun s => s.toList.length) h
    simp [Heartbeat.EMITTER] at this

/-- The two models agree on a message and a clean-up that removes another server. -/
example :
    let s : NodeRace.St := { now := 11, seen := fun u => if u = 0 then some 0 else none }
    let t : Heartbeat.St := { nodes := [("s0", 0)] }
    SameNodes (fun u => if u = 0 then "s0" else "s" ++ String.ofList (List.replicate u '1')) s t ∧ ∀ u, s.seen u ≠ none → u ∈ [0] := by
  refine ⟨?_, ?_⟩
  · intro u
    by_cases hu : u = 0
    · subst hu; rfl
    · have : ("s" ++ String.ofList (List.replicate u '1')) ≠ "s0" := by
        obtain ⟨v, rfl⟩ : ∃ v, u = v + 1 := ⟨u - 1, by omega⟩
        intro h
        have := congrArg String.toList h
        simp [List.replicate_succ] at this
      simp only [hu, if_false, FMap.get?]
      simp
      exact fun h => this h.symm
  · intro u hu
    by_cases h : u = 0
    · simp [h]
    · simp [h] at hu

end Verif.Props
