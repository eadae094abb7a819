import Verif.Proof.JoinSeq
import Verif.Props.RoomSeq

/-! # C65, C49: calls that do not overlap are those of the model of the whole server -/

namespace Verif.Props
open Verif Verif.Spec

/-- **C65**: a `Join` that overlaps with nothing does step by step what `Model/World` does at once. -/
theorem C65_join_in_turn (ρ : Nat → Room) (hρ : ∀ a b, ρ a = ρ b → a = b) (cfg : World.Cfg) (h : List World.Ev) (ref : Nat)
    (s : JoinRace.St) (hr : ref < (World.run cfg h).nSock) (hs : SameJoins ρ (World.run cfg h) ref s) (rs : List Nat) :
    SameJoins ρ (World.run cfg (h ++ [.join ref (rs.map ρ)])) ref
      ([JoinRace.Ev.call (.join rs), .adv s.ths.length, .adv s.ths.length].foldl JoinRace.step s) := by
  rw [show World.run cfg (h ++ [.join ref (rs.map ρ)]) = World.step cfg (World.run cfg h) (.join ref (rs.map ρ)) from by simp [World.run]]
  have ha : World.Ads (World.run cfg h) := (World.inv_run cfg h).1.ad
  generalize World.run cfg h = w at *
  simp only [World.step, World.act, if_pos hr]
  rw [World.join_steps]
  have hj := World.join_in ha ref (rs.map ρ) ref
  have hks : (World.join w ref (rs.map ρ)).socks = w.socks := by unfold World.join; split <;> rfl
  have hlog : (World.join w ref (rs.map ρ)).log = w.log := by unfold World.join; split <;> rfl
  have hreg : ((World.join w ref (rs.map ρ)).nss (w.socks ref).ns).sockets = (w.nss (w.socks ref).ns).sockets := by
    unfold World.join; split
    · exact World.upd_proj _ _ _ _ World.Ns.sockets rfl
    · rfl
  refine ⟨by rw [hks]; exact hs.connected, by rw [hks]; exact hs.canJoin, by rw [hks, hreg]; exact hs.registered, fun r => ?_, ?_⟩
  · have h1 := World.mem_own (hj (ρ r)).1 ref (ρ r)
    rw [h1, (hj (ρ r)).2, ← World.mem_own ha, hs.rooms, hs.canJoin]
    by_cases hc : (w.socks ref).canJoin = true
    · simp only [hc, if_true, true_and]
      rw [World.mem_addRooms]
      refine or_congr Iff.rfl ⟨fun hm => ?_, fun hm => List.mem_map.2 ⟨r, hm, rfl⟩⟩
      obtain ⟨a, h2, h3⟩ := List.mem_map.1 hm
      rw [← hρ a r h3]; exact h2
    · simp [hc]
  · rw [hlog]
    simpa using hs.saved

/-- **C65**: a close that overlaps with nothing does step by step what `Model/World` does at once; `b`: the reason allows recovery. -/
theorem C65_close_in_turn (ρ : Nat → Room) (cfg : World.Cfg) (h : List World.Ev) (ref : Nat) (reason : String) (b : Bool)
    (s : JoinRace.St) (hs : SameJoins ρ (World.run cfg h) ref s) (hc : s.connected = true) (hh : cfg.hook ref = [])
    (hb : b = true ↔ cfg.recovery.isSome = true ∧ reason ∈ World.recoverable) :
    SameJoins ρ (World.onclose cfg (World.run cfg h) ref reason) ref
      ((.call (.close b) :: List.replicate 8 (JoinRace.Ev.adv s.ths.length)).foldl JoinRace.step s) := by
  have ha : World.Ads (World.run cfg h) := (World.inv_run cfg h).1.ad
  generalize World.run cfg h = w at *
  obtain ⟨h1, h2, h3, h4⟩ := World.onclose_rooms ha reason (by rw [← hs.connected]; exact hc) hh
  rw [World.close_steps s b hc]
  refine ⟨by rw [h1]; rfl, by rw [h1]; rfl, ?_, fun r => ?_, ?_⟩
  · rw [h1]; simp only [World.closed]; rw [h2]; simp
  · rw [h1]; simp only [World.closed]
    exact ⟨fun hm => absurd hm (h3 _), fun hm => by cases hm⟩
  · rw [h4]
    have h5 := hs.saved
    cases b with
    | false =>
      rw [if_neg (fun hp => by have := hb.2 hp; cases this)]
      simpa [savedOf] using h5
    | true =>
      rw [if_pos (hb.1 rfl)]
      have h6 := World.sameSets_snoc h5 (x := (World.session w ref).rooms) (y := s.rooms) hs.rooms
      simpa [savedOf] using h6

/-- **C49**: the same, with the events. -/
theorem C49_in_turn (ρ : Nat → Room) (cfg : World.Cfg) (h : List World.Ev) (ref : Nat) (reason : String) (b : Bool)
    (s : CloseRace.St) (hs : SameCloses ρ (World.run cfg h) ref s) (hc : s.connected = true) (hh : cfg.hook ref = [])
    (hb : b = true ↔ cfg.recovery.isSome = true ∧ reason ∈ World.recoverable) :
    SameCloses ρ (World.onclose cfg (World.run cfg h) ref reason) ref
      ((.close b :: List.replicate 6 (CloseRace.Ev.adv s.ths.length)).foldl CloseRace.step s) := by
  have ha : World.Ads (World.run cfg h) := (World.inv_run cfg h).1.ad
  generalize World.run cfg h = w at *
  obtain ⟨h1, h2, h3, h4⟩ := World.onclose_rooms ha reason (by rw [← hs.connected]; exact hc) hh
  rw [World.close_steps' s b hc]
  have hd := hs.disconnects
  have hd' := hs.disconnectings
  refine ⟨by rw [h1]; rfl, fun r => ?_, ?_, ?_, ?_⟩
  · rw [h1]; simp only [World.closed]
    exact ⟨fun hm => absurd hm (h3 _), fun hm => by cases hm⟩
  · rw [h4]
    have h5 := hs.saved
    cases b with
    | false =>
      rw [if_neg (fun hp => by have := hb.2 hp; cases this)]
      simpa [savedOf, savedRooms] using h5
    | true =>
      rw [if_pos (hb.1 rfl)]
      have h6 := World.sameSets_snoc h5 (x := (World.session w ref).rooms) (y := s.rooms) hs.rooms
      simpa [savedOf, savedRooms] using h6
  · rw [h4]
    simp only [List.countP_append, ← hd]
    simp only [disconnects, List.filter_append, List.length_append]
    split <;> split <;> simp [List.filter_cons, isDisconnect]
  · rw [h4]
    simp only [List.countP_append, ← hd']
    simp only [disconnectings, List.filter_append, List.length_append]
    split <;> split <;> simp [List.filter_cons, isDisconnecting]

/-- A server that keeps sessions; its first socket has id "i", the name of room 1. -/
def Demo.joinCfg : World.Cfg :=
  { newSid := fun n => if n = 0 then "i" else "b", newPid := fun _ => "p", connId := fun _ => "c", recovery := some ({ max := 10, yeast := fun _ => "y" }, false) }

def Demo.joinHist : List World.Ev := [.accept false, .recv 0 .connect "/" none, .task 0, .join 0 ["iii"]]

/-- Non-vacuity: a connected socket in its own room and in room 3; the connection closes with a reason that allows recovery. -/
example : SameJoins Demo.tally (World.run Demo.joinCfg Demo.joinHist) 0 { rooms := [3, 1] } ∧
    SameCloses Demo.tally (World.run Demo.joinCfg Demo.joinHist) 0 { rooms := [3, 1] } ∧
    0 < (World.run Demo.joinCfg Demo.joinHist).nSock ∧ Demo.joinCfg.hook 0 = [] ∧
    (Demo.joinCfg.recovery.isSome = true ∧ "transport close" ∈ World.recoverable) := by
  have e : Adapter.roomsOf ((World.run Demo.joinCfg Demo.joinHist).nss ((World.run Demo.joinCfg Demo.joinHist).socks 0).ns).ad
      ((World.run Demo.joinCfg Demo.joinHist).socks 0).sid = [Demo.tally 3, Demo.tally 1] := by decide
  have hr : ∀ r, Demo.tally r ∈ [Demo.tally 3, Demo.tally 1] ↔ r ∈ [3, 1] := fun r => by
    simp only [List.mem_cons, List.not_mem_nil, or_false]
    exact ⟨fun h => h.imp (Demo.tally_inj _ _) (Demo.tally_inj _ _), by rintro (rfl | rfl) <;> simp⟩
  have hl : savedOf 0 (World.run Demo.joinCfg Demo.joinHist).log = [] := by decide
  refine ⟨⟨by decide, by decide, by decide, by rw [e]; exact hr, ?_⟩, ⟨by decide, by rw [e]; exact hr, ?_, by decide, by decide⟩, by decide, by decide, by decide⟩
  · rw [hl]; exact ⟨rfl, fun i x y hx _ => by simp at hx⟩
  · rw [hl]; exact ⟨rfl, fun i x y hx _ => by simp at hx⟩

end Verif.Props
