import Verif.Proof.WorldAgree
import Verif.Props.Lifecycle

/-! # C98: client and server agree on which sockets are connected -/

namespace Verif.Props
open Verif Verif.Adapter Verif.Spec Verif.World

/-- **C98, reasons**: if a socket has ended though the connection of its client is open, then it was disconnected by the program, or
the server was closed, or its client had left the namespace. -/
theorem C98_reason (cfg : World.Cfg) (h : List World.Ev) (r : Nat) (hn : NextOnceFor cfg h r) (reason : String)
    (hd : Obs.disconnect r reason ∈ (run cfg h).log) (ho : ((run cfg h).clients ((run cfg h).socks r).client).conn = .opened) :
    reason = "server namespace disconnect" ∨ (reason = "server shutting down" ∧ Ev.serverClose ∈ h) ∨
    (reason = "client namespace disconnect" ∧ HasLeft cfg h r) :=
  (end_run hn).why reason hd ho

/-- **C98, server to client**: the client of a connected socket was told so, and was not told otherwise. -/
theorem C98_server (cfg : World.Cfg) (h : List World.Ev) (r : Nat) (hn : NextOnceFor cfg h r) (he : EngineReasons cfg h)
    (hc : ((run cfg h).socks r).connected = true) : ToldConnect r (run cfg h).log ∧ ¬ ToldDisconnect r (run cfg h).log := by
  refine ⟨(end_run hn).told ?_, ?_⟩
  · rw [mem_life, ((invR_run cfg h r hn).life.1 hc).2]; simp
  · rintro ⟨p, hp, ht⟩
    have hf := (bye_run hn he).on (.inl hc)
    obtain ⟨o, ho, e⟩ := List.mem_filterMap.1 hp
    cases o <;> simp only [packetOf] at e <;> try cases e
    case packet c ref q =>
      split at e
      · rename_i hr
        injection e with e
        subst e
        have : byeOf r (.packet c ref q) ≠ none := by simp [byeOf, hr, ht]
        exact this (List.filterMap_eq_nil_iff.1 hf _ ho)
      · cases e

/-- **C98, client to server**: as long as the connection is open and the server has not been closed, a socket whose client was told
that it is connected, was not told otherwise and has not left is connected. -/
theorem C98_client (cfg : World.Cfg) (h : List World.Ev) (r : Nat) (hn : NextOnceFor cfg h r) (he : EngineReasons cfg h)
    (ho : ((run cfg h).clients ((run cfg h).socks r).client).conn = .opened) (hs : Ev.serverClose ∉ h) (hl : ¬ HasLeft cfg h r)
    (ht : ToldConnect r (run cfg h).log) (hd : ¬ ToldDisconnect r (run cfg h).log) : ((run cfg h).socks r).connected = true := by
  have hc : Obs.connection r ∈ (run cfg h).log := Classical.byContradiction fun hc => by
    obtain ⟨p, hp, t⟩ := ht
    exact hc ((shown_run cfg h r).2 p hp t)
  refine Classical.byContradiction fun hnc => ?_
  have hnc : ((run cfg h).socks r).connected = false := by simpa using hnc
  have hlife := (invR_run cfg h r hn).life
  rw [mem_life] at hc
  cases hj : ((run cfg h).socks r).canJoin with
  | true => rw [hlife.2.1 hnc hj] at hc; simp at hc
  | false =>
    rcases hlife.2.2 hnc hj with q | ⟨reason, q⟩
    · rw [q] at hc; simp at hc
    · have hm : Life.disconnect reason ∈ life r (run cfg h).log := by rw [q]; simp [ending]
      obtain ⟨o, hom, e⟩ := List.mem_filterMap.1 hm
      cases o <;> simp only [lifeOf] at e <;> try cases e
      all_goals split at e <;> try cases e
      rename_i hr
      rw [hr] at hom
      rcases C98_reason cfg h r hn reason hom ho with q | ⟨-, q⟩ | ⟨-, q⟩
      · subst q
        have hmem : Bye.ended "server namespace disconnect" ∈ farewell r (run cfg h).log :=
          List.mem_filterMap.2 ⟨_, hom, by simp [byeOf]⟩
        rcases (bye_run hn he).off with f | f | ⟨reason', f, g⟩
        · rw [f] at hmem; simp at hmem
        · have htold : Bye.told ((run cfg h).socks r).client ((run cfg h).nss ((run cfg h).socks r).ns).name ∈ farewell r (run cfg h).log := by
            rw [f]; exact List.mem_cons_self
          obtain ⟨o, hom', e⟩ := List.mem_filterMap.1 htold
          cases o <;> simp only [byeOf] at e <;> try cases e
          all_goals split at e <;> try cases e
          rename_i c ref p hp
          exact hd ⟨p, List.mem_filterMap.2 ⟨_, hom', by simp [packetOf, hp.1]⟩, hp.2⟩
        · rw [f] at hmem
          simp at hmem
          exact g hmem.symm ho
      · exact hs q
      · exact hl q

/-- **C98**: both together. -/
theorem C98_agree (cfg : World.Cfg) (h : List World.Ev) (r : Nat) (hn : NextOnceFor cfg h r) (he : EngineReasons cfg h)
    (ho : ((run cfg h).clients ((run cfg h).socks r).client).conn = .opened) (hs : Ev.serverClose ∉ h) (hl : ¬ HasLeft cfg h r) :
    ((run cfg h).socks r).connected = true ↔ ToldConnect r (run cfg h).log ∧ ¬ ToldDisconnect r (run cfg h).log :=
  ⟨C98_server cfg h r hn he, fun ⟨a, b⟩ => C98_client cfg h r hn he ho hs hl a b⟩

/-- Who never sends DISCONNECT has not left. -/
theorem stayed {cfg : World.Cfg} {h : List World.Ev} (r : Nat) (hh : ∀ e ∈ h, ∀ c name auth, e ≠ .recv c .disconnect name auth) : ¬ HasLeft cfg h r := by
  rintro ⟨pre, auth, hp, -⟩
  exact hh _ (hp.subset (List.mem_append_right _ (List.mem_singleton.2 rfl))) _ _ _ rfl

/-- Non-vacuity: after one socket was disconnected, two are connected and one is not; nobody has left. -/
example : NextOnce (Demo.two ++ [.disconnect 0 false]) ∧ EngineReasons Demo.cfg (Demo.two ++ [.disconnect 0 false]) ∧
    ¬ HasLeft Demo.cfg (Demo.two ++ [.disconnect 0 false]) 0 ∧ Ev.serverClose ∉ Demo.two ++ [.disconnect 0 false] ∧
    (((run Demo.cfg (Demo.two ++ [.disconnect 0 false])).clients 0).conn = .opened) ∧
    ((run Demo.cfg (Demo.two ++ [.disconnect 0 false])).socks 0).connected = false ∧
    ToldConnect 0 (run Demo.cfg (Demo.two ++ [.disconnect 0 false])).log ∧ ToldDisconnect 0 (run Demo.cfg (Demo.two ++ [.disconnect 0 false])).log ∧
    ((run Demo.cfg (Demo.two ++ [.disconnect 0 false])).socks 1).connected = true ∧
    ToldConnect 1 (run Demo.cfg (Demo.two ++ [.disconnect 0 false])).log ∧ ¬ ToldDisconnect 1 (run Demo.cfg (Demo.two ++ [.disconnect 0 false])).log := by
  refine ⟨by decide, ⟨fun c => by simp [Demo.cfg], fun c => by simp [Demo.two]⟩, stayed 0 ?_, by decide, by decide, by decide, by decide, by decide,
    by decide, by decide, by decide⟩
  intro e he c name auth
  simp only [Demo.two, List.cons_append, List.nil_append, List.mem_cons, List.not_mem_nil, or_false] at he
  rcases he with rfl | rfl | rfl | rfl | rfl | rfl | rfl | rfl | rfl | rfl | rfl | rfl <;> simp

/-- The exceptions are there: a client that has left; and a server that is being closed, whose clients learn of it only when the
engine closes their connections. -/
example : ToldConnect 0 (run Demo.cfg (Demo.two ++ [.recv 0 .disconnect "/" none, .task 0])).log ∧
    ¬ ToldDisconnect 0 (run Demo.cfg (Demo.two ++ [.recv 0 .disconnect "/" none, .task 0])).log ∧
    ((run Demo.cfg (Demo.two ++ [.recv 0 .disconnect "/" none, .task 0])).socks 0).connected = false ∧
    ((run Demo.cfg (Demo.two ++ [.recv 0 .disconnect "/" none, .task 0])).clients 0).conn = .opened ∧
    ToldConnect 0 (run Demo.cfg (Demo.two ++ [.serverClose])).log ∧ ¬ ToldDisconnect 0 (run Demo.cfg (Demo.two ++ [.serverClose])).log ∧
    ((run Demo.cfg (Demo.two ++ [.serverClose])).socks 0).connected = false ∧
    ((run Demo.cfg (Demo.two ++ [.serverClose])).clients 0).conn = .opened := by decide

end Verif.Props
