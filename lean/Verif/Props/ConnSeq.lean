import Verif.Proof.ConnSeq

/-! # C77: undisturbed, a socket is connected and closed as in the model of the whole server -/

namespace Verif.Props
open Verif Verif.Spec

/-- **C77**: the goroutine that connects a socket, if nothing else happens meanwhile, does step by step what `Model/World` does at once,
whether the connection is open or not. -/
theorem C77_in_turn (cfg : World.Cfg) (h : List World.Ev) (ref k : Nat) (s : ConnRace.St)
    (ht : (World.run cfg h).tasks[k]? = some (.result ref none))
    (hs : SameSocket (World.run cfg h) ref s) (hc : s.conn = .test) :
    SameSocket (World.run cfg (h ++ [.task k])) ref ((List.replicate 8 .conn).foldl ConnRace.step s) ∧
    ((List.replicate 8 .conn).foldl ConnRace.step s).conn = if s.isOpen then .done else .refused := by
  rw [World.conn_steps s hc]
  refine ⟨?_, by split <;> rfl⟩
  rw [show World.run cfg (h ++ [.task k]) = World.step cfg (World.run cfg h) (.task k) from by simp [World.run]]
  have ha : World.Ads (World.run cfg h) := (World.inv_run cfg h).1.ad
  generalize World.run cfg h = w at *
  have hs' : SameSocket { w with tasks := w.tasks.eraseIdx k } ref s :=
    ⟨hs.isOpen, hs.inNsp, hs.connected, hs.canJoin, hs.inRoom, hs.registered, hs.named, hs.log⟩
  have ha' : World.Ads { w with tasks := w.tasks.eraseIdx k } := ha
  simp only [World.step, ht, World.runTask]
  generalize { w with tasks := w.tasks.eraseIdx k } = v at *
  unfold World.result
  by_cases ho : s.isOpen = true
  · rw [if_pos ho, if_neg (by simpa using hs'.isOpen.1 ho)]
    exact World.same_doConnect ha' hs' ho
  · rw [if_neg ho, if_pos (fun e => ho (hs'.isOpen.2 e))]
    exact World.same_cleanup ha' hs'

/-- **C77**: the same for a socket that a packet of its client disconnects. -/
theorem C77_leave_in_turn (cfg : World.Cfg) (h : List World.Ev) (ref k : Nat) (s : ConnRace.St)
    (ht : (World.run cfg h).tasks[k]? = some (.packet ref .disconnect))
    (hs : SameSocket (World.run cfg h) ref s) (hc : s.connected = true) (hk : s.closers = [])
    (hone : ∀ r, ((World.run cfg h).clients ((World.run cfg h).socks ref).client).sockets.get?
      ((World.run cfg h).socks ref).sid = some r → r = ref) :
    SameSocket (World.run cfg (h ++ [.task k])) ref ((.leave :: List.replicate 8 (.adv 0)).foldl ConnRace.step s) ∧
    SockAtRest ((.leave :: List.replicate 8 (.adv 0)).foldl ConnRace.step s) := by
  rw [World.leave_steps s hc hk]
  refine ⟨?_, by simp [SockAtRest]⟩
  rw [show World.run cfg (h ++ [.task k]) = World.step cfg (World.run cfg h) (.task k) from by simp [World.run]]
  have ha : World.Ads (World.run cfg h) := (World.inv_run cfg h).1.ad
  generalize World.run cfg h = w at *
  have hs' : SameSocket { w with tasks := w.tasks.eraseIdx k } ref s :=
    ⟨hs.isOpen, hs.inNsp, hs.connected, hs.canJoin, hs.inRoom, hs.registered, hs.named, hs.log⟩
  simp only [World.step, ht, World.runTask, World.onpacket, if_true]
  exact World.same_onclose (w := { w with tasks := w.tasks.eraseIdx k }) ha hs' _ hc hone _

/-- **C77**: the same when the connection closes, for a socket that is the only one of its client. -/
theorem C77_close_in_turn (cfg : World.Cfg) (h : List World.Ev) (ref : Nat) (reason : String) (s : ConnRace.St)
    (hs : SameSocket (World.run cfg h) ref s) (hk : s.closers = [])
    (hl : ((World.run cfg h).clients ((World.run cfg h).socks ref).client).listening = true)
    (hone : ((World.run cfg h).clients ((World.run cfg h).socks ref).client).sockets = [] ∨
      ((World.run cfg h).clients ((World.run cfg h).socks ref).client).sockets = [(((World.run cfg h).socks ref).sid, ref)])
    (hc : ((World.run cfg h).socks ref).client < (World.run cfg h).nClient) :
    SameSocket (World.run cfg (h ++ [.transportClose ((World.run cfg h).socks ref).client reason])) ref
      (([ConnRace.Ev.hangup, .onclose] ++ List.replicate 11 (ConnRace.Ev.adv 0)).foldl ConnRace.step s) ∧
    SockAtRest (([ConnRace.Ev.hangup, .onclose] ++ List.replicate 11 (ConnRace.Ev.adv 0)).foldl ConnRace.step s) := by
  rw [World.onclose_steps s hk]
  refine ⟨?_, by split <;> simp [SockAtRest]⟩
  rw [show World.run cfg (h ++ [.transportClose ((World.run cfg h).socks ref).client reason]) =
    World.step cfg (World.run cfg h) (.transportClose ((World.run cfg h).socks ref).client reason) from by simp [World.run]]
  have ha : World.Ads (World.run cfg h) := (World.inv_run cfg h).1.ad
  generalize World.run cfg h = w at *
  simp only [World.step, if_pos hc, hl, if_true]
  have h0 := World.same_client hs (fun k => { k with conn := .closed }) false s.closers (by simp) rfl rfl
  have e0 : ((World.setClient w (w.socks ref).client fun k => { k with conn := .closed }).clients (w.socks ref).client).sockets =
    (w.clients (w.socks ref).client).sockets := by simp [World.setClient]
  have h1 := World.same_clientOnclose (cfg := cfg) (w := World.setClient w (w.socks ref).client fun k => { k with conn := .closed })
    ha h0 reason (by
      rw [show (World.setClient w (w.socks ref).client fun k => { k with conn := .closed }).socks ref = w.socks ref from rfl, e0]
      exact hone) [(true, .done)]
  exact h1

/-- A server whose first client has asked for "/". -/
def Demo.connCfg : World.Cfg := { newSid := fun n => if n = 0 then "a" else "b", newPid := fun _ => "p", connId := fun _ => "c" }

def Demo.asked : List World.Ev := [.accept false, .recv 0 .connect "/" none]

/-- Non-vacuity: a new socket, the middlewares of which have let it pass. -/
example : (World.run Demo.connCfg Demo.asked).tasks[0]? = some (.result 0 none) ∧
    SameSocket (World.run Demo.connCfg Demo.asked) 0 (ConnRace.run [.pass]) :=
  ⟨by decide, ⟨by decide, by decide, by decide, by decide, by decide, by decide, by decide, by decide⟩⟩

/-- Non-vacuity: it is connected, and its client disconnects it. -/
example : (World.run Demo.connCfg (Demo.asked ++ [.task 0, .recv 0 .disconnect "/" none])).tasks[0]? = some (.packet 0 .disconnect) ∧
    SameSocket (World.run Demo.connCfg (Demo.asked ++ [.task 0, .recv 0 .disconnect "/" none])) 0
      (ConnRace.run (.pass :: List.replicate 8 .conn)) ∧
    (ConnRace.run (.pass :: List.replicate 8 .conn)).connected = true ∧
    (ConnRace.run (.pass :: List.replicate 8 .conn)).closers = [] ∧
    ((World.run Demo.connCfg (Demo.asked ++ [.task 0, .recv 0 .disconnect "/" none])).clients 0).sockets = [("a", 0)] ∧
    ((World.run Demo.connCfg (Demo.asked ++ [.task 0, .recv 0 .disconnect "/" none])).clients 0).listening = true :=
  ⟨by decide, ⟨by decide, by decide, by decide, by decide, by decide, by decide, by decide, by decide⟩, by decide, by decide, by decide, by decide⟩

end Verif.Props
