import Verif.Proof.WorldBye
import Verif.Props.Lifecycle

/-! # C71: what a client is told when its socket ends -/

namespace Verif.Props
open Verif Verif.Adapter Verif.Spec Verif.World

/-- **C71**: whatever happens, nothing is said of the end of a socket while it is connected; and the end of a socket is one of
* one DISCONNECT packet to its client, for its namespace, and then "disconnect" with the reason "server namespace disconnect";
* "disconnect" for any reason, once, and no DISCONNECT packet at all; if the reason is "server namespace disconnect", the connection
  of the client is not open any more. -/
theorem C71_farewell (cfg : World.Cfg) (h : List World.Ev) (r : Nat) (hn : NextOnceFor cfg h r) (he : EngineReasons cfg h) :
    (((run cfg h).socks r).connected = true → farewell r (run cfg h).log = []) ∧
    (farewell r (run cfg h).log = [] ∨
     farewell r (run cfg h).log = [.told ((run cfg h).socks r).client ((run cfg h).nss ((run cfg h).socks r).ns).name,
       .ended "server namespace disconnect"] ∨
     ∃ reason, farewell r (run cfg h).log = [.ended reason] ∧
       (reason = "server namespace disconnect" → ((run cfg h).clients ((run cfg h).socks r).client).conn ≠ .opened)) :=
  have b := bye_run hn he
  ⟨fun hc => b.on (.inl hc), b.off⟩

/-- `Disconnect(false)` on a connected socket whose connection is open: first the DISCONNECT packet is written, then
"disconnecting" and "disconnect" are emitted; nothing else is observed, by anybody, and the connection stays open. -/
theorem C71_disconnect (cfg : World.Cfg) (h : List World.Ev) (r : Nat) (hr : r < (run cfg h).nSock)
    (hc : ((run cfg h).socks r).connected = true) (ho : ((run cfg h).clients ((run cfg h).socks r).client).conn = .opened) :
    (run cfg (h ++ [.disconnect r false])).log = (run cfg h).log ++
      [.packet ((run cfg h).socks r).client (some r)
         { type := .disconnect, nsp := ((run cfg h).nss ((run cfg h).socks r).ns).name },
       .disconnecting r "server namespace disconnect", .disconnect r "server namespace disconnect"] ∧
    ((run cfg (h ++ [.disconnect r false])).clients ((run cfg h).socks r).client).conn = .opened := by
  rw [run_snoc]
  generalize run cfg h = w at *
  have e : World.step cfg w (.disconnect r false) = disconnectNs cfg w r := by
    simp [World.step, hr, disconnect, hc]
  rw [e, disconnectNs_pos cfg hc, sockPacket_eq, onclose_down]
  refine ⟨?_, ho⟩
  have hc' : ({ w with log := w.log ++ sent w { type := .disconnect } r }.socks r).connected = true := hc
  rw [onclose_log cfg _ hc']
  have hno : ¬ (cfg.recovery.isSome = true ∧ "server namespace disconnect" ∈ recoverable) := fun h => by
    have := h.2; revert this; decide
  rw [if_neg hno]
  simp [sent, ho]

/-- `Disconnect`, with or without closing the connection, of a socket that is not connected, be it no longer or not yet, has no effect:
nothing is written or emitted, and the connection and the other sockets of its client stay. -/
theorem C71_idle (cfg : World.Cfg) (h : List World.Ev) (r : Nat) (status : Bool) (hc : ((run cfg h).socks r).connected = false) :
    run cfg (h ++ [.disconnect r status]) = run cfg h := by
  rw [run_snoc]; simp [World.step, disconnect, hc]

/-- Two sockets of one client, one of them disconnected. -/
example : ((run Demo.cfg (Demo.two ++ [.disconnect 0 false])).socks 0).connected = false ∧
    ((run Demo.cfg (Demo.two ++ [.disconnect 0 false])).socks 1).connected = true ∧
    ((run Demo.cfg (Demo.two ++ [.disconnect 0 false])).socks 1).client = ((run Demo.cfg (Demo.two ++ [.disconnect 0 false])).socks 0).client ∧
    ((run Demo.cfg (Demo.two ++ [.disconnect 0 false, .disconnect 0 true])).socks 1).connected = true := by decide

/-- `Disconnect(true)` on a connected socket, for histories in which no two open sockets share an id: every connected socket of
the client, in whatever namespace, is told by a DISCONNECT packet and then ends; afterwards the connection is not open; the
sockets of the other clients are not touched. -/
theorem C71_close_partial (cfg : World.Cfg) (h : List World.Ev) (hn : NextOnce h) (ht : NeverTwins cfg h) (he : EngineReasons cfg h)
    (r : Nat) (hr : r < (run cfg h).nSock) (hc : ((run cfg h).socks r).connected = true)
    (ho : ((run cfg h).clients ((run cfg h).socks r).client).conn = .opened) :
    (∀ r', ((run cfg h).socks r').client = ((run cfg h).socks r).client → ((run cfg h).socks r').connected = true →
      farewell r' (run cfg (h ++ [.disconnect r true])).log =
        [.told ((run cfg h).socks r).client ((run cfg h).nss ((run cfg h).socks r').ns).name, .ended "server namespace disconnect"]) ∧
    ((run cfg (h ++ [.disconnect r true])).clients ((run cfg h).socks r).client).conn ≠ .opened ∧
    ∀ r', ((run cfg h).socks r').client ≠ ((run cfg h).socks r).client →
      (run cfg (h ++ [.disconnect r true])).socks r' = (run cfg h).socks r' := by
  have hb := fun r => bye_run (nextOnce_for hn cfg r) he
  have g := good_run cfg h hn ht
  rw [run_snoc]
  generalize run cfg h = w at *
  have e : World.step cfg w (.disconnect r true) = clientDisconnect cfg w (w.socks r).client := by
    simp [World.step, hr, disconnect, hc]
  rw [e]
  obtain ⟨h1, h2, h3⟩ := clientDisconnect_tells g
    (cfg := cfg) ⟨fun c reason h1 h2 => he.1 c (by rw [h1, h2]), by decide, by decide⟩ (w.socks r).client ho
  refine ⟨fun r' a b => ?_, h2, h3⟩
  obtain ⟨ext, e1, e2⟩ := h1 r' a b
  rw [e1, farewell_append, (hb r').on (.inl b), e2, List.nil_append]

/-- Non-vacuity: client 0 has sockets 0 (in "/") and 1 (in "/chat"), client 1 has socket 2.  Socket 0 is disconnected alone, or with the
connection; or the client leaves by itself, or the connection is lost, and nobody is told. -/
example : NextOnce Demo.two ∧ EngineReasons Demo.cfg Demo.two ∧ 0 < (run Demo.cfg Demo.two).nSock ∧
    ((run Demo.cfg Demo.two).socks 0).connected = true ∧
    ((run Demo.cfg Demo.two).clients ((run Demo.cfg Demo.two).socks 0).client).conn = .opened ∧
    farewell 0 (run Demo.cfg (Demo.two ++ [.disconnect 0 false])).log = [.told 0 "/", .ended "server namespace disconnect"] ∧
    farewell 1 (run Demo.cfg (Demo.two ++ [.disconnect 0 false])).log = [] ∧
    farewell 1 (run Demo.cfg (Demo.two ++ [.disconnect 0 true])).log = [.told 0 "/chat", .ended "server namespace disconnect"] ∧
    farewell 2 (run Demo.cfg (Demo.two ++ [.disconnect 0 true])).log = [] ∧
    farewell 0 (run Demo.cfg (Demo.two ++ [.recv 0 .disconnect "/" none, .task 0])).log = [.ended "client namespace disconnect"] ∧
    farewell 0 (run Demo.cfg (Demo.two ++ [.transportClose 0 "ping timeout"])).log = [.ended "ping timeout"] ∧
    farewell 0 (run Demo.cfg (Demo.two ++ [.serverClose])).log = [.ended "server shutting down"] :=
  ⟨Demo.two_once, ⟨fun _ => by simp [Demo.cfg], fun c => by simp [Demo.two]⟩, by decide, by decide, by decide, by decide, by decide, by decide,
    by decide, by decide, by decide, by decide⟩

/-- Without the hypothesis on ids a connected socket of the client may be told nothing and stay connected, although the connection is
closed: the sockets 1 and 2 have one id (see `C20_twins_fail`). -/
theorem C71_twins_fail : ∃ (cfg : World.Cfg) (h : List World.Ev) (r r' : Nat), NextOnce h ∧ EngineReasons cfg h ∧
    ((run cfg h).socks r').client = ((run cfg h).socks r).client ∧ ((run cfg h).socks r').connected = true ∧
    ((run cfg h).socks r).connected = true ∧ farewell r' (run cfg (h ++ [.disconnect r true])).log = [] ∧
    ((run cfg (h ++ [.disconnect r true])).socks r').connected = true ∧
    ((run cfg (h ++ [.disconnect r true])).clients ((run cfg h).socks r).client).conn ≠ .opened :=
  ⟨Demo.cfg, [.of "/chat", .accept true, .task 0, .recv 0 .connect "/chat" none, .recv 0 .connect "/chat" none, .task 0, .task 0],
    2, 1, by decide, ⟨fun _ => by simp [Demo.cfg], fun c => by simp⟩, by decide⟩

/-- The claim that nothing is written for a socket after its DISCONNECT packet is false: `Emit` on a disconnected socket whose
connection is still open writes the event. -/
theorem C71_after_fail : ∃ (cfg : World.Cfg) (h : List World.Ev) (r : Nat), NextOnce h ∧ EngineReasons cfg h ∧
    (packetsTo r (run cfg h).log).map (·.type) = [.connect, .disconnect, .event] :=
  ⟨Demo.cfg, Demo.two ++ [.disconnect 0 false, .emit 0 [] {}], 0, by decide, ⟨fun _ => by simp [Demo.cfg], fun c => by simp [Demo.two]⟩, by decide⟩

end Verif.Props
