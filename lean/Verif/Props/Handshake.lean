import Verif.Proof.Handshake
import Verif.Props.Connecting
import Verif.Props.Inbound

/-!
# C103: the handshake of a socket is that of its own connection
-/

namespace Verif.Props
open Verif Verif.Spec Verif.Handshake Verif.Inbound

variable {ρ : Type}

/-- **C103, its own**: every socket was created when its own client asked to be connected, and its handshake has the request of that
client and the payload it sent then.  `r` is the first socket there was not before. -/
theorem C103_own (cfg : Handshake.Cfg ρ) (h : List XEv) (r : Nat) (hr : r < (run cfg h).w.nSock) :
    ∃ a e b payload, h = a ++ e :: b ∧ r = (run cfg a).w.nSock ∧ r < (run cfg (a ++ [e])).w.nSock ∧
      AsksWith cfg a e ((run cfg h).w.socks r).client payload ∧
      (run cfg h).hs r = some ⟨cfg.request ((run cfg h).w.socks r).client, payload⟩ := by
  induction h using snocRec with
  | nil => simp [Handshake.run, World.init, World.newNs] at hr
  | append_singleton h e ih =>
    by_cases h1 : r < (run cfg h).w.nSock
    · obtain ⟨a, e', b, payload, rfl, g1, g2, g3, g4⟩ := ih h1
      obtain ⟨l, l', w1, w2⟩ := run_world cfg (a ++ e' :: b) [e]
      have hc := (World.kept_run cfg.world l l').client r (by rwa [← w1])
      rw [← w1, ← w2] at hc
      refine ⟨a, e', b ++ [e], payload, by simp, g1, g2, ?_, ?_⟩
      · rw [hc]; exact g3
      · rw [hc, hs_old cfg _ e r h1]; exact g4
    · obtain ⟨m, c, payload, g1, g2, g3, -⟩ := new_sock cfg h e (by omega)
      have e0 : r = (run cfg h).w.nSock := by omega
      subst e0
      exact ⟨h, e, [], payload, rfl, rfl, by omega, by rw [g2]; exact g1, by rw [g2]; exact g3⟩

/-- **C103, kept**: nothing that happens later changes it. -/
theorem C103_kept (cfg : Handshake.Cfg ρ) (h t : List XEv) (r : Nat) (hr : r < (run cfg h).w.nSock) :
    (run cfg (h ++ t)).hs r = (run cfg h).hs r := by
  have key : r < (run cfg (h ++ t)).w.nSock ∧ (run cfg (h ++ t)).hs r = (run cfg h).hs r := by
    induction t using snocRec with
    | nil => simpa using hr
    | append_singleton t e ih =>
      rw [← List.append_assoc]
      exact ⟨Nat.lt_of_lt_of_le ih.1 (nSock_le cfg _ e), by rw [hs_old cfg _ e r ih.1]; exact ih.2⟩
  exact key.2

/-- **C103, recovered**: if the payloads of packets are JSON, the handshake of a recovered socket has the private id of the socket, and
an offset: the id was not taken from anybody who did not show it. -/
theorem C103_recovered (cfg : Handshake.Cfg ρ) (h : List XEv) (hj : ∀ c p, XEv.packet c p ∈ h → Json p.data) (r : Nat)
    (hr : r < (run cfg h).w.nSock) (hrec : ((run cfg h).w.socks r).recovered = true) :
    ∃ fields off, (run cfg h).hs r = some ⟨cfg.request ((run cfg h).w.socks r).client, .obj fields⟩ ∧
      HasText fields "pid" ((run cfg h).w.socks r).pid ∧ HasText fields "offset" off := by
  induction h using snocRec with
  | nil => simp [Handshake.run, World.init, World.newNs] at hr
  | append_singleton h e ih =>
    by_cases h1 : r < (run cfg h).w.nSock
    · obtain ⟨l, l', w1, w2⟩ := run_world cfg h [e]
      have kp := World.kept_run cfg.world l l'
      rw [← w1, ← w2] at kp
      rw [hs_old cfg _ e r h1, kp.client r h1, kp.pid r h1]
      exact ih (fun c p hm => hj c p (List.mem_append_left _ hm)) h1 (by rw [← kp.recovered r h1]; exact hrec)
    · obtain ⟨m, c, payload, g1, g2, g3, g4⟩ := new_sock cfg h e (by omega)
      have e0 : r = (run cfg h).w.nSock := by omega
      subst e0
      obtain ⟨pid, off, sc, b, x, missed, k1, k2, k3, k4⟩ := g4 hrec
      obtain ⟨l, -, w1, -⟩ := run_world cfg h []
      rw [w1] at k3
      obtain ⟨-, -, -, -, -, k5⟩ := C15_origin cfg.world sc b k2 l _ _ _ _ _ _ k3
      have hjp : Json payload := by
        rcases g1 with ⟨-, -, rfl⟩ | ⟨p, rfl, -, ⟨-, rfl⟩ | ⟨-, ⟨_, q, -, rfl⟩ | ⟨-, rfl⟩⟩⟩
        · exact .null
        · exact hj c p (by simp)
        · simp [asks, parseSessionData] at k1
        · exact .null
      obtain ⟨-, fields, rfl, f1, f2⟩ := (C68 true payload hjp pid off).1 k1
      refine ⟨fields, off, by rw [g2]; exact g3, ?_, f2⟩
      rw [k4, k5]; exact f1

namespace Demo

/-- Private ids are not empty; the request of a client is its number. -/
def hcfg : Handshake.Cfg Nat :=
  { world := { scfg true with newPid := fun n => "p" ++ ident n }, request := fun c => c + 100
    parse := fun s => if s = "/?a=1" then some ("/", [("a", ["1"])]) else none }

/-- The client of `lost`, with a payload, comes back with its private id; then a client of the old protocol. -/
def hands : List XEv :=
  [.other (.accept false), .packet 0 { type := .connect, data := .obj [("token", .str "t")] }, .other (.task 0), .other (.clock 10),
   .other (.broadcast 0 [.str "a"] none [] [] {}), .other (.transportClose 0 "transport close"), .other (.clock 20),
   .other (.accept false), .packet 1 { type := .connect, data := .obj [("pid", .str "p"), ("offset", .str "o")] },
   .other (.accept true)]

end Demo

/-- Non-vacuity of C103: three sockets, the second recovered, each with its own handshake. -/
example : (run Demo.hcfg Demo.hands).w.nSock = 3 ∧ ((run Demo.hcfg Demo.hands).w.socks 1).recovered = true ∧
    ((run Demo.hcfg Demo.hands).w.socks 1).pid = "p" ∧ ((run Demo.hcfg Demo.hands).hs 0).map (·.request) = some 100 ∧
    ((run Demo.hcfg Demo.hands).hs 1).map (·.request) = some 101 ∧ ((run Demo.hcfg Demo.hands).hs 2).map (·.request) = some 102 := by decide

example : (run Demo.hcfg Demo.hands).hs 1 = some ⟨101, .obj [("pid", .str "p"), ("offset", .str "o")]⟩ ∧
    (run Demo.hcfg Demo.hands).hs 2 = some ⟨102, .null⟩ := by
  constructor <;> rfl

end Verif.Props
