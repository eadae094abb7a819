import Verif.Proof.WorldAnswer
import Verif.Props.Agree

/-! # C99: every attempt to connect is answered once -/

namespace Verif.Props
open Verif Verif.Adapter Verif.Spec Verif.World

/-- **C99, at most once**: whatever happens, at most one CONNECT or CONNECT_ERROR packet is written for a socket. -/
theorem C99_once (cfg : World.Cfg) (h : List World.Ev) (r : Nat) (hn : NextOnceFor cfg h r) : (answers r (run cfg h).log).length ≤ 1 :=
  (ans_run cfg h r hn).one

/-- **C99, not too early**: as long as the middlewares have not decided, there is no answer. -/
theorem C99_wait (cfg : World.Cfg) (h : List World.Ev) (r : Nat) (hn : NextOnceFor cfg h r) (hu : Undecided (run cfg h) r) :
    answers r (run cfg h).log = [] :=
  (ans_run cfg h r hn).wait (.inl (mem_pending.2 hu))

/-- **C99, at least once**: if the connection is open and it is decided, then there is exactly one answer: CONNECT if the handlers of
`connection` were called with the socket, CONNECT_ERROR if not. -/
theorem C99_answered (cfg : World.Cfg) (h : List World.Ev) (r : Nat) (hn : NextOnceFor cfg h r) (hr : r < (run cfg h).nSock)
    (hu : ¬ Undecided (run cfg h) r) (ho : ((run cfg h).clients ((run cfg h).socks r).client).conn = .opened) :
    ∃ p, answers r (run cfg h).log = [p] ∧
      ((Obs.connection r ∈ (run cfg h).log ∧ p.type = .connect) ∨ (Obs.connection r ∉ (run cfg h).log ∧ p.type = .connectError)) := by
  have hl := (ans_run cfg h r hn).told hr (fun hm => hu (mem_pending.1 hm)) ho
  obtain ⟨p, hp⟩ := List.length_eq_one_iff.1 hl
  refine ⟨p, hp, ?_⟩
  have hmem : p ∈ answers r (run cfg h).log := by rw [hp]; exact List.mem_singleton.2 rfl
  obtain ⟨hm, ht⟩ := List.mem_filter.1 hmem
  by_cases hc : Obs.connection r ∈ (run cfg h).log
  · refine .inl ⟨hc, ?_⟩
    obtain ⟨q, hq, hqt⟩ := (end_run (cfg := cfg) hn).told hc
    have : q ∈ answers r (run cfg h).log := List.mem_filter.2 ⟨hq, by simp [hqt]⟩
    rw [hp, List.mem_singleton] at this
    rw [← this]; exact hqt
  · refine .inr ⟨hc, ?_⟩
    have : p.type ≠ .connect := fun t => hc ((shown_run cfg h r).2 p hm t)
    simpa [this] using ht

/-- **C99, attempts**: a CONNECT packet of a client for a namespace it is not in makes one socket of this client in the namespace of that
name, whose answer the other theorems are about, or, if there is no such namespace and none may be created, is answered at once by one
CONNECT_ERROR packet with that name. -/
theorem C99_attempt (cfg : World.Cfg) (h : List World.Ev) (c : Nat) (name : String) (auth : Option (Session.Pid × String))
    (hc : c < (run cfg h).nClient) (hl : ((run cfg h).clients c).listening = true) (ho : ((run cfg h).clients c).conn = .opened)
    (hn : ((run cfg h).clients c).nsps.get? name = none) :
    (((run cfg h).nsps.get? name ≠ none ∨ cfg.admit name = true) ∧
      (run cfg (h ++ [.recv c .connect name auth])).nSock = (run cfg h).nSock + 1 ∧
      ((run cfg (h ++ [.recv c .connect name auth])).socks (run cfg h).nSock).client = c ∧
      ((run cfg (h ++ [.recv c .connect name auth])).nss
        ((run cfg (h ++ [.recv c .connect name auth])).socks (run cfg h).nSock).ns).name = name) ∨
    ((run cfg h).nsps.get? name = none ∧ cfg.admit name = false ∧
      (run cfg (h ++ [.recv c .connect name auth])).nSock = (run cfg h).nSock ∧
      (run cfg (h ++ [.recv c .connect name auth])).log = (run cfg h).log ++
        [.packet c none { type := .connectError, nsp := name, data := .error "Invalid namespace" none }]) := by
  rw [run_snoc]
  obtain ⟨i1, -⟩ := inv_run cfg h
  generalize run cfg h = w at *
  have key : ∀ (v : W) (n : Nat), (v.nss n).name = name → (add cfg v n c auth).nSock = v.nSock + 1 ∧
      ((add cfg v n c auth).socks v.nSock).client = c ∧ ((add cfg v n c auth).nss ((add cfg v n c auth).socks v.nSock).ns).name = name := by
    intro v n hv
    have h1 := createSocket_nSock cfg v n c auth
    obtain ⟨s1, s2, -⟩ := createSocket_self cfg v n c auth
    have h3 : ((createSocket cfg v n c auth).nss n).name = name := by
      obtain ⟨s, -, cm, -⟩ := createSocket_rel cfg prim0_justPackets v n c auth
      rw [cm.name n]; exact hv
    unfold add; dsimp only; split
    · obtain ⟨d1, d2, d3, d4, d5, -⟩ := doConnect_fields (createSocket cfg v n c auth) v.nSock
      refine ⟨by rw [d5, h1], ?_, ?_⟩
      · rw [d2]; simp [s2]
      · have : ((doConnect (createSocket cfg v n c auth) v.nSock).socks v.nSock).ns = n := by rw [d2]; simp [s1]
        rw [this, d1, s1, upd_same]
        simp only [nsConnected, s1]
        exact h3
    · split
      · exact ⟨h1, s2, by show (_ : Ns).name = _; rw [s1]; exact h3⟩
      · exact ⟨h1, s2, by show (_ : Ns).name = _; rw [s1]; exact h3⟩
  simp only [World.step]
  rw [if_pos ⟨hc, hl⟩]
  unfold ondecoded
  simp only [hn, if_true]
  unfold World.connect
  cases hg : w.nsps.get? name with
  | some n => exact .inl ⟨.inl (by simp), key w n (i1.names _ _ hg).2⟩
  | none =>
    simp only
    cases ha : cfg.admit name with
    | true => exact .inl ⟨.inr rfl, key (newNs w _) w.nNs (by simp [newNs])⟩
    | false => exact .inr ⟨trivial, rfl, by simp [clientPacket, ho, obs], by simp [clientPacket, ho, obs]⟩

instance (w : W) (r : Nat) : Decidable (Undecided w r) := decidable_of_iff _ (mem_pending (w := w) (r := r))

/-- Non-vacuity: a namespace with two middlewares; the first client gets in, the second is rejected by the second middleware, the third waits,
the fourth asks for a namespace that does not exist. -/
def Demo.answers : List World.Ev :=
  [.use 0, .use 0, .accept false, .accept false, .accept false, .accept false, .recv 0 .connect "/" none, .recv 1 .connect "/" none, .recv 2 .connect "/" none,
   .next 0 0 none, .next 1 0 none, .next 2 0 none, .next 1 1 (some { message := "no" }), .next 0 1 none, .task 1, .task 0]

example : NextOnce Demo.answers ∧ ¬ Undecided (run Demo.cfg Demo.answers) 0 ∧ ¬ Undecided (run Demo.cfg Demo.answers) 1 ∧
    Undecided (run Demo.cfg Demo.answers) 2 ∧ ((Spec.answers 0 (run Demo.cfg Demo.answers).log).map (·.type)) = [.connect] ∧
    ((Spec.answers 1 (run Demo.cfg Demo.answers).log).map (·.type)) = [.connectError] ∧
    ((run Demo.cfg Demo.answers).clients 0).conn = .opened ∧ ((run Demo.cfg Demo.answers).clients 1).conn = .opened ∧
    3 < (run Demo.cfg Demo.answers).nClient ∧ ((run Demo.cfg Demo.answers).clients 3).listening = true ∧
    ((run Demo.cfg Demo.answers).clients 3).nsps.get? "/none" = none ∧ (run Demo.cfg Demo.answers).nsps.get? "/none" = none ∧
    Demo.cfg.admit "/none" = false := by decide

/-- What the middlewares do with other sockets does not matter: `next` is called twice for socket 0, which is answered twice, and once
for socket 1. -/
example :
    let h : List World.Ev := [.use 0, .accept false, .accept false, .recv 0 .connect "/" none, .recv 1 .connect "/" none, .next 0 0 none, .next 0 0 none,
      .next 1 0 none, .task 0, .task 0, .task 0]
    ¬ NextOnce h ∧ NextOnceFor Demo.cfg h 1 ∧ ((Spec.answers 0 (run Demo.cfg h).log).map (·.type)) = [.connect, .connect] ∧
    ((Spec.answers 1 (run Demo.cfg h).log).map (·.type)) = [.connect] := by decide

/-- The condition on `next` is needed: a middleware that calls it twice has the client answered twice (C60 has the harm this does). -/
theorem C99_twice_fails : ∃ h, (Spec.answers 0 (run Demo.cfg h).log).map (·.type) = [.connect, .connectError] :=
  ⟨[.use 0, .accept false, .recv 0 .connect "/" none, .next 0 0 none, .next 0 0 (some { message := "no" }), .task 0, .task 0], by decide⟩

end Verif.Props
