import Verif.Proof.WorldSecret
import Verif.Props.Connecting

/-! # C96: private ids stay private -/

namespace Verif.Props
open Verif Verif.Adapter Verif.Spec Verif.World

/-- **C96, identity**: every socket has its id, namespace and private id from a socket that was created anew, which has the
private id made for it and the id made for it; it is that socket itself, or its client sent this private id in CONNECT. -/
theorem C96_identity (cfg : World.Cfg) (h : List World.Ev) (r : Nat) (hr : r < (run cfg h).nSock) :
    ∃ r0, r0 ≤ r ∧ ((run cfg h).socks r0).recovered = false ∧ ((run cfg h).socks r0).ns = ((run cfg h).socks r).ns ∧
      ((run cfg h).socks r).sid = idFor cfg (run cfg h) r0 ∧ ((run cfg h).socks r0).pid = pidFor cfg r0 ∧ ((run cfg h).socks r).pid = pidFor cfg r0 ∧
      (r = r0 ∨ Presents h ((run cfg h).socks r).client (pidFor cfg r0)) := by
  obtain ⟨r0, a, b, c, d, e, f, g⟩ := source_run cfg h r hr
  refine ⟨r0, a, b, c, ?_, f, e, ?_⟩
  · rw [← d]; exact ids_run cfg h r0 (Nat.lt_of_le_of_lt a hr) b
  · rw [e] at g; exact g

/-- **C96, secret**: a private id in a packet to client `c` was made for a socket of `c`, or `c` had sent it itself. -/
theorem C96_secret (cfg : World.Cfg) (h : List World.Ev) (c : Nat) (pid : Session.Pid) (ht : ToldPid cfg h c pid) :
    ∃ r0, r0 < (run cfg h).nSock ∧ ((run cfg h).socks r0).recovered = false ∧ pid = pidFor cfg r0 ∧
      (((run cfg h).socks r0).client = c ∨ Presents h c pid) := by
  obtain ⟨ref, p, sid, hp, hd⟩ := ht
  rcases (sec_run cfg h).log c ref p hp with ⟨-, x | ⟨r, x1, x2, x3⟩⟩ | ⟨-, l, x, -⟩ | ⟨-, x | ⟨bb, ee, -, x⟩⟩ | ⟨-, x⟩
  · rw [x] at hd; cases hd
  · rw [x3] at hd; injection hd with _ hd
    obtain ⟨r0, a, b, -, -, e, -, g⟩ := source_run cfg h r x1
    refine ⟨r0, Nat.lt_of_le_of_lt a x1, b, by rw [← hd, e], ?_⟩
    rcases g with g | g
    · subst g; exact .inl x2
    · rw [x2, hd] at g; exact .inr g
  · rw [x] at hd; cases hd
  · rw [x] at hd; cases hd
  · rw [x] at hd; unfold errorData at hd
    split at hd
    · split at hd <;> cases hd
    · cases hd
  · rw [x] at hd; cases hd

/-- **C96, told**: all that a client is ever sent: the ids of its own sockets, events the program emitted, followed by an
offset, errors of middlewares, "Invalid namespace" and empty DISCONNECT packets. -/
theorem C96_told (cfg : World.Cfg) (h : List World.Ev) (c : Nat) (ref : Option Nat) (p : Pkt) (hp : .packet c ref p ∈ (run cfg h).log) :
    MayBeTold cfg h c p := by
  rcases (sec_run cfg h).log c ref p hp with ⟨t, x | ⟨r, x1, x2, x3⟩⟩ | ⟨t, l, x, y⟩ | ⟨t, x | ⟨b, e, y, x⟩⟩ | ⟨t, x⟩
  · exact .accepted p t x
  · exact .connected p r t x1 x2 x3
  · exact .event p l t x y
  · exact .invalid p t x
  · refine .refused p e t y ?_
    rw [x]; unfold errorData
    cases b
    · exact .inl rfl
    · cases he : e.data with
      | none => exact .inr (.inl rfl)
      | some v => exact .inr (.inr ⟨v, rfl, rfl⟩)
  · exact .disconnected p t x

/-- **C96, users**: say each connection belongs to some user, no two private ids made are the same, and nobody sends a private id
that no connection of the same user was told.  Then every socket belongs to the user of the socket that was created anew with its
id, and a private id is told to one user only. -/
theorem C96_users {U : Type} (user : Nat → U) (cfg : World.Cfg) (hrec : cfg.recovery.isSome = true)
    (hi : ∀ i j, cfg.newPid i = cfg.newPid j → i = j) (h : List World.Ev) (hg : NoGuessing user cfg h) :
    (∀ r, r < (run cfg h).nSock → ∃ r0, r0 ≤ r ∧ ((run cfg h).socks r0).recovered = false ∧
      ((run cfg h).socks r0).ns = ((run cfg h).socks r).ns ∧ ((run cfg h).socks r0).sid = ((run cfg h).socks r).sid ∧
      ((run cfg h).socks r0).pid = ((run cfg h).socks r).pid ∧ user ((run cfg h).socks r0).client = user ((run cfg h).socks r).client) ∧
    (∀ c c' pid, ToldPid cfg h c pid → ToldPid cfg h c' pid → user c = user c') := by
  have key := users_run user cfg hrec hi h.length h rfl hg
  constructor
  · intro r hr
    obtain ⟨r0, a, b, c, d, e, f, -⟩ := source_run cfg h r hr
    exact ⟨r0, a, b, c, d, by rw [e, f], key r0 r (Nat.lt_of_le_of_lt a hr) hr (by rw [e, f])⟩
  · have own : ∀ c pid, ToldPid cfg h c pid → ∃ r, r < (run cfg h).nSock ∧ ((run cfg h).socks r).client = c ∧ ((run cfg h).socks r).pid = pid := by
      rintro c pid ⟨ref, p, sid, hp, hd⟩
      cases C96_told cfg h c ref p hp with
      | connected r _ h1 h2 h3 => rw [h3] at hd; injection hd with _ hd; exact ⟨r, h1, h2, hd⟩
      | accepted _ h => rw [h] at hd; cases hd
      | event _ _ h => rw [h] at hd; cases hd
      | refused _ _ _ h =>
        rcases h with h | h | ⟨v, -, h⟩ <;> rw [h] at hd <;> cases hd
      | invalid _ h => rw [h] at hd; cases hd
      | disconnected _ h => rw [h] at hd; cases hd
    intro c c' pid t t'
    obtain ⟨r, a, b, d⟩ := own c pid t
    obtain ⟨r', a', b', d'⟩ := own c' pid t'
    rw [← b, ← b']
    exact key r r' a a' (d.trans d'.symm)

/-- Somebody else connects too. -/
def Demo.others : List World.Ev := Demo.lost ++ [Demo.back, .accept false, .recv 2 .connect "/" none, .task 0]

/-- The first two connections belong to one user, the third to another. -/
def Demo.owner (c : Nat) : Nat := if c = 2 then 1 else 0

example : (run (Demo.scfg true) Demo.others).nSock = 3 ∧ ((run (Demo.scfg true) Demo.others).socks 1).recovered = true ∧
    (run (Demo.scfg true) Demo.others).log.filterMap (fun o => match o with
      | .packet c _ { data := .connect _ pid, .. } => some (c, pid)
      | _ => none) = [(0, ""), (1, ""), (2, "aa")] := by decide

example : (Demo.scfg true).recovery.isSome = true ∧ (∀ i j, (Demo.scfg true).newPid i = (Demo.scfg true).newPid j → i = j) ∧
    NoGuessing Demo.owner (Demo.scfg true) Demo.others := by
  refine ⟨rfl, Demo.ident_inj, ?_⟩
  intro a b c name pid off e
  have ha : a = Demo.others.take a.length := by rw [e]; simp
  have hg : Demo.others[a.length]? = some (.recv c .connect name (some (pid, off))) := by rw [e]; simp
  have hl : a.length = 13 := by
    have hlt : a.length < 17 := by
      have := congrArg List.length e; simp [Demo.others, Demo.lost] at this; omega
    generalize a.length = n at hg hlt
    rcases n with _|_|_|_|_|_|_|_|_|_|_|_|_|_|_|_|_|n <;> first | rfl | (simp [Demo.others, Demo.lost, Demo.back] at hg; done) | omega
  rw [hl] at hg ha
  simp [Demo.others, Demo.lost, Demo.back] at hg
  obtain ⟨rfl, rfl, rfl, rfl⟩ := hg
  refine ⟨0, by decide, some 0, { type := .connect, nsp := "/", data := .connect "" "" }, "", ?_, rfl⟩
  rw [ha]; decide

end Verif.Props
