import Verif.Spec.Handshake
import Verif.Proof.WorldGiven
import Verif.Proof.WorldKeep

/-! # The handshake of a socket: lemmas -/

namespace Verif.Handshake
open Verif Verif.Spec Verif.Inbound

variable {ρ : Type} (cfg : Cfg ρ)

theorem run_snoc (h : List XEv) (e : XEv) : run cfg (h ++ [e]) = step cfg (run cfg h) e := by simp [run]

/-- The event of `Model/World`, and the payload. -/
def asWorld (x : X ρ) : XEv → Option (World.Ev × JVal)
  | .other (.recv ..) => none
  | .other e => some (e, .null)
  | .packet c p => some (worldEv cfg x c p, (authOf cfg.parse (x.w.clients c).proto3 p).2)

theorem step_eq (x : X ρ) (e : XEv) : step cfg x e =
    match asWorld cfg x e with
    | some (e, a) => record cfg x (World.step cfg.world x.w e) a
    | none => x := by
  cases e with
  | packet c p => rfl
  | other e => cases e <;> rfl

theorem run_world (h t : List XEv) : ∃ l l', (run cfg h).w = World.run cfg.world l ∧ (run cfg (h ++ t)).w = World.run cfg.world (l ++ l') := by
  have one : ∀ h, ∃ l, (run cfg h).w = World.run cfg.world l := by
    intro h
    induction h using snocRec with
    | nil => exact ⟨[], rfl⟩
    | append_singleton h e ih =>
      obtain ⟨l, hl⟩ := ih
      rw [run_snoc, step_eq]
      cases asWorld cfg (run cfg h) e with
      | none => exact ⟨l, hl⟩
      | some x => exact ⟨l ++ [x.1], by rw [World.run_snoc, ← hl]; rfl⟩
  obtain ⟨l, hl⟩ := one h
  refine ⟨l, ?_⟩
  induction t using snocRec with
  | nil => exact ⟨[], hl, by simpa using hl⟩
  | append_singleton t e ih =>
    obtain ⟨l', h1, h2⟩ := ih
    rw [← List.append_assoc, run_snoc, step_eq]
    cases asWorld cfg (run cfg (h ++ t)) e with
    | none => exact ⟨l', h1, h2⟩
    | some x => exact ⟨l' ++ [x.1], h1, by rw [← List.append_assoc, World.run_snoc, ← h2]; rfl⟩

theorem inv (h : List XEv) : World.InvS (run cfg h).w := by
  obtain ⟨l, -, hl, -⟩ := run_world cfg h []
  rw [hl]; exact (World.inv_run _ _).1

theorem nSock_le (h : List XEv) (e : XEv) : (run cfg h).w.nSock ≤ (run cfg (h ++ [e])).w.nSock := by
  obtain ⟨l, l', h1, h2⟩ := run_world cfg h [e]
  rw [h1, h2]; exact (World.kept_run cfg.world l l').nSock

/-- What is recorded for a new socket. -/
theorem new_sock (h : List XEv) (e : XEv) (hn : (run cfg h).w.nSock < (run cfg (h ++ [e])).w.nSock) :
    (run cfg (h ++ [e])).w.nSock = (run cfg h).w.nSock + 1 ∧
    ∃ c payload, AsksWith cfg h e c payload ∧ ((run cfg (h ++ [e])).w.socks (run cfg h).w.nSock).client = c ∧
      (run cfg (h ++ [e])).hs (run cfg h).w.nSock = some ⟨cfg.request c, payload⟩ ∧
      (((run cfg (h ++ [e])).w.socks (run cfg h).w.nSock).recovered = true → ∃ pid off sc b x missed,
        asks true payload = some (pid, off) ∧ cfg.world.recovery = some (sc, b) ∧
        (Session.restore sc (run cfg h).w.now pid off ((run cfg h).w.nss ((run cfg (h ++ [e])).w.socks (run cfg h).w.nSock).ns).sess).2 = .ok x missed ∧
        ((run cfg (h ++ [e])).w.socks (run cfg h).w.nSock).pid = x.pid) := by
  rw [run_snoc, step_eq] at hn ⊢
  have hinv := inv cfg h
  cases ha : asWorld cfg (run cfg h) e with
  | none => rw [ha] at hn; simp at hn
  | some x =>
    obtain ⟨e', a⟩ := x
    rw [ha] at hn
    dsimp only at hn ⊢
    simp only [record] at hn ⊢
    rcases World.made_step hinv cfg.world e' with hm | ⟨c, name, hask, m1, m2, -⟩
    · omega
    · refine ⟨m1, c, a, ?_, m2, by rw [if_pos hn, World.upd_same, m2], fun hr => ?_⟩
      · rcases hask with ⟨rfl, hc, -⟩ | ⟨auth, rfl, -⟩
        · cases e with
          | packet c p => simp [asWorld, worldEv] at ha
          | other e =>
            cases e <;> simp [asWorld] at ha
            obtain ⟨rfl, rfl⟩ := ha
            exact .inl ⟨rfl, hc, rfl⟩
        · cases e with
          | other e => cases e <;> simp [asWorld] at ha
          | packet c' p =>
            simp only [asWorld, worldEv, Option.some.injEq, Prod.mk.injEq, World.Ev.recv.injEq] at ha
            obtain ⟨⟨rfl, ht, -⟩, rfl⟩ := ha
            refine .inr ⟨p, rfl, ht, ?_⟩
            cases hp : ((run cfg h).w.clients c').proto3 with
            | false => exact .inl ⟨rfl, by simp [authOf]⟩
            | true =>
              refine .inr ⟨rfl, ?_⟩
              simp only [authOf, if_true]
              cases hq : cfg.parse p.nsp with
              | none => exact .inr ⟨rfl, rfl⟩
              | some x => exact .inl ⟨x.1, x.2, rfl, rfl⟩
      · obtain ⟨c', name', auth', he', g⟩ := World.given_step hinv cfg.world e' (by omega) hr
        obtain ⟨sc, b, pid, off, x, missed, g1, g2, g3, g4, -⟩ := g hr
        refine ⟨pid, off, sc, b, x, missed, ?_, g2, g3, g4⟩
        cases e with
        | other e => cases e <;> simp [asWorld] at ha <;> (obtain ⟨rfl, -⟩ := ha; cases he')
        | packet c'' p =>
          simp only [asWorld, worldEv, Option.some.injEq, Prod.mk.injEq] at ha
          obtain ⟨h1, rfl⟩ := ha
          rw [← h1] at he'
          injection he' with _ _ _ h2
          rw [g1, g2] at h2
          exact h2

theorem hs_old (h : List XEv) (e : XEv) (r : Nat) (hr : r < (run cfg h).w.nSock) : (run cfg (h ++ [e])).hs r = (run cfg h).hs r := by
  rw [run_snoc, step_eq]
  cases asWorld cfg (run cfg h) e with
  | none => rfl
  | some x =>
    simp only [record]
    split
    · rw [World.upd_ne _ _ (by omega)]
    · rfl

end Verif.Handshake
