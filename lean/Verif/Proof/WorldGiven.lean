import Verif.Proof.WorldConn
import Verif.Proof.WorldData

/-! # The server: what session a recovered socket was given -/

namespace Verif.World
open Verif Verif.Adapter Verif.Spec

/-- A recovered socket was given the session of the private id in the payload. -/
def Given (cfg : Cfg) (w : W) (auth : Option (Session.Pid × String)) (s : Sock) : Prop :=
  s.recovered = true → ∃ sc b pid off x missed, auth = some (pid, off) ∧ cfg.recovery = some (sc, b) ∧
    (Session.restore sc w.now pid off (w.nss s.ns).sess).2 = .ok x missed ∧ s.pid = x.pid ∧ s.sid = x.sid

theorem given_create (cfg : Cfg) (w : W) (n c : Nat) (auth : Option (Session.Pid × String)) :
    Given cfg w auth ((createSocket cfg w n c auth).socks w.nSock) := by
  unfold createSocket; split
  · rename_i sc b pid off hr
    dsimp only; split
    · rename_i s missed he
      rw [recover_eq]
      refine fun _ => ⟨sc, b, pid, off, s, missed, rfl, hr, ?_, ?_, ?_⟩
      · simpa [setNs] using he
      · simp [setNs]
      · simp [setNs]
    · exact fun h => by simp [newSocket, alloc, setNs] at h
  · exact fun h => by simp [newSocket, alloc] at h

theorem given_add (cfg : Cfg) (w : W) (n c : Nat) (auth : Option (Session.Pid × String)) :
    Given cfg w auth ((add cfg w n c auth).socks w.nSock) := by
  have g0 := given_create cfg w n c auth
  unfold add; dsimp only; split
  · obtain ⟨d1, d2, -⟩ := doConnect_fields (createSocket cfg w n c auth) w.nSock
    rw [d2, upd_same]
    exact g0
  · split
    · exact g0
    · exact g0

theorem given_connect (cfg : Cfg) (w : W) (c : Nat) (name : String) (auth : Option (Session.Pid × String))
    (hn : (connect cfg w c name auth).nSock ≠ w.nSock) : Given cfg w auth ((connect cfg w c name auth).socks w.nSock) := by
  revert hn
  unfold connect; split
  · exact fun _ => given_add _ _ _ _ _
  · split
    · intro _ hr
      have g := given_add cfg (newNs w { name := name, fns := cfg.childFns, auto := cfg.autoClean }) w.nNs c auth
      obtain ⟨sc, b, pid, off, x, missed, h1, h2, h3, h4⟩ := g hr
      have key : ∀ m, (Session.restore sc w.now pid off ((newNs w { name := name, fns := cfg.childFns, auto := cfg.autoClean }).nss m).sess).2 = .ok x missed →
          (Session.restore sc w.now pid off (w.nss m).sess).2 = .ok x missed := by
        intro m h3
        by_cases e : m = w.nNs
        · simp only [newNs, e, upd_same] at h3
          simp [Session.restore] at h3
        · simp only [newNs] at h3
          rw [upd_ne _ _ e] at h3
          exact h3
      exact ⟨sc, b, pid, off, x, missed, h1, h2, key _ h3, h4⟩
    · exact fun hn => absurd (calm_clientPacket _ _ _ _).nSock hn

theorem given_step {w : W} (hs : InvS w) (cfg : Cfg) (e : Ev) (hn : (step cfg w e).nSock ≠ w.nSock)
    (hr : ((step cfg w e).socks w.nSock).recovered = true) :
    ∃ c name auth, e = .recv c .connect name auth ∧ Given cfg w auth ((step cfg w e).socks w.nSock) := by
  rcases made_step hs cfg e with h | ⟨c, name, ⟨rfl, rfl, rfl⟩ | ⟨auth, rfl, h1, h2, h3⟩, -⟩
  · exact absurd h hn
  · simp only [step, accept] at hn hr
    have g := given_connect cfg { w with
          clients := upd w.clients w.nClient { proto3 := true, conn := .opened, timer := true, listening := true }
          nClient := w.nClient + 1 } w.nClient "/" none hn
    obtain ⟨_, _, _, _, _, _, h, _⟩ := g hr
    cases h
  · refine ⟨c, name, auth, rfl, ?_⟩
    have e1 : step cfg w (.recv c .connect name auth) = connect cfg w c name auth := by
      simp only [step]; rw [if_pos ⟨h1, h2⟩]; simp [ondecoded, h3]
    rw [e1] at hn ⊢
    exact given_connect cfg w c name auth hn

end Verif.World
