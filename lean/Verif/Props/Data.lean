import Verif.Proof.WorldData
import Verif.Props.Connecting

/-!
# C100: the data of a socket is what was last set on it
-/

namespace Verif.Props
open Verif Verif.World Verif.Spec

/-- **C100, set**: after `SetData`, whatever happens, `Data` returns that value until the next `SetData` on the same socket. -/
theorem C100_set (cfg : World.Cfg) (h t : List World.Ev) (r : Nat) (v : Val) (hr : r < (run cfg h).nSock)
    (ht : ∀ u, World.Ev.setData r u ∉ t) : ((run cfg (h ++ .setData r v :: t)).socks r).data = some v := by
  have e : h ++ World.Ev.setData r v :: t = (h ++ [.setData r v]) ++ t := by simp
  rw [e, data_kept cfg _ t r (Nat.lt_of_lt_of_le hr (kept_run cfg h _).nSock) ht, run_snoc]
  simp only [World.step]; rw [if_pos hr]; simp [setSock]

/-- Non-vacuity: the data of a socket while others come, set theirs and go; and after its own end. -/
example : 0 < (run (Demo.scfg true) (Demo.lost.take 4)).nSock ∧
    ((run (Demo.scfg true) Demo.lost).socks 0).data = some (.num 7) ∧ ((run (Demo.scfg true) Demo.lost).socks 0).connected = false ∧
    ((run (Demo.scfg true) (Demo.lost ++ [Demo.back, .setData 1 (.num 8)])).socks 0).data = some (.num 7) ∧
    ((run (Demo.scfg true) (Demo.lost ++ [Demo.back, .setData 1 (.num 8)])).socks 1).data = some (.num 8) := by decide

/-- **C100, kept**: nothing but `SetData` on it changes the data of a socket: no packet of any client, no other socket's data, no
disconnection, no broadcast. -/
theorem C100_kept (cfg : World.Cfg) (h t : List World.Ev) (r : Nat) (hr : r < (run cfg h).nSock) (ht : ∀ u, World.Ev.setData r u ∉ t) :
    ((run cfg (h ++ t)).socks r).data = ((run cfg h).socks r).data := data_kept cfg h t r hr ht

/-- **C100, new**: a socket that is not recovered begins without data. -/
theorem C100_new (cfg : World.Cfg) (h : List World.Ev) (e : World.Ev) (r : Nat) (hc : Creates cfg h e r)
    (hf : ((run cfg (h ++ [e])).socks r).recovered = false) : ((run cfg (h ++ [e])).socks r).data = none := by
  obtain ⟨h1, h2⟩ := hc
  rw [run_snoc] at h2 hf ⊢
  exact ((data_step cfg _ e).2.2 r h1 h2).1 hf

/-- **C100, carried on**: a recovered socket begins with the data of the socket it continues: the one whose session was saved last under
the private id.  It has the same id and private id, is of the same namespace, and the data are those it had when the event began that
disconnected it. -/
theorem C100_carried (cfg : World.Cfg) (h : List World.Ev) (e : World.Ev) (r : Nat) (hc : Creates cfg h e r)
    (hf : ((run cfg (h ++ [e])).socks r).recovered = true) :
    ∃ h₀ e₀ r₀, LastSave cfg ((run cfg (h ++ [e])).socks r).ns ((run cfg (h ++ [e])).socks r).pid h h₀ e₀ r₀ ∧
      r₀ < (run cfg h₀).nSock ∧ ((run cfg h₀).socks r₀).sid = ((run cfg (h ++ [e])).socks r).sid ∧
      ((run cfg h₀).socks r₀).pid = ((run cfg (h ++ [e])).socks r).pid ∧ ((run cfg h₀).socks r₀).ns = ((run cfg (h ++ [e])).socks r).ns ∧
      ((run cfg (h ++ [e])).socks r).data = ((run cfg h₀).socks r₀).data := by
  obtain ⟨h1, h2⟩ := hc
  rw [run_snoc] at h2 hf ⊢
  obtain ⟨sc, b, pid, off, x, missed, hr, hres, q1, q2, q3⟩ := ((data_step cfg _ e).2.2 r h1 h2).2 hf
  rw [(stores_run cfg hr h).store] at hres
  obtain ⟨⟨t, hl, -⟩, -⟩ := C10_replay_exact sc _ _ pid off x missed hres
  obtain ⟨h₀, e₀, r₀, l1, l2, l3, l4, l5, l6⟩ := lastSave hr _ h pid x t hl
  have hp : x.pid = pid := by obtain ⟨_, _, _, hp, _⟩ := hl; exact hp
  rw [q1, q2, q3]
  exact ⟨h₀, e₀, r₀, hp ▸ l1, l3, l4.symm, l5.symm, l6, l2⟩

/-- Non-vacuity: socket 1 continues socket 0, whose session was saved when its connection was lost; what is set on socket 0 afterwards
does not count. -/
example : Creates (Demo.scfg true) (Demo.lost ++ [.setData 0 (.num 9)]) Demo.back 1 ∧
    ((run (Demo.scfg true) (Demo.lost ++ [.setData 0 (.num 9), Demo.back])).socks 1).recovered = true ∧
    ((run (Demo.scfg true) (Demo.lost ++ [.setData 0 (.num 9), Demo.back])).socks 1).data = some (.num 7) ∧
    LastSave (Demo.scfg true) 0 "" (Demo.lost ++ [.setData 0 (.num 9)]) (Demo.lost.take 7) (.transportClose 0 "transport close") 0 :=
  ⟨by decide, by decide, by decide, Demo.lost.drop 8 ++ [.setData 0 (.num 9)], [], { sid := "", pid := "", rooms := ["red", ""], data := some (.num 7) }, [],
    by decide, by decide, by decide, by simp, by decide, by decide⟩

end Verif.Props
