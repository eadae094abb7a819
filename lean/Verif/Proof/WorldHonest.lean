import Verif.Spec.Honest
import Verif.Proof.WorldGiven
import Verif.Proof.WorldKeep
import Verif.Props.Connecting

/-! # The server: ids of recovered sockets -/

namespace Verif.World
open Verif Verif.Adapter Verif.Spec

/-- The client exists and its protocol is this. -/
def Proto (c : Nat) (b : Bool) (w : W) : Prop := c < w.nClient ∧ (w.clients c).proto3 = b

theorem Proto.calm {c : Nat} {b : Bool} {w w' : W} (h : Proto c b w) (cm : Calm w w') : Proto c b w' :=
  ⟨by rw [cm.nClient]; exact h.1, by rw [cm.proto3]; exact h.2⟩

theorem grow_proto (cfg : Cfg) (c : Nat) (b : Bool) : Grow0 cfg (Proto c b) where
  inert w t ch now h := h
  use w n h := h
  data w ref v h := h
  newNs w s _ _ _ _ _ h := h
  newClient w p _ h := by
    refine ⟨Nat.lt_succ_of_lt h.1, ?_⟩
    dsimp only; rw [upd_ne _ _ (Nat.ne_of_lt h.1)]; exact h.2
  create w n c' auth _ _ _ h := by
    obtain ⟨h1, h2⟩ := create_clients cfg w n c' auth
    exact ⟨by rw [h2]; exact h.1, by rw [h1]; exact h.2⟩
  doConnect w ref _ _ _ h := by
    obtain ⟨-, -, -, -, -, d6, -⟩ := doConnect_fields w ref
    exact ⟨by rw [d6]; exact h.1, by rw [doConnect_proto3]; exact h.2⟩
  cleanup w ref _ _ h := by
    obtain ⟨-, -, d3, -, -, d6, -⟩ := cleanup_fields cfg w ref
    exact ⟨by rw [d6]; exact h.1, by rw [d3]; exact h.2⟩
  packet w c' ref x _ _ h := h.calm (calm_clientPacket _ _ _ _)
  received w ref type h := h

theorem proto_snoc (cfg : Cfg) (h : List Ev) (e : Ev) (c : Nat) (hc : c < (run cfg h).nClient) :
    ((run cfg (h ++ [e])).clients c).proto3 = ((run cfg h).clients c).proto3 := by
  rw [run_snoc]
  have p0 : Proto c ((run cfg h).clients c).proto3 (run cfg h) := ⟨hc, rfl⟩
  by_cases he : e.calm = true
  · exact (p0.calm (calm_step cfg _ e he)).2
  · obtain ⟨i1, i2⟩ := inv_run cfg h
    exact ((grow_proto cfg c _).step i1 i2 e he
      (fun c hP => hP.calm (calm_clientClose _ _ _)) (fun v ref reason _ _ hP => hP.calm (calm_onclose _ _ _ _)) p0).2

/-- Every socket has the ids of one that was not recovered: itself, or one of a client of protocol 4 at least. -/
def Rooted (w : W) : Prop := ∀ r, r < w.nSock → ∃ o, o ≤ r ∧ (w.socks o).recovered = false ∧ (w.socks r).sid = (w.socks o).sid ∧
  (w.socks r).pid = (w.socks o).pid ∧ (o = r ∨ (w.clients (w.socks o).client).proto3 = false)

/-- What asking for a session gives. -/
theorem recovered_new (cfg : Cfg) (h : List Ev) (e : Ev) (hn : (run cfg (h ++ [e])).nSock ≠ (run cfg h).nSock)
    (hr : ((run cfg (h ++ [e])).socks (run cfg h).nSock).recovered = true) :
    ∃ c name pid off ref, e = .recv c .connect name (some (pid, off)) ∧ ref < (run cfg h).nSock ∧ ((run cfg h).socks ref).pid = pid ∧
      ((run cfg (h ++ [e])).socks (run cfg h).nSock).pid = pid ∧
      ((run cfg (h ++ [e])).socks (run cfg h).nSock).sid = ((run cfg h).socks ref).sid := by
  rw [run_snoc] at hn hr ⊢
  obtain ⟨c, name, auth, rfl, g⟩ := given_step (inv_run cfg h).1 cfg e hn hr
  obtain ⟨sc, b, pid, off, x, missed, rfl, hrec, hres, h1, h2⟩ := g hr
  obtain ⟨ref, o1, o2, o3, o4, o5⟩ := Props.C15_origin cfg sc b hrec h _ _ _ _ _ _ hres
  refine ⟨c, name, pid, off, ref, rfl, ?_, by rw [o4, o5], by rw [h1, o5], by rw [h2, o3]⟩
  exact ((stores_run cfg hrec h).owned ref x o1).1

theorem rooted_run {cfg : Cfg} {h : List Ev} (hh : Honest cfg h) : Rooted (run cfg h) := by
  induction h using snocRec with
  | nil => intro r hr; simp [run, init, newNs] at hr
  | append_singleton h e ih =>
    have ih := ih fun p c name pid off hpre => hh p c name pid off (hpre.trans (List.prefix_append _ _))
    have k := kept_run cfg h [e]
    have hs := (inv_run cfg h).1
    have lift : ∀ r, r < (run cfg h).nSock → ∃ o, o ≤ r ∧ ((run cfg (h ++ [e])).socks o).recovered = false ∧
        ((run cfg h).socks r).sid = ((run cfg (h ++ [e])).socks o).sid ∧ ((run cfg h).socks r).pid = ((run cfg (h ++ [e])).socks o).pid ∧
        (o = r ∨ ((run cfg (h ++ [e])).clients ((run cfg (h ++ [e])).socks o).client).proto3 = false) := by
      intro r hr
      obtain ⟨o, h1, h2, h3, h4, h5⟩ := ih r hr
      have ho : o < (run cfg h).nSock := by omega
      refine ⟨o, h1, by rw [k.recovered o ho]; exact h2, by rw [k.sid o ho]; exact h3, by rw [k.pid o ho]; exact h4, ?_⟩
      rw [k.client o ho, proto_snoc cfg h e _ (hs.sock o ho).2]
      exact h5
    intro r hr
    by_cases hr0 : r < (run cfg h).nSock
    · obtain ⟨o, h1, h2, h3, h4, h5⟩ := lift r hr0
      exact ⟨o, h1, h2, by rw [k.sid r hr0]; exact h3, by rw [k.pid r hr0]; exact h4, h5⟩
    · have hone : r = (run cfg h).nSock ∧ (run cfg (h ++ [e])).nSock ≠ (run cfg h).nSock := by
        have := made_step hs cfg e
        rw [← run_snoc] at this
        rcases this with m | ⟨_, _, _, m, _⟩ <;> omega
      obtain ⟨rfl, hne⟩ := hone
      cases hrec : ((run cfg (h ++ [e])).socks (run cfg h).nSock).recovered with
      | false => exact ⟨_, Nat.le_refl _, hrec, rfl, rfl, .inl rfl⟩
      | true =>
        obtain ⟨c, name, pid, off, ref, rfl, r1, r2, r3, r4⟩ := recovered_new cfg h e hne hrec
        obtain ⟨o, h1, h2, h3, h4, h5⟩ := lift ref r1
        refine ⟨o, by omega, h2, by rw [r4]; exact h3, r3.trans (r2.symm.trans h4), .inr ?_⟩
        rcases h5 with rfl | h5
        · rw [k.client o r1, proto_snoc cfg h _ _ (hs.sock o r1).2]
          exact (hh h c name pid off (List.prefix_refl _) o r1 r2).2
        · exact h5

theorem noTwins_honest {cfg : Cfg} {h : List Ev} (hp : Patient cfg h) (hg : GoodIds cfg) (hh : Honest cfg h) : NoTwins (run cfg h) := by
  induction h using snocRec with
  | nil => intro r r' h1; simp [IsOpen, run, init, newNs] at h1
  | append_singleton h e ih =>
    have hh' : Honest cfg h := fun p c name pid off hpre => hh p c name pid off (hpre.trans (List.prefix_append _ _))
    have hp' : Patient cfg h := fun p c name auth hpre => hp p c name auth (hpre.trans (List.prefix_append _ _))
    have ih := ih hp' hh'
    have k := kept_run cfg h [e]
    have hs := (inv_run cfg h).1
    have root := rooted_run hh
    have ids := ids_run cfg (h ++ [e])
    have one := oneEach_patient cfg (h ++ [e]) hp
    have hstep : ∀ r, r < (run cfg (h ++ [e])).nSock → ¬ r < (run cfg h).nSock → r = (run cfg h).nSock := by
      intro r hr hr0
      have := made_step hs cfg e
      rw [← run_snoc] at this
      rcases this with m | ⟨_, _, _, m, _⟩ <;> omega
    /- Sockets that were not recovered, one of them of protocol 4, have the same id only if they are the same. -/
    have apart : ∀ o o', o < (run cfg (h ++ [e])).nSock → o' < (run cfg (h ++ [e])).nSock →
        ((run cfg (h ++ [e])).socks o).recovered = false → ((run cfg (h ++ [e])).socks o').recovered = false →
        ((run cfg (h ++ [e])).socks o).sid = ((run cfg (h ++ [e])).socks o').sid →
        ((run cfg (h ++ [e])).clients ((run cfg (h ++ [e])).socks o).client).proto3 = false → o = o' := by
      intro o o' ho ho' hr hr' he hp3
      rw [ids o ho hr, ids o' ho' hr'] at he
      rcases idFor_inj hg he with e | ⟨e1, -⟩
      · exact e
      · unfold idFor at he
        rw [← e1, hp3] at he
        simp only [Bool.false_eq_true, if_false] at he
        exact hg.sid _ _ he
    have main : ∀ r, IsOpen (run cfg (h ++ [e])) r → r < (run cfg h).nSock →
        IsOpen (run cfg (h ++ [e])) (run cfg h).nSock →
        ((run cfg (h ++ [e])).socks r).sid ≠ ((run cfg (h ++ [e])).socks (run cfg h).nSock).sid := by
      intro r ho hr ho' he
      have hne : (run cfg (h ++ [e])).nSock ≠ (run cfg h).nSock := by have := ho'.1; omega
      obtain ⟨o, o1, o2, o3, o4, o5⟩ := root r ho.1
      have hol : o < (run cfg (h ++ [e])).nSock := Nat.lt_of_le_of_lt o1 ho.1
      cases hrec : ((run cfg (h ++ [e])).socks (run cfg h).nSock).recovered with
      | false =>
        rcases o5 with rfl | o5
        · rw [ids o hol o2, ids _ ho'.1 hrec] at he
          rcases idFor_inj hg he with e | ⟨e1, e2⟩
          · omega
          · have := one o _ ho ho' e1 e2; omega
        · have := apart o _ hol ho'.1 o2 hrec (o3.symm.trans he) o5
          omega
      | true =>
        obtain ⟨c, name, pid, off, ref, rfl, r1, r2, r3, r4⟩ := recovered_new cfg h e hne hrec
        have hon := fun x hx => hh h c name pid off (List.prefix_refl _) x hx
        obtain ⟨a, a1, a2, a3, a4, a5⟩ := root ref (Nat.lt_of_lt_of_le r1 k.nSock)
        have hp3 : ((run cfg (h ++ [.recv c .connect name (some (pid, off))])).clients
            ((run cfg (h ++ [.recv c .connect name (some (pid, off))])).socks a).client).proto3 = false := by
          rcases a5 with rfl | a5
          · rw [k.client a r1, proto_snoc cfg h _ _ (hs.sock a r1).2]; exact (hon a r1 r2).2
          · exact a5
        have hao : a = o := by
          refine apart a o (by have := k.nSock; omega) hol a2 o2 ?_ hp3
          rw [← a3, k.sid ref r1, ← r4, ← he, o3]
        subst hao
        have hpid : ((run cfg h).socks r).pid = pid := by
          rw [← k.pid r hr, o4, ← a4, k.pid ref r1]; exact r2
        exact (hon r hr hpid).1 ⟨hr, k.canJoin r hr ho.2⟩
    intro r r' ho ho' he
    by_cases hr : r < (run cfg h).nSock
    · by_cases hr' : r' < (run cfg h).nSock
      · exact ih r r' ⟨hr, k.canJoin r hr ho.2⟩ ⟨hr', k.canJoin r' hr' ho'.2⟩ (by rw [← k.sid r hr, ← k.sid r' hr']; exact he)
      · obtain rfl := hstep r' ho'.1 hr'
        exact absurd he (main r ho hr ho')
    · obtain rfl := hstep r ho.1 hr
      by_cases hr' : r' < (run cfg h).nSock
      · exact absurd he.symm (main r' ho' hr' ho)
      · exact (hstep r' ho'.1 hr').symm

end Verif.World
