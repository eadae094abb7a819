import Verif.Proof.WorldIdle
import Verif.Props.Lifecycle

/-!
# C101: a server keeps nothing of the clients that have gone
-/

namespace Verif.Props
open Verif Verif.World Verif.Spec Verif.Adapter

/-- **C101, what is kept (partial)**: whatever a namespace keeps about an id (a socket in `Sockets()`, a set of rooms, a place in a
room) is about a socket of this namespace with this id which is connected over a connection that is up, or whose middlewares are not
done.  Missing: two open sockets of one namespace with the same id (`NeverTwins`), for which it is false (`C101_twin_fail`). -/
theorem C101_kept_partial (cfg : World.Cfg) (h : List World.Ev) (hn : NextOnce h) (ht : NeverTwins cfg h) (n : Nat) (sid : Sid)
    (hk : Keeps ((run cfg h).nss n) sid) :
    ∃ r, r < (run cfg h).nSock ∧ ((run cfg h).socks r).ns = n ∧ ((run cfg h).socks r).sid = sid ∧
      (Undecided (run cfg h) r ∨
        ((run cfg h).socks r).connected = true ∧ ((run cfg h).clients ((run cfg h).socks r).client).listening = true) := by
  have hs := (inv_run cfg h).1
  have hg := good_run cfg h hn ht
  have hc := invC_run cfg h
  have hw := wait_run cfg h hn
  have live : ∀ r, ((run cfg h).socks r).connected = true → ((run cfg h).clients ((run cfg h).socks r).client).listening = true := by
    intro r hr
    cases hl : ((run cfg h).clients ((run cfg h).socks r).client).listening with
    | true => rfl
    | false =>
      have h1 := hg.f.cl r hr
      rw [(hc _ hl).2] at h1
      simp at h1
  have key : sid ∈ ((run cfg h).nss n).ad.sids.keys → ∃ r, r < (run cfg h).nSock ∧ ((run cfg h).socks r).ns = n ∧
      ((run cfg h).socks r).sid = sid ∧ (Undecided (run cfg h) r ∨
        ((run cfg h).socks r).connected = true ∧ ((run cfg h).clients ((run cfg h).socks r).client).listening = true) := by
    intro hm
    obtain ⟨r, h1, h2, h3, h4⟩ := hs.live n sid hm
    refine ⟨r, h1, h2, h3, ?_⟩
    cases hcon : ((run cfg h).socks r).connected with
    | true => exact .inr ⟨rfl, live r hcon⟩
    | false => exact .inl (mem_pending.1 (hw r h1 hcon h4))
  rcases hk with hk | hk | ⟨room, l, hl, hm⟩
  · cases hget : ((run cfg h).nss n).sockets.get? sid with
    | none => exact absurd hget hk
    | some r =>
      obtain ⟨h1, h2, h3⟩ := hs.reg n sid r hget
      exact ⟨r, hs.conn r h3, h1, h2, .inr ⟨h3, live r h3⟩⟩
  · refine key ((FMap.mem_keys_isSome _ _).2 ?_)
    cases hget : ((run cfg h).nss n).ad.sids.get? sid with
    | none => exact absurd hget hk
    | some _ => rfl
  · obtain ⟨l', hl', -⟩ := ((hs.ad n).agree sid room).1 ⟨l, hl, hm⟩
    exact key ((FMap.mem_keys_iff _ _).2 ⟨l', hl'⟩)

/-- **C101, nothing is left (partial)**: when every connection is over and no middleware is at work, no namespace keeps anything about
any socket, no client does, and no socket is connected.  Missing: as above. -/
theorem C101_idle_partial (cfg : World.Cfg) (h : List World.Ev) (hn : NextOnce h) (ht : NeverTwins cfg h)
    (hg : AllGone (run cfg h)) (hw : NoneWaits (run cfg h)) :
    (∀ n, KeepsNothing ((run cfg h).nss n)) ∧ (∀ c, (∀ sid, ((run cfg h).clients c).sockets.get? sid = none) ∧
      ∀ name, ((run cfg h).clients c).nsps.get? name = none) ∧
      ∀ r, r < (run cfg h).nSock → ((run cfg h).socks r).connected = false ∧ ((run cfg h).socks r).canJoin = false := by
  have hs := (inv_run cfg h).1
  have hgd := good_run cfg h hn ht
  have hc := invC_run cfg h
  have nokeep : ∀ n sid, ¬ Keeps ((run cfg h).nss n) sid := by
    intro n sid hk
    obtain ⟨r, h1, -, -, h4 | ⟨-, h4⟩⟩ := C101_kept_partial cfg h hn ht n sid hk
    · exact hw r h4
    · rw [hg _ (hs.sock r h1).2] at h4; simp at h4
  have off : ∀ r, ((run cfg h).socks r).connected = false := by
    intro r
    cases hr : ((run cfg h).socks r).connected with
    | false => rfl
    | true =>
      have h1 := hgd.f.cl r hr
      rw [(hc _ (hg _ (hs.sock r (hs.conn r hr)).2)).2] at h1
      simp at h1
  have hnil : ∀ {V : Type} (m : FMap String V), (∀ k, m.get? k = Option.none) → m = [] := by
    intro V m hm
    cases m with
    | nil => rfl
    | cons p m => obtain ⟨a, b⟩ := p; have := hm a; rw [FMap.get?_cons, if_pos rfl] at this; cases this
  refine ⟨fun n => ⟨hnil _ fun sid => ?_, hnil _ fun room => ?_, hnil _ fun sid => ?_⟩, fun c => ⟨fun sid => ?_, fun name => ?_⟩, fun r hr => ⟨off r, ?_⟩⟩
  · cases hget : ((run cfg h).nss n).sockets.get? sid with
    | none => rfl
    | some r => exact absurd (.inl (by simp [hget])) (nokeep n sid)
  · cases hget : ((run cfg h).nss n).ad.rooms.get? room with
    | none => rfl
    | some l =>
      cases l with
      | nil => exact absurd rfl ((hs.ad n).nonempty room _ hget)
      | cons sid l => exact absurd (.inr (.inr ⟨room, _, hget, by simp⟩)) (nokeep n sid)
  · cases hget : ((run cfg h).nss n).ad.sids.get? sid with
    | none => rfl
    | some r => exact absurd (.inr (.inl (by simp [hget]))) (nokeep n sid)
  · cases hget : ((run cfg h).clients c).sockets.get? sid with
    | none => rfl
    | some r => have := (hs.cl c sid r hget).2.2; rw [off r] at this; simp at this
  · cases hget : ((run cfg h).clients c).nsps.get? name with
    | none => rfl
    | some r => have := hgd.f.cns c name r hget; rw [off r] at this; simp at this
  · cases hj : ((run cfg h).socks r).canJoin with
    | false => rfl
    | true => exact absurd (mem_pending.1 (wait_run cfg h hn r hr (off r) hj)) (hw r)

/-- **C101, false for twins**: a client of the old protocol, which is connected to the main namespace on arrival, sends a CONNECT for it
before that is done.  Its two sockets have the same id.  After one is disconnected the other joins a room, and this stays when the
connection is over. -/
theorem C101_twin_fail : ∃ (cfg : World.Cfg) (h : List World.Ev), NextOnce h ∧ AllGone (run cfg h) ∧ NoneWaits (run cfg h) ∧
    ¬ KeepsNothing ((run cfg h).nss 0) ∧ ((run cfg h).socks 0).connected = true := by
  refine ⟨Demo.cfg, [.accept true, .recv 0 .connect "/" none, .task 0, .task 0, .recv 0 .disconnect "/" none, .task 0, .join 0 ["x"],
    .transportClose 0 "transport close"], by decide, by decide, fun r hr => ?_, by decide, by decide⟩
  rw [← mem_pending] at hr
  revert hr
  rw [show pending _ = [] by decide]
  simp

namespace Demo

/-- Two clients and three sockets come, join a room and go; the last one while a socket waits for its goroutine. -/
def gone : List World.Ev :=
  two ++ [.recv 1 .connect "/chat" none, .transportClose 0 "transport close", .transportClose 1 "ping timeout", .task 0]

theorem gone_twins : NeverTwins cfg gone := neverTwins_fresh (by decide) rfl ident_inj (by decide)

end Demo

/-- Non-vacuity: something is kept before, also of a client that has gone while its middlewares are at work; nothing afterwards. -/
example : NextOnce Demo.gone ∧ NeverTwins Demo.cfg Demo.gone ∧ AllGone (run Demo.cfg Demo.gone) ∧ pending (run Demo.cfg Demo.gone) = [] ∧
    (run Demo.cfg Demo.gone).nSock = 4 ∧ ¬ KeepsNothing ((run Demo.cfg Demo.two).nss 0) ∧ ¬ KeepsNothing ((run Demo.cfg Demo.two).nss 1) ∧
    pending (run Demo.cfg (Demo.gone.take 14)) = [3] ∧ AllGone (run Demo.cfg (Demo.gone.take 14)) :=
  ⟨by decide, Demo.gone_twins, by decide, by decide, by decide, by decide, by decide, by decide, by decide⟩

end Verif.Props
