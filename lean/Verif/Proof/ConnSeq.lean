import Verif.Spec.ConnSeq
import Verif.Proof.WorldSave

/-! # Connecting and closing one socket: the fine and the coarse model -/

namespace Verif.World
open Verif Verif.Adapter Verif.Spec

theorem mem_own {w : W} (h : Ads w) (ref : Nat) (r : Room) :
    r ∈ roomsOf (w.nss (w.socks ref).ns).ad (w.socks ref).sid ↔ In w ref r := Delivery.mem_roomsOf (h _) _ _

/-- The steps of the goroutine that connects a socket (Model/ConnRace). -/
theorem conn_steps (s : ConnRace.St) (hc : s.conn = .test) :
    (List.replicate 8 ConnRace.Ev.conn).foldl ConnRace.step s =
      if s.isOpen then { s with
        inNsp := true, connected := true, inRoom := if s.canJoin then true else s.inRoom
        registered := true, named := true, conn := .done, log := s.log ++ [.connectPacket, .connection] }
      else { s with inNsp := false, inRoom := false, canJoin := false, conn := .refused } := by
  obtain ⟨o, a, b, c, d, e, f, g, k, l⟩ := s
  simp only at hc; subst hc
  cases o <;> simp [List.replicate, ConnRace.step, ConnRace.connect]

/-- The steps of `_onclose` alone. -/
theorem leave_steps (s : ConnRace.St) (hc : s.connected = true) (hk : s.closers = []) :
    (ConnRace.Ev.leave :: List.replicate 8 (ConnRace.Ev.adv 0)).foldl ConnRace.step s =
      { s with inRoom := false, inNsp := false, canJoin := false, registered := false
               named := if s.registered then false else s.named, connected := false
               closers := [(false, .done)], log := s.log ++ [.disconnecting, .disconnect] } := by
  obtain ⟨o, a, b, c, d, e, f, g, k, l⟩ := s
  simp only at hc hk; subst hc; subst hk
  cases e <;> simp [List.replicate, ConnRace.step, ConnRace.advance, ConnRace.close, ConnRace.after]

/-- The steps of `onclose`. -/
theorem onclose_steps (s : ConnRace.St) (hk : s.closers = []) :
    ([ConnRace.Ev.hangup, .onclose] ++ List.replicate 11 (ConnRace.Ev.adv 0)).foldl ConnRace.step s =
      if s.registered ∧ s.connected then
      { s with isOpen := false, inRoom := false, inNsp := false, canJoin := false, registered := false
               named := false, connected := false
               closers := [(true, .done)], log := s.log ++ [.disconnecting, .disconnect] }
      else { s with isOpen := false, registered := false, closers := [(true, .done)] } := by
  obtain ⟨o, a, b, c, d, e, f, g, k, l⟩ := s
  simp only at hk; subst hk
  cases e <;> cases b <;> simp [List.replicate, ConnRace.step, ConnRace.advance, ConnRace.close, ConnRace.after]

variable {cfg : Cfg} {w : W} {ref : Nat} {s : ConnRace.St}

theorem same_doConnect (ha : Ads w) (hs : SameSocket w ref s) (ho : s.isOpen = true) :
    SameSocket (doConnect w ref) ref { s with
        inNsp := true, connected := true, inRoom := if s.canJoin then true else s.inRoom
        registered := true, named := true, conn := .done, log := s.log ++ [.connectPacket, .connection] } := by
  obtain ⟨h1, h2, h3, h4, h5, h6, h7, h8, h9, h10, h11⟩ := doConnect_fields w ref
  have e2 : (doConnect w ref).socks ref = { w.socks ref with connected := true } := by rw [h2]; simp
  have hadd := addAll_spec (ha (w.socks ref).ns) (w.socks ref).sid [(w.socks ref).sid]
  refine ⟨?_, ?_, ?_, ?_, ?_, ?_, ?_, ?_⟩
  · rw [e2, h3]; simpa using hs.isOpen
  · rw [e2, h1]; simp [nsConnected]
  · rw [e2]
  · rw [e2]; exact hs.canJoin
  · rw [e2, h1]
    simp only [upd_same, nsConnected]
    have hr := hs.inRoom
    rw [Delivery.mem_roomsOf (ha _)] at hr
    rw [hs.canJoin]
    by_cases hj : (w.socks ref).canJoin = true
    · simp only [hj, if_true, true_iff]
      rw [Delivery.mem_roomsOf hadd.1, hadd.2.1]; simp
    · simp only [hj]
      simp only [Bool.false_eq_true, if_false]
      rw [Delivery.mem_roomsOf (ha _)]; exact hr
  · rw [e2, h3]; simp
  · rw [e2, h3, h1]; simp [nsConnected]
  · rw [h11 (hs.isOpen.1 ho)]
    simp [hs.log, outOf, connectPkt]

theorem same_cleanup (ha : Ads w) (hs : SameSocket w ref s) :
    SameSocket (cleanup cfg w ref) ref { s with inNsp := false, inRoom := false, canJoin := false, conn := .refused } := by
  obtain ⟨h1, h2, h3, h4, h5, h6, h7, h8, h9, h10, h11⟩ := cleanup_fields cfg w ref
  have e2 : (cleanup cfg w ref).socks ref = { w.socks ref with canJoin := false } := by rw [h2]; simp
  have hdel := delAll_spec (ha (w.socks ref).ns) cfg.delRet (w.socks ref).sid
  refine ⟨?_, ?_, ?_, ?_, ?_, ?_, ?_, ?_⟩
  · rw [e2, h3]; exact hs.isOpen
  · rw [e2, h1]; simp [nsCleaned]
  · rw [e2]; exact hs.connected
  · rw [e2]
  · rw [e2, h1]
    simp only [upd_same, nsCleaned]
    rw [Delivery.mem_roomsOf hdel.1, hdel.2.1]; simp
  · rw [e2, h3]; exact hs.registered
  · rw [e2, h3, h1]; simpa [nsCleaned] using hs.named
  · rw [h10]; exact hs.log

theorem ads_closing (ha : Ads w) (reason : String) : Ads (closing cfg w ref reason) := by
  have aob : Ads (obs w (.disconnecting ref reason)) := ha
  have ahe : Ads (heard cfg w ref reason) := acts_ads cfg aob _
  show Ads (persist cfg (heard cfg w ref reason) ref reason)
  unfold persist; split
  · exact ads_set ahe _ (fun n => { n with sess := Session.persist _ _ n.sess }) fun hi => hi
  · exact ahe

theorem same_onclose (ha : Ads w) (hs : SameSocket w ref s) (reason : String) (hc : s.connected = true)
    (hone : ∀ r, (w.clients (w.socks ref).client).sockets.get? (w.socks ref).sid = some r → r = ref) (k) :
    SameSocket (onclose cfg w ref reason) ref
      { s with inRoom := false, inNsp := false, canJoin := false, registered := false
               named := if s.registered then false else s.named, connected := false
               closers := k, log := s.log ++ [.disconnecting, .disconnect] } := by
  have hc' : (w.socks ref).connected = true := by rw [← hs.connected]; exact hc
  obtain ⟨f1, f2, f3⟩ := onclose_effect cfg reason hc'
  have e2 : (onclose cfg w ref reason).socks ref = closed (w.socks ref) := by rw [f1]; simp
  have hname : ((onclose cfg w ref reason).nss (w.socks ref).ns).name = (w.nss (w.socks ref).ns).name :=
    (calm_onclose cfg w ref reason).name _
  refine ⟨?_, ?_, ?_, ?_, ?_, ?_, ?_, ?_⟩
  · rw [e2, f3]
    simp only [closed, upd_same, clientCleaned]
    split <;> exact hs.isOpen
  · rw [e2, f2]; simp [closed]
  · rw [e2]; rfl
  · rw [e2]; rfl
  · rw [e2, onclose_pos cfg reason hc']
    simp only [obs, closed]
    rw [(shut_fields _ _ _).1, (closing_socks cfg w ref reason).1]
    simp only [upd_same, nsCleaned, (closing_socks cfg w ref reason).1]
    have hdel := delAll_spec (ads_closing (cfg := cfg) (ref := ref) ha reason (w.socks ref).ns) cfg.delRet (w.socks ref).sid
    rw [Delivery.mem_roomsOf hdel.1, hdel.2.1]; simp
  · rw [e2, f3]
    simp only [closed, upd_same, clientCleaned]
    split
    · simp
    · rename_i hn; simp [hn]
  · rw [e2, f3]
    simp only [closed, upd_same, clientCleaned, hname]
    cases hr : (w.clients (w.socks ref).client).sockets.get? (w.socks ref).sid with
    | some r =>
      have := hone r hr; subst this
      simp [hs.registered.2 hr]
    | none =>
      have : s.registered = false := by
        cases hreg : s.registered
        · rfl
        · have := hs.registered.1 hreg; rw [hr] at this; cases this
      simp only [this, Bool.false_eq_true, if_false]; exact hs.named
  · rw [onclose_log cfg reason hc']
    simp only [List.filterMap_append, ← hs.log]
    by_cases hp : cfg.recovery.isSome = true ∧ reason ∈ recoverable <;> simp [hp, outOf]

/-- A change of a client that keeps its tables. -/
theorem same_client (hs : SameSocket w ref s) (f : Client → Client) (b : Bool) (k)
    (h1 : b = true ↔ (f (w.clients (w.socks ref).client)).conn = .opened)
    (h2 : (f (w.clients (w.socks ref).client)).sockets = (w.clients (w.socks ref).client).sockets)
    (h3 : (f (w.clients (w.socks ref).client)).nsps = (w.clients (w.socks ref).client).nsps) :
    SameSocket (setClient w (w.socks ref).client f) ref { s with isOpen := b, closers := k } where
  isOpen := by simpa [setClient] using h1
  inNsp := hs.inNsp
  connected := hs.connected
  canJoin := hs.canJoin
  inRoom := hs.inRoom
  registered := by simpa [setClient, h2] using hs.registered
  named := by simpa [setClient, h3] using hs.named
  log := hs.log

theorem same_clear (hs : SameSocket w ref s) :
    SameSocket (setClient w (w.socks ref).client fun k => { k with sockets := [] }) ref { s with registered := false } where
  isOpen := by simpa [setClient] using hs.isOpen
  inNsp := hs.inNsp
  connected := hs.connected
  canJoin := hs.canJoin
  inRoom := hs.inRoom
  registered := by simp [setClient]
  named := by simpa [setClient] using hs.named
  log := hs.log

theorem same_clientOnclose (ha : Ads w) (hs : SameSocket w ref s) (reason : String)
    (hone : (w.clients (w.socks ref).client).sockets = [] ∨
      (w.clients (w.socks ref).client).sockets = [((w.socks ref).sid, ref)]) (k) :
    SameSocket (clientOnclose cfg w (w.socks ref).client reason) ref
      (if s.registered ∧ s.connected then
      { s with inRoom := false, inNsp := false, canJoin := false, registered := false
               named := false, connected := false
               closers := k, log := s.log ++ [.disconnecting, .disconnect] }
      else { s with registered := false, closers := k }) := by
  unfold clientOnclose
  dsimp only
  have h0 := same_client hs (fun k => { k with listening := false, timer := false }) s.isOpen k hs.isOpen rfl rfl
  have e0 : ((setClient w (w.socks ref).client fun k => { k with listening := false, timer := false }).clients
      (w.socks ref).client).sockets = (w.clients (w.socks ref).client).sockets := by simp [setClient]
  rw [e0]
  rcases hone with hone | hone
  · have hr : s.registered = false := by
      cases hr : s.registered
      · rfl
      · have := hs.registered.1 hr; rw [hone] at this; cases this
    rw [hone]
    simp only [FMap.keys, List.map_nil, List.foldl_nil, hr, Bool.false_eq_true, false_and, if_false]
    have := same_clear h0
    rw [hr] at this
    exact this
  · have hg : (w.clients (w.socks ref).client).sockets.get? (w.socks ref).sid = some ref := by
      rw [hone]; simp [FMap.get?]
    have hr := hs.registered.2 hg
    rw [hone]
    simp only [FMap.keys, List.map_cons, List.map_nil, List.foldl_cons, List.foldl_nil, hr, true_and, eachSocket, e0, hg]
    by_cases hc : s.connected = true
    · rw [if_pos hc]
      have h1 := same_onclose (cfg := cfg) (w := setClient w (w.socks ref).client fun k => { k with listening := false, timer := false })
        ha h0 reason hc (fun r hr => by
          have hr' : ((setClient w (w.socks ref).client fun k => { k with listening := false, timer := false }).clients
            (w.socks ref).client).sockets.get? (w.socks ref).sid = some r := hr
          rw [e0, hg] at hr'; cases hr'; rfl) k
      have h2 := same_clear h1
      rw [show ((onclose cfg (setClient w (w.socks ref).client fun k => { k with listening := false, timer := false }) ref reason).socks ref).client =
        (w.socks ref).client from (calm_onclose cfg _ ref reason).client ref] at h2
      simpa [hr] using h2
    · rw [if_neg hc, onclose_neg cfg reason (by rw [show (setClient w (w.socks ref).client fun k => { k with listening := false, timer := false }).socks ref = w.socks ref from rfl, ← hs.connected]; exact hc)]
      have := same_clear h0
      exact this

end Verif.World
