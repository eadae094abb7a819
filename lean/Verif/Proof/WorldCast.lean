import Verif.Proof.WorldClose

/-! # The server: whom a broadcast reaches; who stays in a room -/

namespace Verif.World
open Verif Verif.Adapter Verif.Spec

/-! ## Broadcasting -/

/-- What writing a packet to a socket adds to the log. -/
def sent (w : W) (p : Pkt) (r : Nat) : List Obs :=
  if (w.clients (w.socks r).client).conn = .opened then
    [.packet (w.socks r).client (some r) { p with nsp := (w.nss (w.socks r).ns).name }]
  else []

theorem sockPacket_eq (w : W) (r : Nat) (p : Pkt) : sockPacket w r p = { w with log := w.log ++ sent w p r } := by
  unfold sockPacket clientPacket sent; split <;> simp [obs]

theorem local_sockPacket (n : Nat) (p : Pkt) :
    LocalCb (view n) (fun w ref => sockPacket w ref p) fun w => Inv (w.nss n).ad where
  inv := fun _ h => h
  pres := fun w _ r h _ => by rw [sockPacket_eq]; exact h
  inRoom := fun w _ r _ _ _ _ _ => by rw [sockPacket_eq]; exact Iff.rfl
  key := fun w _ r _ _ _ _ => by rw [sockPacket_eq]; exact Iff.rfl
  sock := fun w _ r _ _ _ _ => by rw [sockPacket_eq]; rfl

theorem foldl_sent (n : Nat) (p : Pkt) (ids : List Sid) (w : W) (f : Sid → Nat)
    (hf : ∀ x ∈ ids, (w.nss n).sockets.get? x = some (f x)) :
    ids.foldl (visit (view n) fun w ref => sockPacket w ref p) w =
      { w with log := w.log ++ (ids.map f).flatMap (sent w p) } := by
  induction ids generalizing w with
  | nil => simp
  | cons x ids ih =>
    have hx := hf x (by simp)
    have e : visit (view n) (fun w ref => sockPacket w ref p) w x = { w with log := w.log ++ sent w p (f x) } := by
      simp only [visit, view, hx]; exact sockPacket_eq w _ p
    rw [List.foldl_cons, e, ih]
    · have : sent { w with log := w.log ++ sent w p (f x) } p = sent w p := rfl
      simp [this]
    · intro y hy; exact hf y (by simp [hy])

/-- The sockets designated by a selection of rooms in namespace `n`. -/
def Designated (w : W) (n : Nat) (rooms except : List Room) (r : Nat) : Prop :=
  (w.nss n).sockets.get? (w.socks r).sid = some r ∧ Spec.Matches rooms except fun room => room ∈ roomsOf (w.nss n).ad (w.socks r).sid

/-- `Broadcast` of the in-memory adapter: exactly the designated sockets, once each. -/
theorem apply_sent {w : W} (hs : InvS w) (hk : Known w) (n : Nat) (p : Pkt) (rooms except : List Room) (flags : Flags) :
    ∃ refs : List Nat, refs.Nodup ∧ (∀ r, r ∈ refs ↔ Designated w n rooms except r) ∧
      (apply (view n) (options rooms except flags) (fun w ref => sockPacket w ref p) w).1 =
        { w with log := w.log ++ refs.flatMap (sent w p) } := by
  obtain ⟨h1, h2, -, h4⟩ := apply_spec (local_sockPacket n p) (options rooms except flags) w (hs.ad n)
  generalize hids : (apply (view n) (options rooms except flags) (fun w ref => sockPacket w ref p) w).2 = ids at *
  let f : Sid → Nat := fun s => ((w.nss n).sockets.get? s).getD 0
  have hf : ∀ x ∈ ids, (w.nss n).sockets.get? x = some (f x) := by
    intro x hx
    obtain ⟨⟨r, hr⟩, -⟩ := (h4 x).1 hx
    have hr' : (w.nss n).sockets.get? x = some r := hr
    simp [f, hr']
  have hsid : ∀ x ∈ ids, (w.socks (f x)).sid = x := fun x hx => (hs.reg n x _ (hf x hx)).2.1
  refine ⟨ids.map f, ?_, ?_, ?_⟩
  · have : ∀ l : List Sid, (∀ x ∈ l, (w.socks (f x)).sid = x) → l.Nodup → (l.map f).Nodup := by
      intro l; induction l with
      | nil => intros; simp
      | cons a l ih =>
        intro hl hnd
        rw [List.map_cons, List.nodup_cons]
        refine ⟨fun hm => ?_, ih (fun x hx => hl x (List.mem_cons_of_mem _ hx)) (List.nodup_cons.1 hnd).2⟩
        obtain ⟨b, hb, e⟩ := List.mem_map.1 hm
        have : a = b := by
          rw [← hl a List.mem_cons_self, ← hl b (List.mem_cons_of_mem _ hb), e]
        exact (List.nodup_cons.1 hnd).1 (this ▸ hb)
    exact this ids hsid h2
  · intro r
    have hopt : Opts.targets (options rooms except flags) = rooms ∧ Opts.excepts (options rooms except flags) = except := ⟨rfl, rfl⟩
    have key : ∀ x r, (w.nss n).sockets.get? x = some r → (x ∈ ids ↔ Designated w n rooms except r) := by
      intro x r hg
      have hx : (w.socks r).sid = x := (hs.reg n x r hg).2.1
      rw [h4 x, hopt.1, hopt.2]
      unfold Designated Spec.Matches
      simp only [Delivery.mem_roomsOf (hs.ad n), hx]
      constructor
      · rintro ⟨a, b, c⟩
        refine ⟨hg, ?_, c⟩
        split at b
        · exact .inl (by assumption)
        · exact .inr b
      · rintro ⟨a, b, c⟩
        refine ⟨⟨r, hg⟩, ?_, c⟩
        split
        · exact hk n x r hg
        · rename_i e; exact b.resolve_left e
    constructor
    · intro hm
      obtain ⟨x, hx, rfl⟩ := List.mem_map.1 hm
      exact (key x _ (hf x hx)).1 hx
    · intro hd
      have hx := (key _ _ hd.1).2 hd
      exact List.mem_map.2 ⟨_, hx, by simp [f, hd.1]⟩
  · rw [h1]; exact foldl_sent n p ids w f hf

/-- The packet that a broadcast sends: with recovery, a storable event gets an offset appended. -/
def castPkt (cfg : Cfg) (w : W) (n : Nat) (p : Pkt) (opts : Option Opts) : Pkt :=
  match cfg.recovery with
  | some (sc, _) => (Session.broadcast sc w.now p opts (w.nss n).sess).2
  | none => p

theorem known_sess {w : W} (h : Known w) (n : Nat) (f : Ns → Session.St) : Known (setNs w n fun k => { k with sess := f k }) :=
  known_set h _ _ (fun _ _ h => h) fun _ h => h

theorem designated_sess (w : W) (n m : Nat) (f : Ns → Session.St) (rooms except : List Room) (r : Nat) :
    Designated (setNs w n fun k => { k with sess := f k }) m rooms except r ↔ Designated w m rooms except r := by
  have h1 : ((setNs w n fun k => { k with sess := f k }).nss m).sockets = (w.nss m).sockets := upd_proj _ _ _ _ Ns.sockets rfl
  have h2 : ((setNs w n fun k => { k with sess := f k }).nss m).ad = (w.nss m).ad := upd_proj _ _ _ _ Ns.ad rfl
  unfold Designated; rw [h1, h2]; rfl

/-- A broadcast: exactly the designated sockets are sent the packet, once each; nothing but the log and the session
store changes. -/
theorem broadcast_spec {w : W} (hs : InvS w) (hk : Known w) (cfg : Cfg) (n : Nat) (p : Pkt) (rooms except : List Room)
    (flags : Flags) :
    ∃ refs : List Nat, refs.Nodup ∧ (∀ r, r ∈ refs ↔ Designated w n rooms except r) ∧
      (broadcast cfg w n p (options rooms except flags)).log =
        w.log ++ refs.flatMap (sent w (castPkt cfg w n p (options rooms except flags))) := by
  cases hr : cfg.recovery with
  | none =>
    obtain ⟨refs, r1, r2, r3⟩ := apply_sent hs hk n p rooms except flags
    refine ⟨refs, r1, r2, ?_⟩
    simp only [broadcast, castPkt, hr]; rw [r3]
  | some q =>
    obtain ⟨sc, b⟩ := q
    simp only [broadcast, castPkt, hr]
    generalize Session.broadcast sc w.now p (options rooms except flags) (w.nss n).sess = x
    obtain ⟨refs, r1, r2, r3⟩ := apply_sent (invS_sess hs n fun _ => x.1) (known_sess hk n _) n x.2 rooms except flags
    refine ⟨refs, r1, fun r => (r2 r).trans (designated_sess _ _ _ _ _ _ _), ?_⟩
    rw [r3]
    have : sent (setNs w n fun k => { k with sess := x.1 }) x.2 = sent w x.2 := by
      funext r
      have e : ((setNs w n fun k => { k with sess := x.1 }).nss (w.socks r).ns).name = (w.nss (w.socks r).ns).name :=
        upd_proj _ _ _ _ Ns.name rfl
      unfold sent
      show (if (w.clients (w.socks r).client).conn = .opened then
        [Obs.packet (w.socks r).client (some r)
          { x.2 with nsp := ((setNs w n fun k => { k with sess := x.1 }).nss (w.socks r).ns).name }] else []) = _
      rw [e]
    rw [this]; rfl

/-! ## Staying in a room -/

/-- The socket is over, or in the room. -/
def Stays (r : Nat) (room : Room) (w : W) : Prop :=
  r < w.nSock ∧ ((w.socks r).canJoin = false ∨ (w.nss (w.socks r).ns).ad.inRoom (w.socks r).sid room)

theorem stays_ns {r : Nat} {room : Room} {w : W} (h : Stays r room w) (n : Nat) (f : Ns → Ns)
    (hf : (w.socks r).ns = n → (w.nss n).ad.inRoom (w.socks r).sid room →
      (f (w.nss n)).ad.inRoom (w.socks r).sid room) :
    Stays r room (setNs w n f) := by
  refine ⟨h.1, ?_⟩
  rcases h.2 with a | b
  · exact .inl a
  · refine .inr ?_
    simp only [setNs, upd_apply]; split
    · rename_i e; rw [e] at b; exact hf e b
    · exact b

theorem stays_join {r : Nat} {room : Room} {w : W} (hs : InvS w) (h : Stays r room w) (ref : Nat) (rooms : List Room) :
    Stays r room (join w ref rooms) := by
  unfold join; split
  · refine stays_ns h _ _ fun _ hi => ?_
    exact ((addAll_spec (hs.ad _) _ rooms).2.1 _ _).2 (.inl hi)
  · exact h

theorem stays_leave {r : Nat} {room : Room} {w : W} (hs : InvS w) (h : Stays r room w) (cfg : Cfg) (ref : Nat) (x : Room)
    (hx : ¬ (x = room ∧ (w.socks ref).sid = (w.socks r).sid ∧ (w.socks ref).ns = (w.socks r).ns)) : Stays r room (leave cfg w ref x) := by
  refine stays_ns h _ _ fun e hi => ?_
  exact ((del_spec (hs.ad _) _ _ x).2.1 _ _).2 ⟨hi, fun e' => hx ⟨e'.2.symm, e'.1.symm, e.symm⟩⟩

theorem stays_acts {r ref : Nat} {room : Room} {w : W} (hs : InvS w) (h : Stays r room w) (hne : (w.socks ref).sid ≠ (w.socks r).sid)
    (cfg : Cfg) (l : List Act) (hl : ∀ a ∈ l, match a with | .join x _ => x = ref | .leave x _ => x = ref) :
    Stays r room (l.foldl (act cfg) w) ∧ InvS (l.foldl (act cfg) w) := by
  induction l generalizing w with
  | nil => exact ⟨h, hs⟩
  | cons a l ih =>
    rw [List.foldl_cons]
    refine ih (invS_act hs cfg a) ?_ (by rw [(act_socks cfg w a).1]; exact hne) fun b hb => hl b (List.mem_cons_of_mem _ hb)
    have := hl a List.mem_cons_self
    cases a <;> simp only [act] <;> split
    · exact stays_join hs h _ _
    · exact h
    · refine stays_leave hs h _ _ _ ?_
      simp only at this; subst this
      exact fun e => hne e.2.1
    · exact h

theorem stays_onclose {r : Nat} {room : Room} {w : W} (hg : Good w) (h : Stays r room w) (cfg : Cfg) (ref : Nat) (reason : String)
    (hh : OwnHooks cfg) : Stays r room (onclose cfg w ref reason) := by
  by_cases hc : (w.socks ref).connected = true
  · have cm := calm_onclose cfg w ref reason
    refine ⟨by rw [cm.nSock]; exact h.1, ?_⟩
    have heff := (onclose_effect cfg reason hc).1
    by_cases e : r = ref
    · subst e; rw [heff, upd_same]; exact .inl rfl
    · rw [heff, upd_ne _ _ e]
      cases hcj : (w.socks r).canJoin with
      | false => exact .inl rfl
      | true =>
        refine .inr ?_
        have hne : (w.socks r).sid ≠ (w.socks ref).sid := fun es =>
          e (hg.t r ref ⟨h.1, hcj⟩ ⟨hg.s.conn _ hc, hg.j _ hc⟩ es)
        obtain ⟨s1, s2⟩ := stays_acts (w := obs w (.disconnecting ref reason)) (invS_obs hg.s _) h
          (fun e => hne e.symm) cfg (cfg.hook ref) (hh ref)
        rw [onclose_pos cfg reason hc]
        simp only [obs]
        have hcl : Stays r room (closing cfg w ref reason) ∧ InvS (closing cfg w ref reason) := by
          unfold closing
          generalize (cfg.hook ref).foldl (act cfg) (obs w (.disconnecting ref reason)) = v at s1 s2
          unfold persist; split
          · exact ⟨stays_ns s1 (v.socks ref).ns (fun n => { n with sess := Session.persist v.now (session v ref) n.sess })
              fun _ h => h, invS_obs (invS_sess s2 _ _) _⟩
          · exact ⟨s1, s2⟩
        obtain ⟨c1, c2⟩ := hcl
        have c3 := (closing_socks cfg w ref reason).1
        rw [(shut_fields cfg (closing cfg w ref reason) ref).1]
        have hin : ((closing cfg w ref reason).nss (w.socks r).ns).ad.inRoom (w.socks r).sid room := by
          have := c1.2; rw [c3] at this
          rcases this with x | x
          · rw [hcj] at x; simp at x
          · exact x
        rw [c3, upd_apply]; split
        · rename_i e'
          simp only [nsCleaned, c3]
          refine ((delAll_spec (c2.ad _) _ _).2.1 _ _).2 ⟨?_, hne⟩
          rw [← e']; exact hin
        · exact hin
  · rw [onclose_neg cfg reason hc]; exact h

/-- What takes socket `r` out of no room. -/
def LeaveOk (w0 : W) (r : Nat) (room : Room) : Nat ⊕ Nat → Room → Prop
  | .inl ref, x => ¬ (x = room ∧ (w0.socks ref).sid = (w0.socks r).sid ∧ (w0.socks ref).ns = (w0.socks r).ns)
  | .inr n, x => ¬ (n = (w0.socks r).ns ∧ x = room)

theorem leaveOk_of {w : W} {r : Nat} {room : Room} {e : Ev} (h : ¬ TakesOut w r room e) : ∀ x ∈ e.leaves, LeaveOk w r room x.1 x.2 := by
  cases e <;> simp only [Ev.leaves, List.not_mem_nil, false_implies, implies_true, List.mem_singleton, List.mem_map] <;> rintro x hx
  · subst hx; exact h
  · obtain ⟨y, hy, rfl⟩ := hx
    rintro ⟨h1, h2⟩
    simp only at h2; subst h2; exact h ⟨h1, hy⟩

theorem blocks_stays (cfg : Cfg) (r : Nat) (room : Room) (hh : OwnHooks cfg) (w0 : W) :
    Blocks cfg (LeaveOk w0 r room) (fun _ => True) fun w w' =>
      (Good w ∧ (Calm w0 w ∧ Stays r room w) → Good w' ∧ (Calm w0 w' ∧ Stays r room w')) :=
  blocks_with (blocks_good cfg) (fun _ c h => good_unlisten h c)
    (fun w c ref x _ h => ⟨h.1.trans (calm_clientPacket _ _ _ _), by unfold clientPacket; split <;> exact h.2⟩)
    (fun w ref rooms _ hg h => ⟨h.1.trans (calm_join _ _ _), stays_join hg.s h.2 _ _⟩)
    (fun w ref x hx hg h => ⟨h.1.trans (calm_leave _ _ _ _), stays_leave hg.s h.2 _ _ _ (by
      rcases hx with hx | ⟨n, sid, hr, hx⟩
      · rw [h.1.sid, h.1.sid, h.1.ns, h.1.ns]; exact hx
      · rw [h.1.ns r, (hg.s.reg n sid ref hr).1]; exact fun e => hx ⟨e.2.2, e.1⟩)⟩)
    (fun w n f _ h => ⟨h.1.trans (calm_setNs _ _ _ rfl rfl), stays_ns h.2 _ _ fun _ h => h⟩)
    (fun w ref reason hg h => ⟨h.1.trans (calm_onclose _ _ _ _), stays_onclose hg h.2 _ _ _ hh⟩)
    (fun w c f hf h => ⟨h.1.trans (calm_setClient _ _ _ (hf _).2), h.2⟩)
    (fun w n l _ _ h => ⟨h.1.trans (calm_setNs _ _ _ rfl rfl), stays_ns h.2 _ _ fun _ h => h⟩)
    (fun w l _ _ h => ⟨h.1.trans (calm_nsps _ _), h.2⟩)

theorem grow_stays (cfg : Cfg) (r : Nat) (room : Room) : Grow cfg NoTwins fun w => Stays r room w ∧ Joined w where
  inert w t ch now h := h
  use w n h := ⟨stays_ns h.1 _ _ fun _ h => h, h.2⟩
  data w ref v h := by
    have hp {β : Type} (p : Sock → β) (hp : p { w.socks ref with data := some v } = p (w.socks ref)) (r : Nat) :
        p ((setSock w ref fun s => { s with data := some v }).socks r) = p (w.socks r) := upd_proj _ _ _ _ p hp
    refine ⟨⟨h.1.1, ?_⟩, fun r => ?_⟩
    · rw [hp Sock.canJoin rfl, hp Sock.ns rfl, hp Sock.sid rfl]; exact h.1.2
    · rw [hp Sock.connected rfl, hp Sock.canJoin rfl]; exact h.2 r
  newNs w s h1 _ _ _ hs h := by
    refine ⟨⟨h.1.1, ?_⟩, h.2⟩
    rcases h.1.2 with a | b
    · exact .inl a
    · refine .inr ?_
      simp only [newNs]; rw [upd_ne _ _ (Nat.ne_of_lt (hs.sock r h.1.1).1)]; exact b
  newClient w p _ h := h
  create w n c auth hn hc hs h := by
    have h2 := ((grow_full cfg).create w n c auth hn hc hs)
    obtain ⟨-, -, e3, -, e5⟩ := createSocket_self cfg w n c auth
    have hr (w0 : W) (hs0 : InvS w0) (v : Stays r room w0) (hnl : n < w0.nNs) (hcl : c < w0.nClient) (s : Session.Sess)
        (missed : List (List Val)) : Stays r room (recoverSocket w0 n c s missed) := by
      unfold recoverSocket
      have ha : InvS (alloc w0 { ns := n, client := c, sid := s.sid, pid := s.pid, data := s.data, recovered := true }) :=
        invS_alloc hs0 _ hnl hcl rfl
      have hst : Stays r room (alloc w0 { ns := n, client := c, sid := s.sid, pid := s.pid, data := s.data, recovered := true }) := by
        refine ⟨Nat.lt_succ_of_lt v.1, ?_⟩
        simp only [alloc]; rw [upd_ne _ _ (Nat.ne_of_lt v.1)]; exact v.2
      have h1 : ∀ (l : List Room) (v : W), InvS v → Stays r room v → w0.nSock < v.nSock →
          Stays r room (l.foldl (fun v x => join v w0.nSock [x]) v) := by
        intro l; induction l with
        | nil => exact fun v _ h _ => h
        | cons a l ih =>
          intro v hs h hlt
          rw [List.foldl_cons]
          refine ih _ (invS_join hs hlt _) (stays_join hs h _ _) ?_
          rw [(calm_join v w0.nSock [a]).nSock]; exact hlt
      have h2 : ∀ (l : List (List Val)) (v : W), Stays r room v →
          Stays r room (l.foldl (fun v l => sockPacket v w0.nSock { type := .event, data := .args l }) v) := by
        intro l; induction l with
        | nil => exact fun v h => h
        | cons a l ih =>
          intro v h; rw [List.foldl_cons]; refine ih _ ?_
          rw [sockPacket_eq]; exact h
      exact h2 _ _ (h1 _ _ ha hst (Nat.lt_succ_self _))
    have hal (w0 : W) (v : Stays r room w0) (s : Sock) : Stays r room (alloc w0 s) := by
      refine ⟨Nat.lt_succ_of_lt v.1, ?_⟩
      simp only [alloc]; rw [upd_ne _ _ (Nat.ne_of_lt v.1)]; exact v.2
    refine ⟨?_, fun x hx => ?_⟩
    · unfold createSocket; split
      · dsimp only; split
        · rename_i sc _ pid off _ _ _ _ _
          exact hr _ (invS_sess hs n fun _ => (Session.restore sc w.now pid off (w.nss n).sess).1)
            (stays_ns (w := w) h.1 n (fun k => { k with sess := (Session.restore sc w.now pid off (w.nss n).sess).1 })
              fun _ h => h) hn hc _ _
        · rename_i sc _ pid off _ _ _
          exact hal _ (stays_ns (w := w) h.1 n (fun k => { k with sess := (Session.restore sc w.now pid off (w.nss n).sess).1 })
            fun _ h => h) _
      · exact hal _ h.1 _
    · have h3 := (invS_createSocket hs cfg n c hn hc auth).conn x hx
      rw [createSocket_nSock] at h3
      rcases Nat.lt_or_eq_of_le (Nat.lt_succ_iff.1 h3) with h4 | rfl
      · rw [e5 x h4] at hx ⊢; exact h.2 x hx
      · rw [e3] at hx; simp at hx
  doConnect w ref hlt ho hc hj hs ht h := by
    obtain ⟨d1, d2, d3, -, d5, -⟩ := doConnect_fields w ref
    refine ⟨⟨by rw [d5]; exact h.1.1, ?_⟩, fun x hx => ?_⟩
    · have hp {β : Type} (p : Sock → β) (hp : p { w.socks ref with connected := true } = p (w.socks ref)) :
          p ((doConnect w ref).socks r) = p (w.socks r) := by rw [d2]; exact upd_proj _ _ _ _ p hp
      · rw [hp Sock.canJoin rfl, hp Sock.ns rfl, hp Sock.sid rfl]
        rcases h.1.2 with a | b
        · exact .inl a
        · refine .inr ?_
          rw [d1, upd_apply]; split
          · rename_i e'
            simp only [nsConnected, hj, if_true]
            refine ((addAll_spec (hs.ad _) _ _).2.1 _ _).2 (.inl ?_)
            rw [← e']; exact b
          · exact b
    · rw [d2, upd_apply] at hx ⊢; split
      · exact hj
      · rename_i e; rw [if_neg e] at hx; exact h.2 x hx
  cleanup w ref hlt hc hj hs ht h := by
    obtain ⟨d1, d2, d3, -, d5, -⟩ := cleanup_fields cfg w ref
    refine ⟨⟨by rw [d5]; exact h.1.1, ?_⟩, fun x hx => ?_⟩
    · by_cases e : r = ref
      · subst e; rw [d2, upd_same]; exact .inl rfl
      · rw [d2, upd_ne _ _ e]
        cases hcj : (w.socks r).canJoin with
        | false => exact .inl rfl
        | true =>
          have b := h.1.2.resolve_left (by rw [hcj]; simp)
          refine .inr ?_
          rw [d1, upd_apply]; split
          · rename_i e'
            simp only [nsCleaned]
            refine ((delAll_spec (hs.ad _) _ _).2.1 _ _).2 ⟨by rw [← e']; exact b, fun es => ?_⟩
            exact e (ht r ref ⟨h.1.1, hcj⟩ ⟨hlt, hj⟩ es)
          · exact b
    · rw [d2, upd_apply] at hx ⊢; split
      · rename_i e
        rw [if_pos e] at hx
        have : (w.socks ref).connected = true := hx
        rw [hc] at this; simp at this
      · rename_i e; rw [if_neg e] at hx; exact h.2 x hx
  packet w c ref x _ _ h := by unfold clientPacket; split <;> exact h
  received w ref type h := h

theorem stays_run {cfg : Cfg} {r : Nat} {room : Room} {h t : List Ev} (hn : NextOnce (h ++ t)) (ht : NeverTwins cfg (h ++ t))
    (hh : OwnHooks cfg) (hl : ∀ p e, p ++ [e] <+: t → ¬ TakesOut (run cfg (h ++ p)) r room e) (hs : Stays r room (run cfg h)) :
    Stays r room (run cfg (h ++ t)) := by
  induction t using snocRec with
  | nil => simpa using hs
  | append_singleton t e ih =>
    rw [← List.append_assoc] at hn ht ⊢
    obtain ⟨t1, t2, t3⟩ := neverTwins_snoc ht
    obtain ⟨n1, -⟩ := nextOnce_snoc hn
    have ih := ih n1 t1 fun p e he => hl p e (he.trans (List.prefix_append _ _))
    have g := good_run cfg (h ++ t) n1 t1
    obtain ⟨i1, i2⟩ := inv_run cfg (h ++ t)
    rw [run_snoc]
    have hle := leaveOk_of (hl t e (List.prefix_refl _))
    by_cases he : e.calm = true
    · exact ((blocks_stays cfg r room hh _).step _ e he hle (fun _ _ => trivial) ⟨g, .refl _, ih⟩).2.2
    · refine ((grow_stays cfg r room).step i1 i2 (invT_run cfg _ n1) e he t2 t3
        (fun c hP => ?_) (fun v ref reason _ hv hP => ?_) ⟨ih, g.j⟩).1
      · obtain ⟨a, b⟩ := (blocks_stays cfg r room hh _).clientClose _ c ⟨⟨i1, g.f, t2, hP.2⟩, .refl _, hP.1⟩
        exact ⟨b.2, a.j⟩
      · have hg : Good v := by
          have hs : InvS v := by
            have : InvS { v with tasks := (run cfg (h ++ t)).tasks } := by rw [hv]; exact i1
            exact ⟨this.sock, this.conn, this.ad, this.nsWf, this.reg, this.live, this.clWf, this.cl, this.clNs, this.timer, this.names, this.nspsWf⟩
          have hf : Full v := by
            have : Full { v with tasks := (run cfg (h ++ t)).tasks } := by rw [hv]; exact g.f
            exact ⟨this.cl, this.ns, this.cns⟩
          have ht : NoTwins v := by
            have : NoTwins { v with tasks := (run cfg (h ++ t)).tasks } := by rw [hv]; exact t2
            exact this
          exact ⟨hs, hf, ht, hP.2⟩
        exact ⟨stays_onclose hg hP.1 _ _ _ hh, (good_onclose hg _ _ _).j⟩

end Verif.World
