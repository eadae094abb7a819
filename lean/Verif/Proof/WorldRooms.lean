import Verif.Proof.WorldCast

/-! # The server: what changes the rooms of a socket -/

namespace Verif.World
open Verif Verif.Adapter Verif.Spec

/-! ## Staying out of a room -/

/-- The socket is over, or not in the room. -/
def Out (r : Nat) (room : Room) (w : W) : Prop :=
  r < w.nSock ∧ ((w.socks r).canJoin = false ∨ ¬ (w.nss (w.socks r).ns).ad.inRoom (w.socks r).sid room)

theorem out_ns {r : Nat} {room : Room} {w : W} (h : Out r room w) (n : Nat) (f : Ns → Ns)
    (hf : (w.socks r).ns = n → (w.socks r).canJoin = true → (f (w.nss n)).ad.inRoom (w.socks r).sid room →
      (w.nss n).ad.inRoom (w.socks r).sid room) :
    Out r room (setNs w n f) := by
  refine ⟨h.1, ?_⟩
  cases hc : (w.socks r).canJoin with
  | false => exact .inl hc
  | true =>
    have b := h.2.resolve_left (by simp [hc])
    refine .inr ?_
    simp only [setNs, upd_apply]; split
    · rename_i e; rw [e] at b; exact fun hi => b (hf e hc hi)
    · exact b

theorem out_join {r ref : Nat} {room : Room} {w : W} (hs : InvS w) (h : Out r room w) (rooms : List Room)
    (hne : (w.socks r).canJoin = true → (w.socks ref).canJoin = true → (w.socks ref).ns = (w.socks r).ns →
      (w.socks ref).sid = (w.socks r).sid → room ∉ rooms) :
    Out r room (join w ref rooms) := by
  unfold join; split
  · rename_i hj
    refine out_ns h _ _ fun e hc hi => ?_
    rcases ((addAll_spec (hs.ad _) _ rooms).2.1 _ _).1 hi with a | ⟨a, b⟩
    · exact a
    · exact absurd b (hne hc hj e.symm a.symm)
  · exact h

theorem out_leave {r : Nat} {room : Room} {w : W} (hs : InvS w) (h : Out r room w) (cfg : Cfg) (ref : Nat) (x : Room) :
    Out r room (leave cfg w ref x) :=
  out_ns h _ _ fun _ _ hi => (((del_spec (hs.ad _) _ _ x).2.1 _ _).1 hi).1

theorem out_acts {r ref : Nat} {room : Room} {w : W} (hs : InvS w) (h : Out r room w) (hne : (w.socks ref).sid ≠ (w.socks r).sid)
    (cfg : Cfg) (l : List Act) (hl : ∀ a ∈ l, match a with | .join x _ => x = ref | .leave x _ => x = ref) :
    Out r room (l.foldl (act cfg) w) ∧ InvS (l.foldl (act cfg) w) := by
  induction l generalizing w with
  | nil => exact ⟨h, hs⟩
  | cons a l ih =>
    rw [List.foldl_cons]
    refine ih (invS_act hs cfg a) ?_ (by rw [(act_socks cfg w a).1]; exact hne) fun b hb => hl b (List.mem_cons_of_mem _ hb)
    have := hl a List.mem_cons_self
    cases a <;> simp only [act] <;> split
    · simp only at this; subst this
      exact out_join hs h _ fun _ _ _ e => absurd e hne
    · exact h
    · exact out_leave hs h _ _ _
    · exact h

theorem out_onclose {r : Nat} {room : Room} {w : W} (hg : Good w) (h : Out r room w) (cfg : Cfg) (ref : Nat) (reason : String)
    (hh : OwnHooks cfg) : Out r room (onclose cfg w ref reason) := by
  by_cases hc : (w.socks ref).connected = true
  · have cm := calm_onclose cfg w ref reason
    refine ⟨by rw [cm.nSock]; exact h.1, ?_⟩
    have heff := (onclose_effect cfg reason hc).1
    by_cases e : r = ref
    · subst e; rw [heff, upd_same]; exact .inl rfl
    · rw [heff, upd_ne _ _ e]
      cases hcj : (w.socks r).canJoin with
      | false => exact .inl rfl
      | true =>
        refine .inr ?_
        have hne : (w.socks r).sid ≠ (w.socks ref).sid := fun es =>
          e (hg.t r ref ⟨h.1, hcj⟩ ⟨hg.s.conn _ hc, hg.j _ hc⟩ es)
        obtain ⟨s1, s2⟩ := out_acts (w := obs w (.disconnecting ref reason)) (invS_obs hg.s _) h
          (fun e => hne e.symm) cfg (cfg.hook ref) (hh ref)
        rw [onclose_pos cfg reason hc]
        simp only [obs]
        have hcl : Out r room (closing cfg w ref reason) ∧ InvS (closing cfg w ref reason) := by
          unfold closing
          generalize (cfg.hook ref).foldl (act cfg) (obs w (.disconnecting ref reason)) = v at s1 s2
          unfold persist; split
          · exact ⟨out_ns s1 (v.socks ref).ns (fun n => { n with sess := Session.persist v.now (session v ref) n.sess })
              fun _ _ h => h, invS_obs (invS_sess s2 _ _) _⟩
          · exact ⟨s1, s2⟩
        obtain ⟨c1, c2⟩ := hcl
        have c3 := (closing_socks cfg w ref reason).1
        rw [(shut_fields cfg (closing cfg w ref reason) ref).1]
        have hin : ¬ ((closing cfg w ref reason).nss (w.socks r).ns).ad.inRoom (w.socks r).sid room := by
          have := c1.2; rw [c3] at this
          exact this.resolve_left (by simp [hcj])
        rw [c3, upd_apply]; split
        · rename_i e'
          simp only [nsCleaned, c3]
          refine fun hi => hin ?_
          have := (((delAll_spec (c2.ad _) _ _).2.1 _ _).1 hi).1
          rw [e']; exact this
        · exact hin
  · rw [onclose_neg cfg reason hc]; exact h

theorem blocks_out (cfg : Cfg) (r : Nat) (room : Room) (hh : OwnHooks cfg) :
    Blocks0 cfg (fun _ => True) fun w w' => (Good w ∧ Out r room w → Good w' ∧ Out r room w') :=
  blocks0_with (blocks_good cfg).toBlocks0 (fun _ c h => good_unlisten h c)
    (fun w c ref x _ h => by unfold clientPacket; split <;> exact h)
    (fun w n f _ h => out_ns h _ _ fun _ _ h => h)
    (fun w ref reason hg h => out_onclose hg h _ _ _ hh)
    (fun w c f hf h => h)
    (fun w n l _ _ h => out_ns h _ _ fun _ _ h => h)
    (fun w l _ _ h => h)

/-- Another open socket has the id of `r`, which is open too. -/
def Twin (r : Nat) (w : W) : Prop := IsOpen w r ∧ ∃ r', r' ≠ r ∧ IsOpen w r' ∧ (w.socks r').sid = (w.socks r).sid

theorem not_twin {r : Nat} {w : W} (h : NoTwins w) : ¬ Twin r w :=
  fun ⟨a, r', b, c, d⟩ => b (h r' r c a d)

theorem Twin.of {r : Nat} {w w' : W} (h : Twin r w) (hn : w.nSock ≤ w'.nSock)
    (hs : ∀ x, x < w.nSock → (w'.socks x).sid = (w.socks x).sid ∧ (w'.socks x).canJoin = (w.socks x).canJoin) : Twin r w' := by
  obtain ⟨⟨a1, a2⟩, r', b, ⟨c1, c2⟩, d⟩ := h
  exact ⟨⟨Nat.lt_of_lt_of_le a1 hn, by rw [(hs _ a1).2]; exact a2⟩, r', b,
    ⟨Nat.lt_of_lt_of_le c1 hn, by rw [(hs _ c1).2]; exact c2⟩, by rw [(hs _ a1).1, (hs _ c1).1]; exact d⟩

theorem out_recover {r : Nat} {room : Room} {w : W} (hs : InvS w) (h : Out r room w) (n c : Nat) (hn : n < w.nNs) (hc : c < w.nClient)
    (s : Session.Sess) (missed : List (List Val)) :
    Out r room (recoverSocket w n c s missed) ∨ Twin r (recoverSocket w n c s missed) := by
  by_cases htw : (w.socks r).canJoin = true ∧ s.sid = (w.socks r).sid
  · right
    have cm := calm_recover w n c s missed
    have hsock : ∀ x, ((recoverSocket w n c s missed).socks x).sid = ((alloc w { ns := n, client := c, sid := s.sid, pid := s.pid, data := s.data, recovered := true }).socks x).sid :=
      fun x => cm.sid x
    have hcan : ∀ x, ((recoverSocket w n c s missed).socks x).canJoin = ((alloc w { ns := n, client := c, sid := s.sid, pid := s.pid, data := s.data, recovered := true }).socks x).canJoin := by
      have p : Prim0 fun a b : W => b.socks = a.socks :=
        ⟨fun _ => rfl, fun h1 h2 => h2.trans h1, fun w c ref x => by unfold clientPacket; split <;> rfl, fun _ _ _ _ => rfl⟩
      intro x
      unfold recoverSocket
      dsimp only
      rw [p.foldl _ (fun v l => p.sockPacket v _ _) missed _, p.foldl _ (fun v x => p.join v _ [x]) s.rooms _]
    have hlt := h.1
    refine ⟨⟨by rw [cm.nSock]; exact Nat.lt_succ_of_lt hlt, ?_⟩, w.nSock, Nat.ne_of_gt hlt, ⟨by rw [cm.nSock]; exact Nat.lt_succ_self _, ?_⟩, ?_⟩
    · rw [hcan]; simp only [alloc]; rw [upd_ne _ _ (Nat.ne_of_lt hlt)]; exact htw.1
    · rw [hcan]; simp [alloc]
    · rw [hsock, hsock]; simp only [alloc, upd_same]; rw [upd_ne _ _ (Nat.ne_of_lt hlt)]; exact htw.2
  · left
    unfold recoverSocket
    have ha : InvS (alloc w { ns := n, client := c, sid := s.sid, pid := s.pid, data := s.data, recovered := true }) :=
      invS_alloc hs _ hn hc rfl
    have hst : Out r room (alloc w { ns := n, client := c, sid := s.sid, pid := s.pid, data := s.data, recovered := true }) := by
      refine ⟨Nat.lt_succ_of_lt h.1, ?_⟩
      simp only [alloc]; rw [upd_ne _ _ (Nat.ne_of_lt h.1)]; exact h.2
    have h0 : ¬ (((alloc w { ns := n, client := c, sid := s.sid, pid := s.pid, data := s.data, recovered := true }).socks r).canJoin = true ∧
        ((alloc w { ns := n, client := c, sid := s.sid, pid := s.pid, data := s.data, recovered := true }).socks w.nSock).sid =
        ((alloc w { ns := n, client := c, sid := s.sid, pid := s.pid, data := s.data, recovered := true }).socks r).sid) := by
      simp only [alloc, upd_same]; rw [upd_ne _ _ (Nat.ne_of_lt h.1)]; exact htw
    have h1 : ∀ (l : List Room) (v : W), InvS v → Out r room v → w.nSock < v.nSock →
        ¬ ((v.socks r).canJoin = true ∧ (v.socks w.nSock).sid = (v.socks r).sid) →
        Out r room (l.foldl (fun v x => join v w.nSock [x]) v) := by
      intro l; induction l with
      | nil => exact fun v _ h _ _ => h
      | cons a l ih =>
        intro v hs h hlt hne
        rw [List.foldl_cons]
        have hso : (join v w.nSock [a]).socks = v.socks := by unfold join; split <;> rfl
        refine ih _ (invS_join hs hlt _) (out_join hs h _ fun h1 _ _ h4 => absurd ⟨h1, h4⟩ hne) ?_ (by rw [hso]; exact hne)
        rw [(calm_join v w.nSock [a]).nSock]; exact hlt
    have h2 : ∀ (l : List (List Val)) (v : W), Out r room v →
        Out r room (l.foldl (fun v l => sockPacket v w.nSock { type := .event, data := .args l }) v) := by
      intro l; induction l with
      | nil => exact fun v h => h
      | cons a l ih =>
        intro v h; rw [List.foldl_cons]; refine ih _ ?_
        rw [sockPacket_eq]; exact h
    exact h2 _ _ (h1 _ _ ha hst (Nat.lt_succ_self _) h0)

theorem out_create {r : Nat} {room : Room} {w : W} (hs : InvS w) (h : Out r room w) (cfg : Cfg) (n c : Nat) (auth : Option (Session.Pid × String))
    (hn : n < w.nNs) (hc : c < w.nClient) :
    Out r room (createSocket cfg w n c auth) ∨ Twin r (createSocket cfg w n c auth) := by
  have hal (w0 : W) (v : Out r room w0) (s : Sock) : Out r room (alloc w0 s) := by
    refine ⟨Nat.lt_succ_of_lt v.1, ?_⟩
    simp only [alloc]; rw [upd_ne _ _ (Nat.ne_of_lt v.1)]; exact v.2
  unfold createSocket; split
  · dsimp only; split
    · rename_i sc _ pid off _ _ _ _ _
      exact out_recover (invS_sess hs n fun _ => (Session.restore sc w.now pid off (w.nss n).sess).1)
        (out_ns (w := w) h n (fun k => { k with sess := (Session.restore sc w.now pid off (w.nss n).sess).1 })
          fun _ _ h => h) _ _ hn hc _ _
    · rename_i sc _ pid off _ _ _
      exact .inl (hal _ (out_ns (w := w) h n (fun k => { k with sess := (Session.restore sc w.now pid off (w.nss n).sess).1 })
        fun _ _ h => h) _)
  · exact .inl (hal _ h _)

/-- The room is not the socket's own, or the socket is not about to connect. -/
def Apart (r : Nat) (room : Room) (w : W) : Prop :=
  room ≠ (w.socks r).sid ∨ (w.socks r).connected = true ∨ (w.socks r).canJoin = false

/-- What the steps that are no calls keep: the socket is out of the room, or there are twins. -/
def Away (r : Nat) (room : Room) (w : W) : Prop := (Out r room w ∧ Apart r room w) ∨ Twin r w

theorem Away.mono {r : Nat} {room : Room} {w w' : W} (h : Away r room w) (hn : w.nSock ≤ w'.nSock)
    (hs : ∀ x, x < w.nSock → (w'.socks x).sid = (w.socks x).sid ∧ (w'.socks x).canJoin = (w.socks x).canJoin ∧
      (w'.socks x).connected = (w.socks x).connected)
    (ho : Out r room w → Out r room w') : Away r room w' := by
  rcases h with ⟨a, b⟩ | h
  · exact .inl ⟨ho a, by unfold Apart; rw [(hs r a.1).1, (hs r a.1).2.1, (hs r a.1).2.2]; exact b⟩
  · exact .inr (h.of hn fun x hx => ⟨(hs x hx).1, (hs x hx).2.1⟩)

theorem Apart.calm {r : Nat} {room : Room} {w w' : W} (h : Apart r room w) (c : Calm w w') : Apart r room w' := by
  unfold Apart
  rcases c.socks r with e | ⟨-, e⟩
  · rw [e]; exact h
  · rw [e]; exact .inr (.inr rfl)

theorem grow_out (cfg : Cfg) (r : Nat) (room : Room) : Grow cfg NoTwins fun w => Away r room w ∧ Joined w where
  inert w t ch now h := h
  use w n h := ⟨h.1.mono (Nat.le_refl _) (fun _ _ => ⟨rfl, rfl, rfl⟩) fun o => out_ns o _ _ fun _ _ h => h, h.2⟩
  data w ref v h := by
    have hp {β : Type} (p : Sock → β) (hp : p { w.socks ref with data := some v } = p (w.socks ref)) (r : Nat) :
        p ((setSock w ref fun s => { s with data := some v }).socks r) = p (w.socks r) := upd_proj _ _ _ _ p hp
    refine ⟨h.1.mono (Nat.le_refl _) (fun x _ => ⟨hp Sock.sid rfl x, hp Sock.canJoin rfl x, hp Sock.connected rfl x⟩) fun o => ⟨o.1, ?_⟩, fun r => ?_⟩
    · rw [hp Sock.canJoin rfl, hp Sock.ns rfl, hp Sock.sid rfl]; exact o.2
    · rw [hp Sock.connected rfl, hp Sock.canJoin rfl]; exact h.2 r
  newNs w s h1 _ _ _ hs h := by
    refine ⟨h.1.mono (Nat.le_refl _) (fun _ _ => ⟨rfl, rfl, rfl⟩) fun o => ⟨o.1, ?_⟩, h.2⟩
    simp only [newNs]; rw [upd_ne _ _ (Nat.ne_of_lt (hs.sock r o.1).1)]; exact o.2
  newClient w p _ h := h
  create w n c auth hn hc hs h := by
    obtain ⟨-, -, e3, -, e5⟩ := createSocket_self cfg w n c auth
    have hle : w.nSock ≤ (createSocket cfg w n c auth).nSock := by rw [createSocket_nSock]; omega
    refine ⟨?_, fun x hx => ?_⟩
    · rcases h.1 with ⟨a, b⟩ | t
      · rcases out_create hs a cfg n c auth hn hc with o | t
        · exact .inl ⟨o, by unfold Apart; rw [e5 r a.1]; exact b⟩
        · exact .inr t
      · exact .inr (t.of hle fun x hx => by rw [e5 x hx]; exact ⟨rfl, rfl⟩)
    · have h3 := (invS_createSocket hs cfg n c hn hc auth).conn x hx
      rw [createSocket_nSock] at h3
      rcases Nat.lt_or_eq_of_le (Nat.lt_succ_iff.1 h3) with h4 | rfl
      · rw [e5 x h4] at hx ⊢; exact h.2 x hx
      · rw [e3] at hx; simp at hx
  doConnect w ref hlt ho hc hj hs ht h := by
    obtain ⟨d1, d2, d3, -, d5, -⟩ := doConnect_fields w ref
    have hp {β : Type} (p : Sock → β) (hp : p { w.socks ref with connected := true } = p (w.socks ref)) (r : Nat) :
        p ((doConnect w ref).socks r) = p (w.socks r) := by rw [d2]; exact upd_proj _ _ _ _ p hp
    obtain ⟨o, hne⟩ := h.1.resolve_right (not_twin ht)
    refine ⟨.inl ⟨⟨by rw [d5]; exact o.1, ?_⟩, ?_⟩, fun x hx => ?_⟩
    rotate_left
    · unfold Apart
      rw [hp Sock.sid rfl, hp Sock.canJoin rfl, d2, upd_apply]
      split
      · exact .inr (.inl rfl)
      · exact hne
    rotate_left
    · rw [hp Sock.canJoin rfl, hp Sock.ns rfl, hp Sock.sid rfl]
      cases hcj : (w.socks r).canJoin with
      | false => exact .inl rfl
      | true =>
        have b := o.2.resolve_left (by simp [hcj])
        refine .inr ?_
        rw [d1, upd_apply]; split
        · rename_i e'
          simp only [nsConnected, hj, if_true]
          intro hi
          rcases ((addAll_spec (hs.ad _) _ _).2.1 _ _).1 hi with a | ⟨a, a'⟩
          · exact b (by rw [e']; exact a)
          · have := ht r ref ⟨o.1, hcj⟩ ⟨hlt, hj⟩ a
            subst this
            simp only [List.mem_singleton] at a'
            rcases hne with hne | hne | hne
            · exact hne a'
            · rw [hc] at hne; simp at hne
            · rw [hj] at hne; simp at hne
        · exact b
    · rw [d2, upd_apply] at hx ⊢; split
      · exact hj
      · rename_i e; rw [if_neg e] at hx; exact h.2 x hx
  cleanup w ref hlt hc hj hs ht h := by
    obtain ⟨d1, d2, d3, -, d5, -⟩ := cleanup_fields cfg w ref
    obtain ⟨o, hne⟩ := h.1.resolve_right (not_twin ht)
    refine ⟨.inl ⟨⟨by rw [d5]; exact o.1, ?_⟩, ?_⟩, fun x hx => ?_⟩
    · by_cases e : r = ref
      · subst e; rw [d2, upd_same]; exact .inl rfl
      · rw [d2, upd_ne _ _ e]
        cases hcj : (w.socks r).canJoin with
        | false => exact .inl rfl
        | true =>
          have b := o.2.resolve_left (by rw [hcj]; simp)
          refine .inr ?_
          rw [d1, upd_apply]; split
          · rename_i e'
            simp only [nsCleaned]
            intro hi
            have := (((delAll_spec (hs.ad _) _ _).2.1 _ _).1 hi).1
            exact b (by rw [e']; exact this)
          · exact b
    · unfold Apart; rw [d2, upd_apply]; split
      · exact .inr (.inr rfl)
      · exact hne
    · rw [d2, upd_apply] at hx ⊢; split
      · rename_i e
        rw [if_pos e] at hx
        have : (w.socks ref).connected = true := hx
        rw [hc] at this; simp at this
      · rename_i e; rw [if_neg e] at hx; exact h.2 x hx
  packet w c ref x _ _ h := by unfold clientPacket; split <;> exact h
  received w ref type h := h

/-- Nothing but calls puts a socket into a room other than its own. -/
theorem out_step {cfg : Cfg} {r : Nat} {room : Room} {h : List Ev} {e : Ev} (hn : NextOnce (h ++ [e])) (ht : NeverTwins cfg (h ++ [e]))
    (hh : OwnHooks cfg) (hcall : e.rooms = false) (ho : Out r room (run cfg h)) (hne : Apart r room (run cfg h)) :
    Out r room (run cfg (h ++ [e])) := by
  obtain ⟨t1, t2, t3⟩ := neverTwins_snoc ht
  obtain ⟨n1, -⟩ := nextOnce_snoc hn
  have g := good_run cfg h n1 t1
  obtain ⟨i1, i2⟩ := inv_run cfg h
  rw [run_snoc]
  by_cases he : e.calm = true
  · exact ((blocks_out cfg r room hh).step _ e he hcall (fun _ _ => trivial) ⟨g, ho⟩).2
  · have := (grow_out cfg r room).step i1 i2 (invT_run cfg _ n1) e he t2 t3
        (fun c hP => ?_) (fun v ref reason _ hv hP => ?_) ⟨.inl ⟨ho, hne⟩, g.j⟩
    · exact (this.1.resolve_right (not_twin t3)).1
    · obtain ⟨a, b⟩ := (blocks_out cfg r room hh).clientClose _ c ⟨g, ho⟩
      exact ⟨.inl ⟨b, hne.calm (calm_clientClose cfg _ c)⟩, a.j⟩
    · have hg : Good v := by
        have hs : InvS v := by
          have : InvS { v with tasks := (run cfg h).tasks } := by rw [hv]; exact i1
          exact ⟨this.sock, this.conn, this.ad, this.nsWf, this.reg, this.live, this.clWf, this.cl, this.clNs, this.timer, this.names, this.nspsWf⟩
        have hf : Full v := by
          have : Full { v with tasks := (run cfg h).tasks } := by rw [hv]; exact g.f
          exact ⟨this.cl, this.ns, this.cns⟩
        have ht : NoTwins v := by
          have : NoTwins { v with tasks := (run cfg h).tasks } := by rw [hv]; exact t2
          exact this
        exact ⟨hs, hf, ht, hP.2⟩
      obtain ⟨o, hn⟩ := hP.1.resolve_right (not_twin hg.t)
      exact ⟨.inl ⟨out_onclose hg o _ _ _ hh, hn.calm (calm_onclose cfg v ref reason)⟩, (good_onclose hg _ _ _).j⟩

/-! ## A socket just created -/

/-- The socket of this number is still to be created, or was recovered, or is out of the room, which is not its own. -/
def Fresh (r : Nat) (room : Room) (w : W) : Prop :=
  w.nSock ≤ r ∨ (r < w.nSock ∧ ((w.socks r).recovered = true ∨ room = (w.socks r).sid)) ∨ Away r room w

theorem Fresh.mono {r : Nat} {room : Room} {w w' : W} (h : Fresh r room w) (hn : w'.nSock = w.nSock)
    (hs : r < w.nSock → (w'.socks r).sid = (w.socks r).sid ∧ (w'.socks r).recovered = (w.socks r).recovered)
    (ha : Away r room w → Away r room w') : Fresh r room w' := by
  rcases h with h | ⟨h, b⟩ | h
  · exact .inl (by rw [hn]; exact h)
  · exact .inr (.inl ⟨by rw [hn]; exact h, by rw [(hs h).1, (hs h).2]; exact b⟩)
  · exact .inr (.inr (ha h))

theorem create_fresh {w : W} (hs : InvS w) (cfg : Cfg) (n c : Nat) (auth : Option (Session.Pid × String)) (hn : n < w.nNs) (hc : c < w.nClient)
    (room : Room) : Fresh w.nSock room (createSocket cfg w n c auth) := by
  have hi := invS_createSocket hs cfg n c hn hc auth
  obtain ⟨e1, -, -, e4, e5⟩ := createSocket_self cfg w n c auth
  have e6 := createSocket_nSock cfg w n c auth
  by_cases hr : ((createSocket cfg w n c auth).socks w.nSock).recovered = true
  · exact .inr (.inl ⟨by omega, .inl hr⟩)
  by_cases hsid : room = ((createSocket cfg w n c auth).socks w.nSock).sid
  · exact .inr (.inl ⟨by omega, .inr hsid⟩)
  refine .inr (.inr ?_)
  have hr0 : ∀ (w : W) (s : Session.Sess) (missed : List (List Val)), ((recoverSocket w n c s missed).socks w.nSock).recovered = true := by
    intro w s missed
    have p : Prim0 fun a b : W => b.socks = a.socks :=
      ⟨fun _ => rfl, fun h1 h2 => h2.trans h1, fun w c ref x => by unfold clientPacket; split <;> rfl, fun _ _ _ _ => rfl⟩
    unfold recoverSocket
    dsimp only
    rw [p.foldl _ (fun v l => p.sockPacket v _ _) missed _, p.foldl _ (fun v x => p.join v _ [x]) s.rooms _]
    simp [alloc]
  have had : ((createSocket cfg w n c auth).nss n).ad = (w.nss n).ad := by
    revert hr
    unfold createSocket; split
    · dsimp only; split
      · intro hr; exact absurd (hr0 _ _ _) hr
      · intro _; simp [newSocket, alloc, setNs]
    · intro _; rfl
  by_cases ht : ((createSocket cfg w n c auth).socks w.nSock).sid ∈ (w.nss n).ad.sids.keys
  · obtain ⟨x, x1, x2, x3, x4⟩ := hs.live _ _ ht
    refine .inr ⟨⟨by omega, e4⟩, x, Nat.ne_of_lt x1, ⟨by omega, by rw [e5 x x1]; exact x4⟩, ?_⟩
    rw [e5 x x1]; exact x3
  · refine .inl ⟨⟨by omega, .inr ?_⟩, .inl hsid⟩
    rw [e1, had]
    intro hin
    obtain ⟨l, hl, -⟩ := ((hs.ad n).agree _ _).1 hin
    exact ht ((FMap.mem_keys_iff _ _).2 ⟨l, hl⟩)

theorem grow_fresh (cfg : Cfg) (r : Nat) (room : Room) : Grow cfg NoTwins fun w => Fresh r room w ∧ Joined w where
  inert w t ch now h := h
  use w n h := ⟨h.1.mono rfl (fun _ => ⟨rfl, rfl⟩) fun a => ((grow_out cfg r room).use w n ⟨a, h.2⟩).1, h.2⟩
  data w ref v h := by
    have hp {β : Type} (p : Sock → β) (hp : p { w.socks ref with data := some v } = p (w.socks ref)) (r : Nat) :
        p ((setSock w ref fun s => { s with data := some v }).socks r) = p (w.socks r) := upd_proj _ _ _ _ p hp
    refine ⟨h.1.mono rfl (fun _ => ⟨hp Sock.sid rfl r, hp Sock.recovered rfl r⟩) fun a => ((grow_out cfg r room).data w ref v ⟨a, h.2⟩).1, fun r => ?_⟩
    rw [hp Sock.connected rfl, hp Sock.canJoin rfl]; exact h.2 r
  newNs w s h1 h2 h3 h4 hs h :=
    ⟨h.1.mono rfl (fun _ => ⟨rfl, rfl⟩) fun a => ((grow_out cfg r room).newNs w s h1 h2 h3 h4 hs ⟨a, h.2⟩).1, h.2⟩
  newClient w p _ h := h
  create w n c auth hn hc hs h := by
    obtain ⟨-, -, e3, -, e5⟩ := createSocket_self cfg w n c auth
    have e6 := createSocket_nSock cfg w n c auth
    refine ⟨?_, fun x hx => ?_⟩
    · rcases h.1 with a | ⟨a, b⟩ | a
      · rcases Nat.lt_or_eq_of_le a with a | a
        · exact .inl (by omega)
        · subst a; exact create_fresh hs cfg n c auth hn hc room
      · exact .inr (.inl ⟨by omega, by rw [e5 r a]; exact b⟩)
      · exact .inr (.inr ((grow_out cfg r room).create w n c auth hn hc hs ⟨a, h.2⟩).1)
    · have h3 := (invS_createSocket hs cfg n c hn hc auth).conn x hx
      rw [createSocket_nSock] at h3
      rcases Nat.lt_or_eq_of_le (Nat.lt_succ_iff.1 h3) with h4 | rfl
      · rw [e5 x h4] at hx ⊢; exact h.2 x hx
      · rw [e3] at hx; simp at hx
  doConnect w ref hlt ho hc hj hs ht h := by
    obtain ⟨d1, d2, d3, -, d5, -⟩ := doConnect_fields w ref
    have hp {β : Type} (p : Sock → β) (hp : p { w.socks ref with connected := true } = p (w.socks ref)) (r : Nat) :
        p ((doConnect w ref).socks r) = p (w.socks r) := by rw [d2]; exact upd_proj _ _ _ _ p hp
    refine ⟨h.1.mono d5 (fun _ => ⟨hp Sock.sid rfl r, hp Sock.recovered rfl r⟩) fun a =>
      ((grow_out cfg r room).doConnect w ref hlt ho hc hj hs ht ⟨a, h.2⟩).1, fun x hx => ?_⟩
    rw [d2, upd_apply] at hx ⊢; split
    · exact hj
    · rename_i e; rw [if_neg e] at hx; exact h.2 x hx
  cleanup w ref hlt hc hj hs ht h := by
    obtain ⟨d1, d2, d3, -, d5, -⟩ := cleanup_fields cfg w ref
    refine ⟨h.1.mono d5 (fun _ => ⟨?_, ?_⟩) fun a => ((grow_out cfg r room).cleanup w ref hlt hc hj hs ht ⟨a, h.2⟩).1, fun x hx => ?_⟩
    · rw [d2]; exact upd_proj _ _ _ _ Sock.sid rfl
    · rw [d2]; exact upd_proj _ _ _ _ Sock.recovered rfl
    · rw [d2, upd_apply] at hx ⊢; split
      · rename_i e
        rw [if_pos e] at hx
        have : (w.socks ref).connected = true := hx
        rw [hc] at this; simp at this
      · rename_i e; rw [if_neg e] at hx; exact h.2 x hx
  packet w c ref x _ _ h := by unfold clientPacket; split <;> exact h
  received w ref type h := h

/-- A socket just created is in no room but its own, unless it was recovered. -/
theorem fresh_step {cfg : Cfg} {r : Nat} {room : Room} {h : List Ev} {e : Ev} (hn : NextOnce (h ++ [e])) (ht : NeverTwins cfg (h ++ [e]))
    (h0 : (run cfg h).nSock ≤ r) :
    Fresh r room (run cfg (h ++ [e])) := by
  obtain ⟨t1, t2, t3⟩ := neverTwins_snoc ht
  obtain ⟨n1, -⟩ := nextOnce_snoc hn
  have g := good_run cfg h n1 t1
  obtain ⟨i1, i2⟩ := inv_run cfg h
  rw [run_snoc]
  by_cases he : e.calm = true
  · exact .inl (by rw [(calm_step cfg _ e he).nSock]; exact h0)
  · refine ((grow_fresh cfg r room).step i1 i2 (invT_run cfg _ n1) e he t2 t3
        (fun c hP => ?_) (fun v ref reason _ hv hP => ?_) ⟨.inl h0, g.j⟩).1
    · exact ⟨.inl (by rw [(calm_clientClose cfg _ c).nSock]; exact h0), joined_calm hP.2 (calm_clientClose cfg _ c)⟩
    · have : v.nSock = (run cfg h).nSock := by rw [← hv]
      exact ⟨.inl (by rw [(calm_onclose cfg v ref reason).nSock, this]; exact h0), joined_calm hP.2 (calm_onclose cfg v ref reason)⟩

/-! ## Being connected -/

theorem grow_owned (cfg : Cfg) (r : Nat) (sid : Sid) :
    Grow cfg NoTwins fun w => (r < w.nSock ∧ (w.socks r).sid = sid ∧ ((w.socks r).connected = true → Stays r sid w)) ∧ Joined w where
  inert w t ch now h := h
  use w n h := ⟨⟨h.1.1, h.1.2.1, fun hc => ((grow_stays cfg r sid).use w n ⟨h.1.2.2 hc, h.2⟩).1⟩, h.2⟩
  data w ref v h := by
    have hp {β : Type} (p : Sock → β) (hp : p { w.socks ref with data := some v } = p (w.socks ref)) (r : Nat) :
        p ((setSock w ref fun s => { s with data := some v }).socks r) = p (w.socks r) := upd_proj _ _ _ _ p hp
    refine ⟨⟨h.1.1, (hp Sock.sid rfl r).trans h.1.2.1, fun hc => ?_⟩, fun r => ?_⟩
    · rw [hp Sock.connected rfl] at hc
      exact ((grow_stays cfg r sid).data w ref v ⟨h.1.2.2 hc, h.2⟩).1
    · rw [hp Sock.connected rfl, hp Sock.canJoin rfl]; exact h.2 r
  newNs w s h1 h2 h3 h4 hs h :=
    ⟨⟨h.1.1, h.1.2.1, fun hc => ((grow_stays cfg r sid).newNs w s h1 h2 h3 h4 hs ⟨h.1.2.2 hc, h.2⟩).1⟩, h.2⟩
  newClient w p _ h := h
  create w n c auth hn hc hs h := by
    obtain ⟨-, -, e3, -, e5⟩ := createSocket_self cfg w n c auth
    have e6 := createSocket_nSock cfg w n c auth
    refine ⟨⟨by have := h.1.1; omega, by rw [e5 r h.1.1]; exact h.1.2.1, fun hx => ?_⟩, fun x hx => ?_⟩
    · rw [e5 r h.1.1] at hx
      exact ((grow_stays cfg r sid).create w n c auth hn hc hs ⟨h.1.2.2 hx, h.2⟩).1
    · have h3 := (invS_createSocket hs cfg n c hn hc auth).conn x hx
      rw [createSocket_nSock] at h3
      rcases Nat.lt_or_eq_of_le (Nat.lt_succ_iff.1 h3) with h4 | rfl
      · rw [e5 x h4] at hx ⊢; exact h.2 x hx
      · rw [e3] at hx; simp at hx
  doConnect w ref hlt ho hc hj hs ht h := by
    obtain ⟨d1, d2, d3, -, d5, -⟩ := doConnect_fields w ref
    have hp {β : Type} (p : Sock → β) (hp : p { w.socks ref with connected := true } = p (w.socks ref)) (r : Nat) :
        p ((doConnect w ref).socks r) = p (w.socks r) := by rw [d2]; exact upd_proj _ _ _ _ p hp
    refine ⟨⟨by rw [d5]; exact h.1.1, (hp Sock.sid rfl r).trans h.1.2.1, fun hx => ?_⟩, fun x hx => ?_⟩
    · by_cases e : r = ref
      · subst e
        refine ⟨by rw [d5]; exact hlt, .inr ?_⟩
        rw [hp Sock.ns rfl, hp Sock.sid rfl, d1, upd_same]
        simp only [nsConnected, hj, if_true]
        exact ((addAll_spec (hs.ad _) _ _).2.1 _ _).2 (.inr ⟨rfl, by simp [h.1.2.1]⟩)
      · rw [d2, upd_ne _ _ e] at hx
        exact ((grow_stays cfg r sid).doConnect w ref hlt ho hc hj hs ht ⟨h.1.2.2 hx, h.2⟩).1
    · rw [d2, upd_apply] at hx ⊢; split
      · exact hj
      · rename_i e; rw [if_neg e] at hx; exact h.2 x hx
  cleanup w ref hlt hc hj hs ht h := by
    obtain ⟨d1, d2, d3, -, d5, -⟩ := cleanup_fields cfg w ref
    have hcn : ∀ x, ((cleanup cfg w ref).socks x).connected = (w.socks x).connected := fun x => by
      rw [d2]; exact upd_proj _ _ _ _ Sock.connected rfl
    refine ⟨⟨by rw [d5]; exact h.1.1, ?_, fun hx => ?_⟩, fun x hx => ?_⟩
    · refine Eq.trans ?_ h.1.2.1; rw [d2]; exact upd_proj _ _ _ _ Sock.sid rfl
    · rw [hcn] at hx
      exact ((grow_stays cfg r sid).cleanup w ref hlt hc hj hs ht ⟨h.1.2.2 hx, h.2⟩).1
    · rw [d2, upd_apply] at hx ⊢; split
      · rename_i e
        rw [if_pos e] at hx
        have : (w.socks ref).connected = true := hx
        rw [hc] at this; simp at this
      · rename_i e; rw [if_neg e] at hx; exact h.2 x hx
  packet w c ref x _ _ h := by unfold clientPacket; split <;> exact h
  received w ref type h := h

/-- The event that connects a socket puts it into its own room. -/
theorem owned_step {cfg : Cfg} {r : Nat} {h : List Ev} {e : Ev} (hn : NextOnce (h ++ [e])) (ht : NeverTwins cfg (h ++ [e]))
    (hr : r < (run cfg h).nSock) (h0 : ((run cfg h).socks r).connected = false) (h1 : ((run cfg (h ++ [e])).socks r).connected = true) :
    (((run cfg (h ++ [e])).nss ((run cfg (h ++ [e])).socks r).ns).ad.inRoom ((run cfg (h ++ [e])).socks r).sid ((run cfg (h ++ [e])).socks r).sid) := by
  obtain ⟨t1, t2, t3⟩ := neverTwins_snoc ht
  obtain ⟨n1, -⟩ := nextOnce_snoc hn
  have g := good_run cfg h n1 t1
  have g' := good_run cfg (h ++ [e]) hn ht
  obtain ⟨i1, i2⟩ := inv_run cfg h
  rw [run_snoc] at h1 g' ⊢
  have calmNot : ∀ w', Calm (run cfg h) w' → (w'.socks r).connected = false := by
    intro w' c
    rcases c.socks r with e | ⟨-, e⟩
    · rw [e]; exact h0
    · rw [e]; rfl
  by_cases he : e.calm = true
  · rw [calmNot _ (calm_step cfg _ e he)] at h1; simp at h1
  · have := (grow_owned cfg r ((run cfg h).socks r).sid).step i1 i2 (invT_run cfg _ n1) e he t2 t3
        (fun c hP => ?_) (fun v ref reason _ hv hP => ?_) ⟨⟨hr, rfl, fun hc => by rw [h0] at hc; simp at hc⟩, g.j⟩
    · obtain ⟨⟨a, b, c⟩, -⟩ := this
      have := (c h1).2
      rw [b]
      rw [b] at this
      exact this.resolve_left (by rw [g'.j r h1]; simp)
    · refine ⟨⟨by rw [(calm_clientClose cfg _ c).nSock]; exact hr, (calm_clientClose cfg _ c).sid r, fun hc => ?_⟩, joined_calm hP.2 (calm_clientClose cfg _ c)⟩
      rw [calmNot _ (calm_clientClose cfg _ c)] at hc; simp at hc
    · have cm := calm_onclose cfg v ref reason
      have e1 : v.nSock = (run cfg h).nSock := by rw [← hv]
      have e2 : v.socks = (run cfg h).socks := by rw [← hv]
      refine ⟨⟨by rw [cm.nSock, e1]; exact hr, by rw [cm.sid, e2], fun hc => ?_⟩, joined_calm hP.2 cm⟩
      rcases cm.socks r with e | ⟨-, e⟩
      · rw [e, e2, h0] at hc; simp at hc
      · rw [e] at hc; simp [closed] at hc

/-! ## Bulk calls -/

/-- What the bulk calls need and keep. -/
structure Fit (w : W) : Prop where
  s : InvS w
  j : Joined w
  k : Known w

theorem join_reg {w : W} (f : Fit w) {n : Nat} {sid : Sid} {ref : Nat} (hg : (w.nss n).sockets.get? sid = some ref) (rooms : List Room) :
    Fit (join w ref rooms) ∧ (join w ref rooms).socks = w.socks ∧ (join w ref rooms).nSock = w.nSock ∧
    (∀ m, ((join w ref rooms).nss m).sockets = (w.nss m).sockets) ∧
    (∀ m x r, ((join w ref rooms).nss m).ad.inRoom x r ↔ (w.nss m).ad.inRoom x r ∨ (m = n ∧ x = sid ∧ r ∈ rooms)) ∧
    (∀ x, x ∈ ((join w ref rooms).nss n).ad.sids.keys ↔ x ∈ (w.nss n).ad.sids.keys ∨ x = sid) := by
  obtain ⟨h1, h2, h3⟩ := f.s.reg n sid ref hg
  have hlt := f.s.conn ref h3
  have hcj := f.j ref h3
  have hso : (join w ref rooms).socks = w.socks := by unfold join; split <;> rfl
  refine ⟨⟨invS_join f.s hlt rooms, ?_, known_join f.k f.s ref rooms⟩, hso, (calm_join w ref rooms).nSock, ?_, ?_, ?_⟩
  · intro r hr; rw [hso] at hr ⊢; exact f.j r hr
  · intro m; unfold join; rw [if_pos hcj]; exact upd_proj _ _ _ _ Ns.sockets rfl
  · intro m x r
    unfold join; rw [if_pos hcj]; simp only [setNs, upd_apply, h1, h2]
    split
    · rename_i e; subst e
      rw [(addAll_spec (f.s.ad m) sid rooms).2.1]; simp
    · rename_i e; simp [e]
  · intro x
    unfold join; rw [if_pos hcj]; simp only [setNs, h1, h2, upd_same]
    rw [(addAll_spec (f.s.ad n) sid rooms).2.2]
    constructor
    · rintro (a | a)
      · exact .inr a
      · exact .inl a
    · rintro (a | a)
      · exact .inr a
      · exact .inl a

theorem leave_reg (cfg : Cfg) {w : W} (f : Fit w) {n : Nat} {sid : Sid} {ref : Nat} (hg : (w.nss n).sockets.get? sid = some ref) (room : Room) :
    Fit (leave cfg w ref room) ∧ (leave cfg w ref room).socks = w.socks ∧
    (∀ m, ((leave cfg w ref room).nss m).sockets = (w.nss m).sockets) ∧
    (∀ m x r, ((leave cfg w ref room).nss m).ad.inRoom x r ↔ (w.nss m).ad.inRoom x r ∧ ¬ (m = n ∧ x = sid ∧ r = room)) ∧
    (∀ x, x ∈ ((leave cfg w ref room).nss n).ad.sids.keys ↔ x ∈ (w.nss n).ad.sids.keys) := by
  obtain ⟨h1, h2, h3⟩ := f.s.reg n sid ref hg
  refine ⟨⟨invS_leave f.s cfg ref room, f.j, ?_⟩, rfl, ?_, ?_, ?_⟩
  · refine known_set f.k _ _ (fun _ _ h => h) fun x hx => ?_
    exact ((del_spec (f.s.ad _) _ _ room).2.2 x).2 hx
  · intro m; exact upd_proj _ _ _ _ Ns.sockets rfl
  · intro m x r
    unfold leave; simp only [setNs, upd_apply, h1, h2]
    split
    · rename_i e; subst e
      rw [(del_spec (f.s.ad m) cfg.delRet sid room).2.1]; simp
    · rename_i e; simp [e]
  · intro x
    unfold leave; simp only [setNs, h1, h2, upd_same]
    exact (del_spec (f.s.ad n) cfg.delRet sid room).2.2 x

theorem leaveEach_reg (cfg : Cfg) (rooms : List Room) {w : W} (f : Fit w) {n : Nat} {sid : Sid} {ref : Nat}
    (hg : (w.nss n).sockets.get? sid = some ref) :
    Fit (leaveEach cfg rooms w ref) ∧ (leaveEach cfg rooms w ref).socks = w.socks ∧
    (∀ m, ((leaveEach cfg rooms w ref).nss m).sockets = (w.nss m).sockets) ∧
    (∀ m x r, ((leaveEach cfg rooms w ref).nss m).ad.inRoom x r ↔ (w.nss m).ad.inRoom x r ∧ ¬ (m = n ∧ x = sid ∧ r ∈ rooms)) ∧
    (∀ x, x ∈ ((leaveEach cfg rooms w ref).nss n).ad.sids.keys ↔ x ∈ (w.nss n).ad.sids.keys) := by
  unfold leaveEach
  induction rooms generalizing w with
  | nil => exact ⟨f, rfl, fun _ => rfl, fun m x r => by simp, fun _ => Iff.rfl⟩
  | cons a l ih =>
    rw [List.foldl_cons]
    obtain ⟨a1, a2, a3, a4, a5⟩ := leave_reg cfg f hg a
    obtain ⟨b1, b2, b3, b4, b5⟩ := ih a1 (by rw [a3]; exact hg)
    refine ⟨b1, b2.trans a2, fun m => (b3 m).trans (a3 m), fun m x r => ?_, fun x => (b5 x).trans (a5 x)⟩
    rw [b4, a4, List.mem_cons]
    constructor
    · rintro ⟨⟨p, q⟩, s⟩
      refine ⟨p, ?_⟩
      rintro ⟨e1, e2, e | e⟩
      · exact q ⟨e1, e2, e⟩
      · exact s ⟨e1, e2, e⟩
    · rintro ⟨p, q⟩
      exact ⟨⟨p, fun ⟨e1, e2, e3⟩ => q ⟨e1, e2, .inl e3⟩⟩, fun ⟨e1, e2, e3⟩ => q ⟨e1, e2, .inr e3⟩⟩

theorem local_wjoin (n : Nat) (target : List Room) : LocalCb (view n) (fun w ref => join w ref target) Fit where
  inv w f := f.s.ad n
  pres w id ref f hg := (join_reg f hg target).1
  inRoom w id ref f hg x hx r := by
    refine ((join_reg f hg target).2.2.2.2.1 n x r).trans ?_
    simp [hx, view]
  key w id ref f hg x hx := by
    refine ((join_reg f hg target).2.2.2.2.2 x).trans ?_
    simp [hx, view]
  sock w id ref f hg x hx := by
    show ((join w ref target).nss n).sockets.get? x = _
    rw [(join_reg f hg target).2.2.2.1]; rfl

theorem local_wleave (cfg : Cfg) (n : Nat) (target : List Room) : LocalCb (view n) (leaveEach cfg target) Fit where
  inv w f := f.s.ad n
  pres w id ref f hg := (leaveEach_reg cfg target f hg).1
  inRoom w id ref f hg x hx r := by
    refine ((leaveEach_reg cfg target f hg).2.2.2.1 n x r).trans ?_
    simp [hx, view]
  key w id ref f hg x hx := (leaveEach_reg cfg target f hg).2.2.2.2 x
  sock w id ref f hg x hx := by
    show ((leaveEach cfg target w ref).nss n).sockets.get? x = _
    rw [(leaveEach_reg cfg target f hg).2.2.1]; rfl

theorem foldl_wjoin (n : Nat) (target : List Room) (ids : List Sid) {w : W} (f : Fit w) (hf : ∀ x ∈ ids, ∃ ref, (w.nss n).sockets.get? x = some ref) :
    (ids.foldl (visit (view n) (fun w ref => join w ref target)) w).socks = w.socks ∧
    ∀ m x r, ((ids.foldl (visit (view n) (fun w ref => join w ref target)) w).nss m).ad.inRoom x r ↔
      (w.nss m).ad.inRoom x r ∨ (m = n ∧ x ∈ ids ∧ r ∈ target) := by
  induction ids generalizing w with
  | nil => simp
  | cons a l ih =>
    obtain ⟨ref, hg⟩ := hf a (by simp)
    have hv : visit (view n) (fun w ref => join w ref target) w a = join w ref target := by simp [visit, view, hg]
    rw [List.foldl_cons, hv]
    obtain ⟨a1, a2, -, a4, a5, -⟩ := join_reg f hg target
    obtain ⟨b1, b2⟩ := ih a1 fun x hx => by rw [a4]; exact hf x (by simp [hx])
    refine ⟨b1.trans a2, fun m x r => ?_⟩
    rw [b2, a5, List.mem_cons]
    constructor
    · rintro ((p | ⟨p, q, s⟩) | ⟨p, q, s⟩)
      · exact .inl p
      · exact .inr ⟨p, .inl q, s⟩
      · exact .inr ⟨p, .inr q, s⟩
    · rintro (p | ⟨p, q | q, s⟩)
      · exact .inl (.inl p)
      · exact .inl (.inr ⟨p, q, s⟩)
      · exact .inr ⟨p, q, s⟩

theorem foldl_wleave (cfg : Cfg) (n : Nat) (target : List Room) (ids : List Sid) {w : W} (f : Fit w) (hf : ∀ x ∈ ids, ∃ ref, (w.nss n).sockets.get? x = some ref) :
    (ids.foldl (visit (view n) (leaveEach cfg target)) w).socks = w.socks ∧
    ∀ m x r, ((ids.foldl (visit (view n) (leaveEach cfg target)) w).nss m).ad.inRoom x r ↔
      (w.nss m).ad.inRoom x r ∧ ¬ (m = n ∧ x ∈ ids ∧ r ∈ target) := by
  induction ids generalizing w with
  | nil => simp
  | cons a l ih =>
    obtain ⟨ref, hg⟩ := hf a (by simp)
    have hv : visit (view n) (leaveEach cfg target) w a = leaveEach cfg target w ref := by simp [visit, view, hg]
    rw [List.foldl_cons, hv]
    obtain ⟨a1, a2, a4, a5, -⟩ := leaveEach_reg cfg target f hg
    obtain ⟨b1, b2⟩ := ih a1 fun x hx => by rw [a4]; exact hf x (by simp [hx])
    refine ⟨b1.trans a2, fun m x r => ?_⟩
    rw [b2, a5, List.mem_cons]
    constructor
    · rintro ⟨⟨p, q⟩, s⟩
      refine ⟨p, ?_⟩
      rintro ⟨e1, e2 | e2, e3⟩
      · exact q ⟨e1, e2, e3⟩
      · exact s ⟨e1, e2, e3⟩
    · rintro ⟨p, q⟩
      exact ⟨⟨p, fun ⟨e1, e2, e3⟩ => q ⟨e1, .inl e2, e3⟩⟩, fun ⟨e1, e2, e3⟩ => q ⟨e1, .inr e2, e3⟩⟩

/-- The ids that a bulk call visits. -/
theorem visited_w {cb : W → Nat → W} {n : Nat} (hl : LocalCb (view n) cb Fit) {w : W} (f : Fit w) (rooms except : List Room) (flags : Flags) (x : Sid) :
    x ∈ (apply (view n) (options rooms except flags) cb w).2 ↔
      (∃ ref, (w.nss n).sockets.get? x = some ref) ∧ Spec.Matches rooms except fun room => room ∈ roomsOf (w.nss n).ad x := by
  rw [(apply_spec hl (options rooms except flags) w f).2.2.2 x]
  have e1 : Opts.targets (options rooms except flags) = rooms := rfl
  have e2 : Opts.excepts (options rooms except flags) = except := rfl
  unfold Spec.Matches
  simp only [Delivery.mem_roomsOf (f.s.ad n), view, e1, e2]
  constructor
  · rintro ⟨a, b, c⟩
    refine ⟨a, ?_, c⟩
    split at b
    · rename_i e; exact .inl e
    · exact .inr b
  · rintro ⟨a, b, c⟩
    refine ⟨a, ?_, c⟩
    split
    · obtain ⟨ref, hr⟩ := a; exact f.k _ _ _ hr
    · rename_i e
      rcases b with b | b
      · exact absurd b e
      · exact b

end Verif.World
