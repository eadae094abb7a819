import Verif.Proof.WorldClose

/-! # The server: ids that are never generated twice; the timer of a client that joined -/

namespace Verif.World
open Verif Verif.Adapter Verif.Spec

/-! ## Fresh ids -/

/-- The client exists and speaks protocol 3. -/
def Old (c : Nat) (w : W) : Prop := c < w.nClient ∧ (w.clients c).proto3 = true

theorem Old.calm {c : Nat} {w w' : W} (h : Old c w) (cm : Calm w w') : Old c w' :=
  ⟨by rw [cm.nClient]; exact h.1, by rw [cm.proto3]; exact h.2⟩

theorem create_clients (cfg : Cfg) (w : W) (n c : Nat) (auth : Option (Session.Pid × String)) :
    (createSocket cfg w n c auth).clients = w.clients ∧ (createSocket cfg w n c auth).nClient = w.nClient := by
  have p : Prim0 fun a b : W => b.clients = a.clients ∧ b.nClient = a.nClient :=
    ⟨fun _ => ⟨rfl, rfl⟩, fun h1 h2 => ⟨h2.1.trans h1.1, h2.2.trans h1.2⟩,
      fun w c ref x => by unfold clientPacket; split <;> exact ⟨rfl, rfl⟩, fun w n f hf => ⟨rfl, rfl⟩⟩
  obtain ⟨s, ⟨h1, h2⟩, -⟩ := createSocket_rel cfg p w n c auth
  exact ⟨h1, h2⟩

theorem doConnect_proto3 (w : W) (ref c : Nat) : ((doConnect w ref).clients c).proto3 = (w.clients c).proto3 := by
  rw [(doConnect_fields w ref).2.2.1]; exact upd_proj _ _ _ _ Client.proto3 rfl

theorem grow_old (cfg : Cfg) (c : Nat) : Grow cfg (fun _ => True) (Old c) where
  inert w t ch now h := h
  use w n h := h
  data w ref v h := h
  newNs w s _ _ _ _ _ h := h
  newClient w p _ h := by
    refine ⟨Nat.lt_succ_of_lt h.1, ?_⟩
    dsimp only; rw [upd_ne _ _ (Nat.ne_of_lt h.1)]; exact h.2
  create w n c' auth _ _ _ h := by
    obtain ⟨h1, h2⟩ := create_clients cfg w n c' auth
    exact ⟨by rw [h2]; exact h.1, by rw [h1]; exact h.2⟩
  doConnect w ref _ _ _ _ _ _ h := by
    obtain ⟨-, -, -, -, -, d6, -⟩ := doConnect_fields w ref
    exact ⟨by rw [d6]; exact h.1, by rw [doConnect_proto3]; exact h.2⟩
  cleanup w ref _ _ _ _ _ h := by
    obtain ⟨-, -, d3, -, -, d6, -⟩ := cleanup_fields cfg w ref
    exact ⟨by rw [d6]; exact h.1, by rw [d3]; exact h.2⟩
  packet w c' ref x _ _ h := h.calm (calm_clientPacket _ _ _ _)
  received w ref type h := h

theorem old_run {c : Nat} {cfg : Cfg} {h t : List Ev} (hn : NextOnce (h ++ t)) (ho : Old c (run cfg h)) :
    Old c (run cfg (h ++ t)) := by
  induction t using snocRec with
  | nil => simpa using ho
  | append_singleton t e ih =>
    rw [← List.append_assoc] at hn ⊢
    rw [run_snoc]
    have ih := ih (nextOnce_prefix hn)
    by_cases he : e.calm = true
    · exact ih.calm (calm_step cfg _ e he)
    · obtain ⟨i1, i2⟩ := inv_run cfg (h ++ t)
      exact (grow_old cfg c).step i1 i2 (invT_run cfg _ (nextOnce_prefix hn)) e he trivial trivial
        (fun c hP => hP.calm (calm_clientClose _ _ _)) (fun v ref reason _ _ hP => hP.calm (calm_onclose _ _ _ _)) ih

/-- Sockets that were not recovered have the id made for them. -/
def Ids (cfg : Cfg) (w : W) : Prop := ∀ r, r < w.nSock → (w.socks r).recovered = false → (w.socks r).sid = idFor cfg w r

theorem idFor_eq {cfg : Cfg} {w w' : W} {r : Nat} (h1 : (w'.socks r).client = (w.socks r).client) (h2 : (w'.socks r).ns = (w.socks r).ns)
    (h3 : (w'.clients (w.socks r).client).proto3 = (w.clients (w.socks r).client).proto3)
    (h4 : (w'.nss (w.socks r).ns).name = (w.nss (w.socks r).ns).name) : idFor cfg w' r = idFor cfg w r := by
  unfold idFor; rw [h1, h2, h3, h4]

theorem Ids.frame {cfg : Cfg} {w w' : W} (h : Ids cfg w) (hn : w'.nSock = w.nSock)
    (hs : ∀ r, (w'.socks r).client = (w.socks r).client ∧ (w'.socks r).ns = (w.socks r).ns ∧ (w'.socks r).sid = (w.socks r).sid ∧
      (w'.socks r).recovered = (w.socks r).recovered)
    (hc : ∀ c, (w'.clients c).proto3 = (w.clients c).proto3) (hm : ∀ n, (w'.nss n).name = (w.nss n).name) : Ids cfg w' := by
  intro r hr hrec
  obtain ⟨a, b, c, d⟩ := hs r
  rw [c, idFor_eq a b (hc _) (hm _)]; exact h r (by rw [← hn]; exact hr) (by rw [← d]; exact hrec)

theorem Ids.calm {cfg : Cfg} {w w' : W} (h : Ids cfg w) (cm : Calm w w') : Ids cfg w' :=
  h.frame cm.nSock (fun r => by rcases cm.socks r with e | ⟨-, e⟩ <;> rw [e] <;> exact ⟨rfl, rfl, rfl, rfl⟩) cm.proto3 cm.name

theorem create_names (cfg : Cfg) (w : W) (n c : Nat) (auth : Option (Session.Pid × String)) (m : Nat) :
    ((createSocket cfg w n c auth).nss m).name = (w.nss m).name := by
  have p : Prim0 fun a b : W => ∀ m, (b.nss m).name = (a.nss m).name :=
    ⟨fun _ _ => rfl, fun h1 h2 m => (h2 m).trans (h1 m),
      fun w c ref x m => by unfold clientPacket; split <;> rfl, fun w n f hf m => upd_proj _ _ _ _ Ns.name (hf _).1⟩
  obtain ⟨s, h1, -⟩ := createSocket_rel cfg p w n c auth
  exact h1 m

/-- The socket just created, if it is not recovered. -/
theorem create_sid (cfg : Cfg) (w : W) (n c : Nat) (auth : Option (Session.Pid × String))
    (hr : ((createSocket cfg w n c auth).socks w.nSock).recovered = false) :
    ((createSocket cfg w n c auth).socks w.nSock).sid = freshSid cfg w n c := by
  have hrs (w : W) (s : Session.Sess) (missed : List (List Val)) : ((recoverSocket w n c s missed).socks w.nSock).recovered = true := by
    have p : Prim0 fun a b : W => b.socks = a.socks :=
      ⟨fun _ => rfl, fun h1 h2 => h2.trans h1, fun w c ref x => by unfold clientPacket; split <;> rfl, fun _ _ _ _ => rfl⟩
    unfold recoverSocket; dsimp only
    have e1 := p.foldl (fun w' l => sockPacket w' w.nSock { type := .event, data := .args l })
      (fun w' l => p.sockPacket w' w.nSock _) missed
      (s.rooms.foldl (fun w' x => join w' w.nSock [x])
        (alloc w { ns := n, client := c, sid := s.sid, pid := s.pid, data := s.data, recovered := true }))
    have e2 := p.foldl (fun w' x => join w' w.nSock [x]) (fun w' x => p.join w' w.nSock [x]) s.rooms
      (alloc w { ns := n, client := c, sid := s.sid, pid := s.pid, data := s.data, recovered := true })
    rw [e1, e2]; simp [alloc]
  have key : (∃ k s missed, createSocket cfg w n c auth = recoverSocket (setNs w n k) n c s missed) ∨
      (∃ k, (∀ x, (k x).name = x.name) ∧ createSocket cfg w n c auth = newSocket cfg (setNs w n k) n c) := by
    unfold createSocket; split
    · dsimp only; split
      · exact .inl ⟨_, _, _, rfl⟩
      · refine .inr ⟨fun k => { k with sess := _ }, ?_, rfl⟩
        exact fun _ => rfl
    · refine .inr ⟨id, fun _ => rfl, ?_⟩
      have : setNs w n id = w := by
        have e : upd w.nss n (w.nss n) = w.nss := by funext j; simp only [upd]; split; next e => rw [e]
                                                     next => rfl
        simp [setNs, e]
      rw [this]
  rcases key with ⟨k, s, missed, e⟩ | ⟨k, hk, e⟩
  · have := hrs (setNs w n k) s missed
    rw [← e] at this
    exact absurd (hr.symm.trans this) (by simp)
  · rw [e]
    simp only [newSocket, alloc, setNs, upd_same, freshSid, hk]

theorem grow_ids (cfg : Cfg) : Grow0 cfg (Ids cfg) where
  inert w t ch now h := h
  use w n h := h.frame rfl (fun _ => ⟨rfl, rfl, rfl, rfl⟩) (fun _ => rfl) fun m => upd_proj _ _ _ _ Ns.name rfl
  data w ref v h := by
    have hp {β : Type} (p : Sock → β) (hp : p { w.socks ref with data := some v } = p (w.socks ref)) (r : Nat) :
        p ((setSock w ref fun s => { s with data := some v }).socks r) = p (w.socks r) := upd_proj _ _ _ _ p hp
    exact h.frame rfl (fun r => ⟨hp Sock.client rfl r, hp Sock.ns rfl r, hp Sock.sid rfl r, hp Sock.recovered rfl r⟩) (fun _ => rfl) fun _ => rfl
  newNs w s _ _ _ _ hs h := by
    intro r hr hrec
    have hr' : r < w.nSock := hr
    rw [idFor_eq (w := w) (w' := newNs w s) rfl rfl rfl (by
      simp only [newNs]; rw [upd_ne _ _ (Nat.ne_of_lt (hs.sock r hr').1)])]
    exact h r hr hrec
  newClient w p hs h := by
    intro r hr hrec
    have hr' : r < w.nSock := hr
    refine (h r hr hrec).trans (Eq.symm (idFor_eq (w := w) ?_ ?_ ?_ ?_))
    · rfl
    · rfl
    · dsimp only; rw [upd_ne _ _ (Nat.ne_of_lt (hs.sock r hr').2)]
    · rfl
  create w n c auth _ _ _ h := by
    obtain ⟨a1, a2, -, -, a5⟩ := createSocket_self cfg w n c auth
    intro r hr hrec
    rw [createSocket_nSock] at hr
    rcases Nat.lt_or_eq_of_le (Nat.lt_succ_iff.1 hr) with hr' | rfl
    · have e := a5 r hr'
      rw [e] at hrec ⊢
      rw [idFor_eq (w := w) (by rw [e]) (by rw [e]) (by rw [(create_clients cfg w n c auth).1]) (create_names ..)]
      exact h r hr' hrec
    · rw [create_sid cfg w n c auth hrec]
      unfold idFor freshSid
      rw [a1, a2, (create_clients cfg w n c auth).1, create_names]
  doConnect w ref _ _ _ h := by
    obtain ⟨d1, d2, -, -, d5, -⟩ := doConnect_fields w ref
    have hp {β : Type} (p : Sock → β) (hp : p { w.socks ref with connected := true } = p (w.socks ref)) (r : Nat) :
        p ((doConnect w ref).socks r) = p (w.socks r) := by rw [d2]; exact upd_proj _ _ _ _ p hp
    exact h.frame d5 (fun r => ⟨hp Sock.client rfl r, hp Sock.ns rfl r, hp Sock.sid rfl r, hp Sock.recovered rfl r⟩) (doConnect_proto3 w ref)
      fun m => by rw [d1]; exact upd_proj _ _ _ _ Ns.name rfl
  cleanup w ref _ _ h := by
    obtain ⟨d1, d2, d3, -, d5, -⟩ := cleanup_fields cfg w ref
    have hp {β : Type} (p : Sock → β) (hp : p { w.socks ref with canJoin := false } = p (w.socks ref)) (r : Nat) :
        p ((cleanup cfg w ref).socks r) = p (w.socks r) := by rw [d2]; exact upd_proj _ _ _ _ p hp
    exact h.frame d5 (fun r => ⟨hp Sock.client rfl r, hp Sock.ns rfl r, hp Sock.sid rfl r, hp Sock.recovered rfl r⟩) (fun c => by rw [d3])
      fun m => by rw [d1]; exact upd_proj _ _ _ _ Ns.name rfl
  packet w c' ref x _ _ h := h.calm (calm_clientPacket _ _ _ _)
  received w ref type h := h

theorem ids_run (cfg : Cfg) (h : List Ev) : Ids cfg (run cfg h) := by
  induction h using snocRec with
  | nil => intro r hr; simp [run, init, newNs] at hr
  | append_singleton h e ih =>
    rw [run_snoc]
    by_cases he : e.calm = true
    · exact ih.calm (calm_step cfg _ e he)
    · obtain ⟨i1, i2⟩ := inv_run cfg h
      exact (grow_ids cfg).step i1 i2 e he
        (fun c hP => hP.calm (calm_clientClose _ _ _)) (fun v ref reason _ _ hP => hP.calm (calm_onclose _ _ _ _)) ih

/-- Without recovery no socket is recovered. -/
def Never (w : W) : Prop := ∀ r, (w.socks r).recovered = false

theorem Never.calm {w w' : W} (h : Never w) (cm : Calm w w') : Never w' := fun r => by
  rcases cm.socks r with e | ⟨-, e⟩ <;> rw [e] <;> exact h r

theorem grow_never (cfg : Cfg) (hrec : cfg.recovery = none) : Grow0 cfg Never where
  inert w t ch now h := h
  use w n h := h
  data w ref v h r := (upd_proj w.socks ref r { w.socks ref with data := some v } Sock.recovered rfl).trans (h r)
  newNs w s _ _ _ _ _ h := h
  newClient w p hs h := h
  create w n c auth _ _ _ h := by
    intro r
    simp only [createSocket, hrec, newSocket, alloc, upd_apply]; split
    · rfl
    · exact h r
  doConnect w ref _ _ _ h := by
    intro r; rw [(doConnect_fields w ref).2.1]; exact Eq.trans (upd_proj w.socks ref r _ Sock.recovered (by rfl)) (h r)
  cleanup w ref _ _ h := by
    intro r; rw [(cleanup_fields cfg w ref).2.1]; exact Eq.trans (upd_proj w.socks ref r _ Sock.recovered (by rfl)) (h r)
  packet w c' ref x _ _ h := h.calm (calm_clientPacket _ _ _ _)
  received w ref type h := h

theorem never_run {cfg : Cfg} (hrec : cfg.recovery = none) (h : List Ev) : Never (run cfg h) := by
  induction h using snocRec with
  | nil => intro r; rfl
  | append_singleton h e ih =>
    rw [run_snoc]
    by_cases he : e.calm = true
    · exact ih.calm (calm_step cfg _ e he)
    · obtain ⟨i1, i2⟩ := inv_run cfg h
      exact (grow_never cfg hrec).step i1 i2 e he
        (fun c hP => hP.calm (calm_clientClose _ _ _)) (fun v ref reason _ _ hP => hP.calm (calm_onclose _ _ _ _)) ih

/-- Without recovery and without clients of protocol 3, no two sockets ever share an id. -/
theorem neverTwins_fresh {cfg : Cfg} {h : List Ev} (hn : NextOnce h) (hrec : cfg.recovery = none)
    (hinj : ∀ a b, cfg.newSid a = cfg.newSid b → a = b)
    (hp : ∀ c, c < (run cfg h).nClient → ((run cfg h).clients c).proto3 = false) : NeverTwins cfg h := by
  rintro p ⟨t, rfl⟩ r r' ho ho' he
  have hnp := nextOnce_prefix hn
  have hs := (inv_run cfg p).1
  have hsid : ∀ x, x < (run cfg p).nSock → ((run cfg p).socks x).sid = cfg.newSid x := by
    intro x hx
    rw [ids_run cfg p x hx (never_run hrec p x)]
    unfold idFor
    cases e : ((run cfg p).clients ((run cfg p).socks x).client).proto3 with
    | true =>
      have := old_run (t := t) hn ⟨(hs.sock x hx).2, e⟩
      have h2 := this.2
      rw [hp _ this.1] at h2; simp at h2
    | false => simp
  rw [hsid r ho.1, hsid r' ho'.1] at he
  exact hinj _ _ he

/-- What follows the last "#" is determined. -/
theorem hash_inj {a b x y : List Char} (hx : '#' ∉ x) (hy : '#' ∉ y) (h : a ++ '#' :: x = b ++ '#' :: y) : a = b ∧ x = y := by
  induction a generalizing b with
  | nil =>
    cases b with
    | nil => simpa using h
    | cons c b => simp at h; exact absurd (h.2 ▸ (by simp : '#' ∈ b ++ '#' :: y)) hx
  | cons c a ih =>
    cases b with
    | nil => simp at h; exact absurd (h.2 ▸ (by simp : '#' ∈ a ++ '#' :: x)) hy
    | cons d b =>
      simp at h
      obtain ⟨e1, e2⟩ := ih h.2
      exact ⟨by rw [h.1, e1], e2⟩

/-- The ids made for two sockets are the same only if the sockets are of one client and of namespaces of one name. -/
theorem idFor_inj {cfg : Cfg} (hg : GoodIds cfg) {w : W} {r r' : Nat} (h : idFor cfg w r = idFor cfg w r') : r = r' ∨
    ((w.socks r).client = (w.socks r').client ∧ (w.nss (w.socks r).ns).name = (w.nss (w.socks r').ns).name) := by
  have hh (n x : String) : (n ++ "#" ++ x).toList = n.toList ++ '#' :: x.toList := by simp
  have hm (n x : String) : '#' ∈ (n ++ "#" ++ x).toList := by rw [hh]; simp
  unfold idFor at h
  split at h
  · split at h
    · rename_i e1
      split at h
      · split at h
        · rename_i e2; exact .inr ⟨hg.conn _ _ h, e1.trans e2.symm⟩
        · exact absurd (h ▸ hm _ _) (hg.plainConn _)
      · exact absurd h.symm (hg.apart _ _)
    · split at h
      · split at h
        · exact absurd (h ▸ hm _ _) (hg.plainConn _)
        · have := congrArg String.toList h
          rw [hh, hh] at this
          obtain ⟨a, b⟩ := hash_inj (hg.plainConn _) (hg.plainConn _) this
          exact .inr ⟨hg.conn _ _ (String.toList_inj.1 b), String.toList_inj.1 a⟩
      · exact absurd (h ▸ hm _ _) (hg.plainSid _)
  · split at h
    · split at h
      · exact absurd h (hg.apart _ _)
      · exact absurd (h ▸ hm _ _) (hg.plainSid _)
    · exact .inl (hg.sid _ _ h)

/-! ## The timer of a client that joined a namespace is stopped -/

def TimOff (w : W) : Prop := ∀ r, Obs.connection r ∈ w.log → r < w.nSock ∧ (w.clients (w.socks r).client).timer = false

theorem mem_life {r : Nat} {l : List Obs} : Obs.connection r ∈ l ↔ Life.connection ∈ life r l := by
  unfold life
  rw [List.mem_filterMap]
  constructor
  · intro h; exact ⟨_, h, by simp [lifeOf]⟩
  · rintro ⟨o, h, e⟩
    cases o <;> simp only [lifeOf] at e <;> (try split at e) <;> simp at e
    rename_i e'; subst e'; exact h

theorem traced_connection {rec : Bool} {Q : String → Prop} {w w' : W} (h : Traced rec Q w w') (r : Nat) :
    Obs.connection r ∈ w'.log ↔ Obs.connection r ∈ w.log := by
  obtain ⟨ext, h1, h2⟩ := h
  rw [h1, List.mem_append]
  refine ⟨fun h => h.elim id fun h => ?_, .inl⟩
  have := mem_life.1 h
  rcases h2 r with e | ⟨-, -, reason, -, e⟩
  · rw [e.2] at this; simp at this
  · rw [e] at this; unfold ending at this; split at this <;> simp at this

theorem TimOff.rel {rec : Bool} {Q : String → Prop} {w w' : W} (h : TimOff w) (cm : Calm w w') (ht : Traced rec Q w w')
    (hm : ∀ d, (w'.clients d).timer = true → (w.clients d).timer = true) : TimOff w' := by
  intro r hr
  obtain ⟨a, b⟩ := h r ((traced_connection ht r).1 hr)
  refine ⟨by rw [cm.nSock]; exact a, ?_⟩
  rw [cm.client]
  cases e : (w'.clients (w.socks r).client).timer with
  | false => rfl
  | true => have := hm _ e; rw [b] at this; simp at this

theorem timRel_mono {w w' : W} (hs : InvS w') (h : TimRel (fun _ => False) w w') (d : Nat) (hd : (w'.clients d).timer = true) :
    (w.clients d).timer = true := by
  rcases h.timer d with e | e | e
  · exact e.elim
  · rw [← e]; exact hd
  · have := (hs.timer d hd).2; rw [e] at this; simp at this

theorem timer_mono_step {cfg : Cfg} {w : W} (hs : InvS w) (e : Ev) (he : e.calm = true) (d : Nat)
    (hd : ((step cfg w e).clients d).timer = true) : (w.clients d).timer = true := by
  by_cases hf : ∃ c, e = .timer c
  · obtain ⟨c, rfl⟩ := hf
    simp only [step] at hd
    split at hd
    · unfold timerFires at hd
      split at hd
      · rename_i ht
        dsimp only at hd
        have h1 : InvS (setClient w c fun k => { k with timer := false }) :=
          ((blocks_clRel cfg).timer w c trivial hs).1
        have h0 : ((setClient w c fun k => { k with timer := false }).clients d).timer = true → (w.clients d).timer = true := by
          simp only [setClient, upd_apply]; split
          · simp
          · exact id
        split at hd
        · obtain ⟨a, b⟩ := (blocks_timRel cfg fun _ => False).clientClose _ c h1
          exact h0 (timRel_mono a b d hd)
        · exact h0 hd
      · exact hd
    · exact hd
  · obtain ⟨a, b⟩ := (blocks_timRel cfg fun _ => False).step w e he (fun _ _ => trivial)
      (by intro c hc; cases e <;> simp only [Ev.fires, List.not_mem_nil] at hc; exact hf ⟨_, rfl⟩) hs
    exact timRel_mono a b d hd

theorem TimOff.eq {w w' : W} (h : TimOff w) (h1 : ∀ r, Obs.connection r ∈ w'.log → Obs.connection r ∈ w.log)
    (h2 : w'.nSock = w.nSock) (h3 : ∀ r, (w'.socks r).client = (w.socks r).client) (h4 : w'.clients = w.clients) : TimOff w' := by
  intro r hr
  rw [h2, h3, h4]; exact h r (h1 r hr)

theorem grow_timOff (cfg : Cfg) : Grow0 cfg TimOff where
  inert w t ch now h := h
  use w n h := h
  data w ref v h := h.eq (fun _ h => h) rfl (fun r => upd_proj w.socks ref r { w.socks ref with data := some v } Sock.client rfl) rfl
  newNs w s _ _ _ _ _ h := h
  newClient w p hs h := by
    intro r hr
    obtain ⟨a, b⟩ := h r hr
    refine ⟨a, ?_⟩
    dsimp only; rw [upd_ne _ _ (Nat.ne_of_lt (hs.sock r a).2)]; exact b
  create w n c auth _ _ _ h := by
    have p : Prim0 fun a b : W => ∀ r, Obs.connection r ∈ b.log → Obs.connection r ∈ a.log :=
      ⟨fun _ _ h => h, fun h1 h2 r h => h1 r (h2 r h),
        fun w c ref x r => by
          unfold clientPacket; split
          · simp [obs]
          · exact id,
        fun w n f hf r h => h⟩
    obtain ⟨s, h1, -⟩ := createSocket_rel cfg p w n c auth
    intro r hr
    obtain ⟨a, b⟩ := h r (h1 r hr)
    rw [createSocket_nSock, (createSocket_self cfg w n c auth).2.2.2.2 r a, (create_clients cfg w n c auth).1]
    exact ⟨Nat.lt_succ_of_lt a, b⟩
  doConnect w ref hlt ho _ h := by
    obtain ⟨-, d2, d3, -, d5, -, -, -, -, -, d11⟩ := doConnect_fields w ref
    have hp (r : Nat) : ((doConnect w ref).socks r).client = (w.socks r).client := by
      rw [d2]; exact upd_proj _ _ _ _ Sock.client rfl
    have hoff (d : Nat) (hd : d = (w.socks ref).client ∨ (w.clients d).timer = false) : ((doConnect w ref).clients d).timer = false := by
      rw [d3, upd_apply]; split
      · rfl
      · rename_i e; exact hd.resolve_left e
    intro r hr
    rw [hp, d5]
    rw [d11 ho] at hr
    simp only [List.mem_append, List.mem_cons, List.not_mem_nil, or_false, reduceCtorEq, false_or] at hr
    rcases hr with hr | hr
    · exact ⟨(h r hr).1, hoff _ (.inr (h r hr).2)⟩
    · cases hr; exact ⟨hlt, hoff _ (.inl rfl)⟩
  cleanup w ref _ _ h := by
    obtain ⟨-, d2, d3, -, d5, d6, -, -, -, d10, -⟩ := cleanup_fields cfg w ref
    exact h.eq (fun r => by rw [d10]; exact id) d5
      (fun r => by rw [d2, upd_proj w.socks ref r { w.socks ref with canJoin := false } Sock.client rfl]) d3
  packet w c ref x _ _ h := by
    unfold clientPacket; split
    · exact h.eq (fun r => by simp [obs]) rfl (fun _ => rfl) rfl
    · exact h
  received w ref type h := h.eq (fun r => by simp [obs]) rfl (fun _ => rfl) rfl

theorem timOff_run (cfg : Cfg) (h : List Ev) : TimOff (run cfg h) := by
  induction h using snocRec with
  | nil => intro r hr; simp [run, init, newNs] at hr
  | append_singleton h e ih =>
    rw [run_snoc]
    obtain ⟨i1, i2⟩ := inv_run cfg h
    by_cases he : e.calm = true
    · exact ih.rel (calm_step cfg _ e he) (traced_step cfg _ e he) fun d => timer_mono_step i1 e he d
    · refine (grow_timOff cfg).step i1 i2 e he
        (fun c hP => hP.rel (calm_clientClose _ _ _)
          ((prim_traced cfg fun _ => True).clientClose _ c (fun _ _ => trivial) trivial) ?_)
        (fun v ref reason _ hv hP => hP.rel (calm_onclose _ _ _ _) (traced_onclose cfg v ref reason) ?_) ih
      · obtain ⟨a, b⟩ := (blocks_timRel cfg fun _ => False).clientClose _ c i1
        exact fun d => timRel_mono a b d
      · have hs : InvS v := by
          have : InvS { v with tasks := (run cfg h).tasks } := by rw [hv]; exact i1
          exact ⟨this.sock, this.conn, this.ad, this.nsWf, this.reg, this.live, this.clWf, this.cl, this.clNs, this.timer, this.names, this.nspsWf⟩
        exact fun d => timRel_mono (invS_onclose hs _ _ _) (timRel_onclose _ cfg v ref reason) d

end Verif.World
