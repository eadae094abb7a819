import Verif.Proof.WorldFull
import Verif.Proof.Delivery

/-! # The server: closing connections, sockets and the whole server -/

namespace Verif.World
open Verif Verif.Adapter Verif.Spec

/-! ## One namespace seen by the selections -/

def toNsp (w : W) (n : Nat) : Delivery.Nsp where
  ad := (w.nss n).ad
  sockets := (w.nss n).sockets
  sidOf := fun r => (w.socks r).sid
  canJoin := fun r => (w.socks r).canJoin

theorem ok_toNsp {w : W} (hs : InvS w) (hj : Joined w) (hk : Known w) (n : Nat) : Delivery.OK (toNsp w n) :=
  Delivery.ok_of_inv (hs.ad n) (fun s r hg => (hs.reg n s r hg).2.1) (fun s r hg => hj r (hs.reg n s r hg).2.2)
    (fun s r hg => hk n s r hg)

/-! ## Closing a connection leaves the sockets of the others alone -/

def OthersKept (c : Nat) (w0 w : W) : Prop := ∀ r, (w0.socks r).client ≠ c → w.socks r = w0.socks r

theorem others_onclose {c : Nat} {w0 w : W} (hs : InvS w) (hc : Calm w0 w) (h : OthersKept c w0 w) (cfg : Cfg) (sid : Sid) (ref : Nat)
    (hg : (w.clients c).sockets.get? sid = some ref) (reason : String) : OthersKept c w0 (onclose cfg w ref reason) := by
  intro r hr
  have hcl := hs.cl c sid ref hg
  rw [(onclose_effect cfg reason hcl.2.2).1, upd_ne]
  · exact h r hr
  · rintro rfl; exact hr (by rw [← hc.client]; exact hcl.1)

theorem others_clientOnclose {w : W} (hs : InvS w) (cfg : Cfg) (c : Nat) (reason : String) :
    OthersKept c w (clientOnclose cfg w c reason) := by
  have key : ∀ (l : List Sid) (v : W), InvS v → Calm w v → OthersKept c w v →
      OthersKept c w (l.foldl (eachSocket c fun v ref => onclose cfg v ref reason) v) := by
    intro l; induction l with
    | nil => exact fun v _ _ h => h
    | cons a l ih =>
      intro v hv hc h
      rw [List.foldl_cons]
      unfold eachSocket; split
      · rename_i ref hg
        exact ih _ (invS_onclose hv _ _ _) (hc.trans (calm_onclose _ _ _ _)) (others_onclose hv hc h cfg a ref hg reason)
      · exact ih _ hv hc h
  rw [clientOnclose_eq]
  exact key _ _ (invS_unlisten hs c) (calm_setClient _ _ _ rfl) fun r _ => rfl

/-! ## The whole server -/

/-- Registrations in namespaces are only removed, and names other than `name` stay. -/
structure Shrinks (name : String) (w w' : W) : Prop where
  reg : ∀ n sid r, (w'.nss n).sockets.get? sid = some r → (w.nss n).sockets.get? sid = some r
  names : ∀ x, x ≠ name → w'.nsps.get? x = w.nsps.get? x

theorem Shrinks.refl (name : String) (w : W) : Shrinks name w w := ⟨fun _ _ _ h => h, fun _ _ => rfl⟩

theorem Shrinks.trans {name : String} {a b c : W} (h1 : Shrinks name a b) (h2 : Shrinks name b c) : Shrinks name a c :=
  ⟨fun n s r h => h1.reg n s r (h2.reg n s r h), fun x hx => (h2.names x hx).trans (h1.names x hx)⟩

theorem onclose_nsps (cfg : Cfg) (w : W) (ref : Nat) (reason : String) (x : String) (hx : x ≠ (w.nss (w.socks ref).ns).name) :
    (onclose cfg w ref reason).nsps.get? x = w.nsps.get? x := by
  by_cases hc : (w.socks ref).connected = true
  · rw [onclose_pos cfg reason hc]
    simp only [obs]
    obtain ⟨c1, c2, c3⟩ := closing_socks cfg w ref reason
    rcases (shut_fields cfg (closing cfg w ref reason) ref).2.2.2.2.2.2.2.2.2.2 with e | e
    · rw [e, c3]
    · rw [e, c3, FMap.get?_erase, if_neg]
      rw [c1, (closing_reg cfg w ref reason _).2]; exact hx.symm
  · rw [onclose_neg cfg reason hc]

theorem shrinks_onclose (cfg : Cfg) (w : W) (ref : Nat) (reason : String) :
    Shrinks (w.nss (w.socks ref).ns).name w (onclose cfg w ref reason) := by
  refine ⟨fun n sid r hg => ?_, fun x hx => onclose_nsps cfg w ref reason x hx⟩
  by_cases hc : (w.socks ref).connected = true
  · rw [(onclose_effect cfg reason hc).2.1] at hg
    split at hg
    · rw [FMap.get?_erase] at hg
      split at hg
      · simp at hg
      · exact hg
    · exact hg
  · rw [onclose_neg cfg reason hc] at hg; exact hg

/-- The body of the loop over the sockets of one namespace. -/
def closeSid (cfg : Cfg) (n : Nat) (w : W) (sid : Sid) : W :=
  match (w.nss n).sockets.get? sid with
  | some ref => onclose cfg w ref "server shutting down"
  | none => w

theorem closeNs_eq (cfg : Cfg) (w : W) (name : String) : closeNs cfg w name =
    match w.nsps.get? name with
    | none => w
    | some n => (w.nss n).sockets.keys.foldl (closeSid cfg n) w := rfl

theorem closeLoopNs (cfg : Cfg) (n : Nat) (name : String) (l : List Sid) (w : W) (hs : InvS w) (hn : (w.nss n).name = name) :
    InvS (l.foldl (closeSid cfg n) w) ∧ Shrinks name w (l.foldl (closeSid cfg n) w) ∧
      ∀ sid ∈ l, ((l.foldl (closeSid cfg n) w).nss n).sockets.get? sid = none := by
  induction l generalizing w with
  | nil => exact ⟨hs, .refl _ _, fun _ h => by simp at h⟩
  | cons a l ih =>
    rw [List.foldl_cons]
    have h1 : InvS (closeSid cfg n w a) ∧ Shrinks name w (closeSid cfg n w a) ∧ ((closeSid cfg n w a).nss n).name = name ∧
        ((closeSid cfg n w a).nss n).sockets.get? a = none := by
      unfold closeSid; split
      · rename_i ref hg
        obtain ⟨g1, g2, g3⟩ := hs.reg n a ref hg
        refine ⟨invS_onclose hs _ _ _, ?_, ?_, ?_⟩
        · have := shrinks_onclose cfg w ref "server shutting down"
          rw [g1, hn] at this; exact this
        · rw [(calm_onclose _ _ _ _).name]; exact hn
        · rw [(onclose_effect cfg _ g3).2.1, if_pos g1.symm, g2, FMap.get?_erase_self]
      · rename_i hg; exact ⟨hs, .refl _ _, hn, hg⟩
    obtain ⟨i1, i2, i3⟩ := ih _ h1.1 h1.2.2.1
    refine ⟨i1, h1.2.1.trans i2, fun sid hm => ?_⟩
    rcases List.mem_cons.1 hm with rfl | hm
    · cases hg : ((l.foldl (closeSid cfg n) (closeSid cfg n w sid)).nss n).sockets.get? sid with
      | none => rfl
      | some r => have := i2.reg _ _ _ hg; rw [h1.2.2.2] at this; simp at this
    · exact i3 sid hm

theorem closeNs_spec (cfg : Cfg) (w : W) (name : String) (hs : InvS w) :
    InvS (closeNs cfg w name) ∧ Shrinks name w (closeNs cfg w name) ∧
      ∀ n, w.nsps.get? name = some n → Empty ((closeNs cfg w name).nss n).sockets := by
  rw [closeNs_eq]; split
  · rename_i hg; exact ⟨hs, .refl _ _, fun n h => by rw [hg] at h; simp at h⟩
  · rename_i n hg
    obtain ⟨h1, h2, h3⟩ := closeLoopNs cfg n name (w.nss n).sockets.keys w hs (hs.names _ _ hg).2
    refine ⟨h1, h2, fun m hm => ?_⟩
    rw [hg] at hm; simp at hm; subst hm
    intro sid
    cases hg' : (((w.nss n).sockets.keys.foldl (closeSid cfg n) w).nss n).sockets.get? sid with
    | none => rfl
    | some r =>
      have hm := h2.reg n sid r hg'
      have := h3 sid ((FMap.mem_keys_iff _ _).2 ⟨r, hm⟩)
      exact absurd (hg'.symm.trans this) (by simp)

theorem closeAll (cfg : Cfg) (names : List String) (hnd : names.Nodup) (w : W) (hs : InvS w) :
    (∀ n sid r, ((names.foldl (closeNs cfg) w).nss n).sockets.get? sid = some r → (w.nss n).sockets.get? sid = some r) ∧
    ∀ name ∈ names, ∀ n, w.nsps.get? name = some n → Empty ((names.foldl (closeNs cfg) w).nss n).sockets := by
  induction names generalizing w with
  | nil => exact ⟨fun _ _ _ h => h, fun _ h => by simp at h⟩
  | cons a l ih =>
    rw [List.foldl_cons]
    obtain ⟨h1, h2, h3⟩ := closeNs_spec cfg w a hs
    obtain ⟨n1, n2⟩ := List.nodup_cons.1 hnd
    obtain ⟨i1, i2⟩ := ih n2 _ h1
    refine ⟨fun n s r h => h2.reg n s r (i1 n s r h), fun name hm n hg => ?_⟩
    rcases List.mem_cons.1 hm with rfl | hl
    · intro sid
      cases hg' : ((l.foldl (closeNs cfg) (closeNs cfg w name)).nss n).sockets.get? sid with
      | none => rfl
      | some r => have := i1 _ _ _ hg'; rw [h3 n hg sid] at this; simp at this
    · refine i2 name hl n ?_
      rw [h2.names name (by rintro rfl; exact n1 hl)]; exact hg

/-! ## What is over stays over -/

/-- The socket exists and is neither connected nor able to join rooms. -/
def Over (r : Nat) (w : W) : Prop := r < w.nSock ∧ (w.socks r).connected = false ∧ (w.socks r).canJoin = false

theorem Over.calm {r : Nat} {w w' : W} (h : Over r w) (c : Calm w w') : Over r w' := by
  refine ⟨by rw [c.nSock]; exact h.1, ?_⟩
  rcases c.socks r with e | ⟨e, -⟩
  · rw [e]; exact h.2
  · rw [h.2.1] at e; simp at e

theorem grow_over (cfg : Cfg) (r : Nat) : Grow cfg (fun _ => True) (Over r) where
  inert w t ch now h := h
  use w n h := h
  data w ref v h := by
    have hp {β : Type} (p : Sock → β) (hp : p { w.socks ref with data := some v } = p (w.socks ref)) (r : Nat) :
        p ((setSock w ref fun s => { s with data := some v }).socks r) = p (w.socks r) := upd_proj _ _ _ _ p hp
    refine ⟨h.1, ?_⟩
    rw [hp Sock.connected rfl, hp Sock.canJoin rfl]; exact h.2
  newNs w s _ _ _ _ _ h := h
  newClient w p _ h := h
  create w n c auth _ _ _ h := by
    obtain ⟨-, -, -, -, e5⟩ := createSocket_self cfg w n c auth
    refine ⟨by rw [createSocket_nSock]; exact Nat.lt_succ_of_lt h.1, ?_⟩
    rw [e5 r h.1]; exact h.2
  doConnect w ref _ _ _ hj _ _ h := by
    obtain ⟨-, d2, -, -, d5, -⟩ := doConnect_fields w ref
    refine ⟨by rw [d5]; exact h.1, ?_⟩
    rw [d2, upd_ne]
    · exact h.2
    · rintro rfl; rw [h.2.2] at hj; simp at hj
  cleanup w ref _ _ _ _ _ h := by
    obtain ⟨-, d2, -, -, d5, -⟩ := cleanup_fields cfg w ref
    refine ⟨by rw [d5]; exact h.1, ?_⟩
    rw [d2, upd_apply]; split
    · rename_i e; subst e; exact ⟨h.2.1, rfl⟩
    · exact h.2
  packet w c ref x _ _ h := h.calm (calm_clientPacket _ _ _ _)
  received w ref type h := h

theorem over_step {r : Nat} {cfg : Cfg} {h : List Ev} {e : Ev} (hn : NextOnce h) (ho : Over r (run cfg h)) :
    Over r (step cfg (run cfg h) e) := by
  by_cases he : e.calm = true
  · exact ho.calm (calm_step cfg _ e he)
  · obtain ⟨i1, i2⟩ := inv_run cfg h
    exact (grow_over cfg r).step i1 i2 (invT_run cfg h hn) e he trivial trivial
      (fun c hP => hP.calm (calm_clientClose _ _ _)) (fun v ref reason _ _ hP => hP.calm (calm_onclose _ _ _ _)) ho

theorem nextOnce_prefix {h t : List Ev} (hn : NextOnce (h ++ t)) : NextOnce h := by
  unfold NextOnce at hn ⊢
  rw [List.filterMap_append] at hn
  exact (List.nodup_append.1 hn).1

theorem run_append (cfg : Cfg) (h t : List Ev) : run cfg (h ++ t) = t.foldl (step cfg) (run cfg h) := by
  unfold run; rw [List.foldl_append]

theorem over_run {r : Nat} {cfg : Cfg} {h t : List Ev} (hn : NextOnce (h ++ t)) (ho : Over r (run cfg h)) :
    Over r (run cfg (h ++ t)) := by
  induction t using snocRec with
  | nil => simpa using ho
  | append_singleton t e ih =>
    rw [← List.append_assoc] at hn ⊢
    rw [run_snoc]
    exact over_step (nextOnce_prefix hn) (ih (nextOnce_prefix hn))

/-- A closed connection stays closed and its client gets no socket. -/
def Dead (c : Nat) (w : W) : Prop :=
  c < w.nClient ∧ (w.clients c).conn ≠ .opened ∧ ∀ r, (w.socks r).client = c → (w.socks r).connected = false

theorem Dead.calm {c : Nat} {w w' : W} (h : Dead c w) (cm : Calm w w') (hr : ClRel w w') : Dead c w' := by
  refine ⟨by rw [cm.nClient]; exact h.1, ?_, fun r hc => ?_⟩
  · rcases hr c with l | l
    · exact fun ho => h.2.1 (l.conn ho)
    · exact l.2.1
  · rw [cm.client] at hc
    rcases cm.socks r with e | ⟨-, e⟩
    · rw [e]; exact h.2.2 r hc
    · rw [e]; rfl

theorem grow_dead (cfg : Cfg) (c : Nat) : Grow cfg (fun _ => True) (Dead c) where
  inert w t ch now h := h
  use w n h := h
  data w ref v h := by
    have hp {β : Type} (p : Sock → β) (hp : p { w.socks ref with data := some v } = p (w.socks ref)) (r : Nat) :
        p ((setSock w ref fun s => { s with data := some v }).socks r) = p (w.socks r) := upd_proj _ _ _ _ p hp
    refine ⟨h.1, h.2.1, fun r => ?_⟩
    rw [hp Sock.client rfl, hp Sock.connected rfl]; exact h.2.2 r
  newNs w s _ _ _ _ _ h := h
  newClient w p _ h := by
    refine ⟨Nat.lt_succ_of_lt h.1, ?_, h.2.2⟩
    dsimp only; rw [upd_ne _ _ (Nat.ne_of_lt h.1)]; exact h.2.1
  create w n c' auth hn hc hs h := by
    have p : Prim0 fun a b : W => b.clients = a.clients ∧ b.nClient = a.nClient :=
      ⟨fun _ => ⟨rfl, rfl⟩, fun h1 h2 => ⟨h2.1.trans h1.1, h2.2.trans h1.2⟩,
        fun w c ref x => by unfold clientPacket; split <;> exact ⟨rfl, rfl⟩, fun w n f hf => ⟨rfl, rfl⟩⟩
    obtain ⟨s, ⟨h1, h2⟩, -⟩ := createSocket_rel cfg p w n c' auth
    obtain ⟨-, -, e3, -, e5⟩ := createSocket_self cfg w n c' auth
    refine ⟨by rw [h2]; exact h.1, by rw [h1]; exact h.2.1, fun r hr => ?_⟩
    cases hcn : ((createSocket cfg w n c' auth).socks r).connected with
    | false => rfl
    | true =>
      have h3 := (invS_createSocket hs cfg n c' hn hc auth).conn r hcn
      rw [createSocket_nSock] at h3
      rcases Nat.lt_or_eq_of_le (Nat.lt_succ_iff.1 h3) with h4 | rfl
      · rw [e5 r h4] at hr hcn
        rw [h.2.2 r hr] at hcn; exact hcn.symm
      · rw [e3] at hcn; exact hcn.symm
  doConnect w ref _ ho _ _ _ _ h := by
    obtain ⟨-, d2, d3, -, d5, d6, -⟩ := doConnect_fields w ref
    have hne : (w.socks ref).client ≠ c := fun e => h.2.1 (by rw [← e]; exact ho)
    refine ⟨by rw [d6]; exact h.1, by rw [d3, upd_ne _ _ hne.symm]; exact h.2.1, fun r hr => ?_⟩
    rw [d2, upd_apply] at hr ⊢; split
    · rename_i e; rw [if_pos e] at hr; exact absurd hr hne
    · rename_i e; rw [if_neg e] at hr; exact h.2.2 r hr
  cleanup w ref _ _ _ _ _ h := by
    obtain ⟨-, d2, d3, -, d5, d6, -⟩ := cleanup_fields cfg w ref
    have hp {β : Type} (p : Sock → β) (hp : p { w.socks ref with canJoin := false } = p (w.socks ref)) (r : Nat) :
        p ((cleanup cfg w ref).socks r) = p (w.socks r) := by rw [d2]; exact upd_proj _ _ _ _ p hp
    refine ⟨by rw [d6]; exact h.1, by rw [d3]; exact h.2.1, fun r => ?_⟩
    rw [hp Sock.client rfl, hp Sock.connected rfl]; exact h.2.2 r
  packet w c' ref x _ _ h := h.calm (calm_clientPacket _ _ _ _) (allLesser_packet _ _ _ _).rel
  received w ref type h := h

theorem dead_step {c : Nat} {cfg : Cfg} {h : List Ev} {e : Ev} (hn : NextOnce h) (ho : Dead c (run cfg h)) :
    Dead c (step cfg (run cfg h) e) := by
  obtain ⟨i1, i2⟩ := inv_run cfg h
  by_cases he : e.calm = true
  · exact ho.calm (calm_step cfg _ e he) ((blocks_clRel cfg).step _ e he (fun _ _ => trivial) (fun _ _ => trivial) i1).2
  · exact (grow_dead cfg c).step i1 i2 (invT_run cfg h hn) e he trivial trivial
      (fun c' hP => hP.calm (calm_clientClose _ _ _) ((blocks_clRel cfg).clientClose _ c' i1).2)
      (fun v ref reason _ _ hP => hP.calm (calm_onclose _ _ _ _) (allLesser_onclose _ _ _ _).rel) ho

theorem dead_run {c : Nat} {cfg : Cfg} {h t : List Ev} (hn : NextOnce (h ++ t)) (ho : Dead c (run cfg h)) :
    Dead c (run cfg (h ++ t)) := by
  induction t using snocRec with
  | nil => simpa using ho
  | append_singleton t e ih =>
    rw [← List.append_assoc] at hn ⊢
    rw [run_snoc]
    exact dead_step (nextOnce_prefix hn) (ih (nextOnce_prefix hn))

/-! ## The connect timer -/

/-- From `w` to `w'` the timers of the clients outside `T` were stopped only by closing the connection. -/
structure TimRel (T : Nat → Prop) (w w' : W) : Prop where
  cl : ClRel w w'
  log : ∀ o ∈ w.log, o ∈ w'.log
  timer : ∀ d, T d ∨ (w'.clients d).timer = (w.clients d).timer ∨ (w'.clients d).listening = false

theorem ClRel.quiet {w w' : W} (h : ClRel w w') {d : Nat} (hl : (w.clients d).listening = false) :
    (w'.clients d).listening = false := by
  rcases h d with l | l
  · rw [l.listening]; exact hl
  · exact l.1

theorem TimRel.refl (T : Nat → Prop) (w : W) : TimRel T w w := ⟨.refl w, fun _ h => h, fun _ => .inr (.inl rfl)⟩

theorem TimRel.trans {T : Nat → Prop} {a b c : W} (h1 : TimRel T a b) (h2 : TimRel T b c) : TimRel T a c := by
  refine ⟨h1.cl.trans h2.cl, fun o h => h2.log o (h1.log o h), fun d => ?_⟩
  rcases h1.timer d with t | t | t
  · exact .inl t
  · rcases h2.timer d with t' | t' | t'
    · exact .inl t'
    · exact .inr (.inl (t'.trans t))
    · exact .inr (.inr t')
  · exact .inr (.inr (h2.cl.quiet t))

theorem TimRel.same {T : Nat → Prop} {w w' : W} (h : w'.clients = w.clients) (hl : ∀ o ∈ w.log, o ∈ w'.log) : TimRel T w w' :=
  ⟨.same h, hl, fun d => .inr (.inl (by rw [h]))⟩

theorem log_onclose (cfg : Cfg) (w : W) (ref : Nat) (reason : String) : ∀ o ∈ w.log, o ∈ (onclose cfg w ref reason).log := by
  obtain ⟨x, hx, -⟩ := traced_onclose cfg w ref reason
  rw [hx]; exact fun o h => List.mem_append_left _ h

theorem timRel_onclose (T : Nat → Prop) (cfg : Cfg) (w : W) (ref : Nat) (reason : String) : TimRel T w (onclose cfg w ref reason) := by
  refine ⟨(allLesser_onclose _ _ _ _).rel, log_onclose cfg w ref reason, fun d => .inr (.inl ?_)⟩
  by_cases hc : (w.socks ref).connected = true
  · rw [(onclose_effect cfg reason hc).2.2]
    refine upd_proj _ _ _ _ Client.timer ?_
    unfold clientCleaned; dsimp only; split <;> rfl
  · rw [onclose_neg cfg reason hc]

theorem timRel_packet (T : Nat → Prop) (w : W) (c : Nat) (ref : Option Nat) (x : Pkt) : TimRel T w (clientPacket w c ref x) := by
  unfold clientPacket; split
  · exact .same rfl fun o h => List.mem_append_left _ h
  · exact .refl _ _

theorem timRel_loop (T : Nat → Prop) (c : Nat) (body : W → Nat → W) (hb : ∀ w r, TimRel T w (body w r)) (l : List Sid) (w : W) :
    TimRel T w (l.foldl (eachSocket c body) w) := by
  induction l generalizing w with
  | nil => exact .refl _ _
  | cons a l ih =>
    rw [List.foldl_cons]; refine TimRel.trans ?_ (ih _)
    unfold eachSocket; split
    · exact hb _ _
    · exact .refl _ _

theorem timRel_client (T : Nat → Prop) (w : W) (c : Nat) (f : Client → Client) (h : ClRel w (setClient w c f))
    (ht : T c ∨ (f (w.clients c)).timer = (w.clients c).timer ∨ (f (w.clients c)).listening = false) :
    TimRel T w (setClient w c f) := by
  refine ⟨h, fun o h => h, fun d => ?_⟩
  simp only [setClient, upd_apply]; split
  · rename_i e; subst e; exact ht
  · exact .inr (.inl rfl)

theorem blocks_timRel (cfg : Cfg) (T : Nat → Prop) :
    Blocks cfg (fun _ _ => True) T fun w w' => (InvS w → InvS w' ∧ TimRel T w w') where
  refl w h := ⟨h, .refl _ w⟩
  trans h1 h2 h := ⟨(h2 (h1 h).1).1, (h1 h).2.trans (h2 (h1 h).1).2⟩
  packet w c ref x h := ⟨((blocks_clRel cfg).packet w c ref x h).1, timRel_packet _ _ _ _ _⟩
  join w ref rooms hr h := by
    refine ⟨((blocks_clRel cfg).join w ref rooms hr h).1, ?_⟩
    unfold join; split
    · exact .same rfl fun _ h => h
    · exact .refl _ _
  leave w ref room hr h := ⟨((blocks_clRel cfg).leave w ref room hr h).1, .same rfl fun _ h => h⟩
  sess w n f h := ⟨((blocks_clRel cfg).sess w n f h).1, .same rfl fun _ h => h⟩
  onclose w ref reason h := ⟨((blocks_clRel cfg).onclose w ref reason h).1, timRel_onclose _ _ _ _ _⟩
  clientOnclose w c reason hc h := by
    obtain ⟨h1, h2⟩ := (blocks_clRel cfg).clientOnclose w c reason hc h
    refine ⟨h1, h2, ?_, ?_⟩
    · have := (timRel_loop T c _ (fun w r => timRel_onclose T cfg w r reason) ((unlisten w c).clients c).sockets.keys (unlisten w c)).log
      rw [clientOnclose_eq]; exact this
    · intro d
      have hl := timRel_loop T c _ (fun w r => timRel_onclose T cfg w r reason) ((unlisten w c).clients c).sockets.keys (unlisten w c)
      rw [clientOnclose_eq]
      rw [← closeLoop] at hl
      have h1 : ((unlisten w c).clients c).listening = false := by simp [unlisten, setClient]
      have h3 (e : d ≠ c) : (unlisten w c).clients d = w.clients d := by simp only [unlisten, setClient, upd_ne _ _ e]
      generalize closeLoop cfg w c reason = v at hl
      by_cases e : d = c
      · subst e; right; right
        simp only [setClient, upd_same]
        exact hl.cl.quiet h1
      · have := hl.timer d
        rw [h3 e] at this
        simp only [setClient, upd_ne _ _ e]; exact this
  conn w c x hx h :=
    let r := (blocks_clRel cfg).conn w c x hx h
    ⟨r.1, timRel_client _ _ _ _ r.2 (.inr (.inl rfl))⟩
  timer w c hc h :=
    let r := (blocks_clRel cfg).timer w c trivial h
    ⟨r.1, timRel_client _ _ _ _ r.2 (.inl hc)⟩
  drop w c h := by
    obtain ⟨h1, h2⟩ := (blocks_clRel cfg).drop w c h
    refine ⟨h1, ?_⟩
    have hd (w : W) (r : Nat) : TimRel T w (disconnectNs cfg w r) := by
      unfold disconnectNs; split
      · exact (timRel_packet _ _ _ _ _).trans (timRel_onclose _ _ _ _ _)
      · exact .refl _ _
    exact (timRel_loop T c _ hd _ _).trans
      (timRel_client _ _ _ _ (.set _ _ _ ⟨id, rfl, fun _ _ h => by simp at h⟩) (.inr (.inl rfl)))
  reorderClient w c l hp h :=
    let r := (blocks_clRel cfg).reorderClient w c l hp h
    ⟨r.1, timRel_client _ _ _ _ r.2 (.inr (.inl rfl))⟩
  reorderNs w n l hp h := ⟨((blocks_clRel cfg).reorderNs w n l hp h).1, .same rfl fun _ h => h⟩
  reorderNsps w l hp h := ⟨((blocks_clRel cfg).reorderNsps w l hp h).1, .same rfl fun _ h => h⟩

/-- The timer of an open connection runs until the client has joined a namespace. -/
def Tim (w : W) : Prop := ∀ c, c < w.nClient → (w.clients c).timer = true ∨ (w.clients c).listening = false ∨
  (w.clients c).conn ≠ .opened ∨ ∃ r, r < w.nSock ∧ (w.socks r).client = c ∧ Obs.connection r ∈ w.log

theorem Tim.rel {T : Nat → Prop} {w w' : W} (h : Tim w) (cm : Calm w w') (r : TimRel T w w') (c : Nat) (hc : c < w'.nClient)
    (ht : ¬ T c) : (w'.clients c).timer = true ∨ (w'.clients c).listening = false ∨
      (w'.clients c).conn ≠ .opened ∨ ∃ r, r < w'.nSock ∧ (w'.socks r).client = c ∧ Obs.connection r ∈ w'.log := by
  rcases (r.timer c).resolve_left ht with e | e
  · rcases h c (by rw [← cm.nClient]; exact hc) with t | t | t | ⟨x, t0, t1, t2⟩
    · exact .inl (e.trans t)
    · exact .inr (.inl (r.cl.quiet t))
    · refine .inr (.inr (.inl ?_))
      rcases r.cl c with l | l
      · exact fun ho => t (l.conn ho)
      · exact l.2.1
    · exact .inr (.inr (.inr ⟨x, by rw [cm.nSock]; exact t0, by rw [cm.client]; exact t1, r.log _ t2⟩))
  · exact .inr (.inl e)

theorem clientClose_conn (cfg : Cfg) (w : W) (c : Nat) : ((clientClose cfg w c).clients c).conn ≠ .opened := by
  unfold clientClose; split
  · rw [clientOnclose_conn]; exact connClose_conn _ _ _
  · assumption

theorem grow_tim (cfg : Cfg) : Grow0 cfg Tim where
  inert w t ch now h := h
  use w n h := h
  data w ref v h := by
    intro c hc
    rcases h c hc with t | t | t | ⟨x, t0, t1, t2⟩
    · exact .inl t
    · exact .inr (.inl t)
    · exact .inr (.inr (.inl t))
    · refine .inr (.inr (.inr ⟨x, t0, ?_, t2⟩))
      simp only [setSock]; rw [upd_proj w.socks ref x { w.socks ref with data := some v } Sock.client rfl]; exact t1
  newNs w s _ _ _ _ _ h := h
  newClient w p _ h := by
    intro c hc
    dsimp only at hc ⊢
    rw [upd_apply]; split
    · exact .inl rfl
    · exact h c (by omega)
  create w n c' auth _ _ _ h := by
    have p : Prim0 fun a b : W => b.clients = a.clients ∧ b.nClient = a.nClient ∧ ∀ o ∈ a.log, o ∈ b.log :=
      ⟨fun _ => ⟨rfl, rfl, fun _ h => h⟩, fun h1 h2 => ⟨h2.1.trans h1.1, h2.2.1.trans h1.2.1, fun o h => h2.2.2 o (h1.2.2 o h)⟩,
        fun w c ref x => by
          unfold clientPacket; split
          · exact ⟨rfl, rfl, fun o h => List.mem_append_left _ h⟩
          · exact ⟨rfl, rfl, fun _ h => h⟩,
        fun w n f hf => ⟨rfl, rfl, fun _ h => h⟩⟩
    obtain ⟨s, ⟨h1, h2, h3⟩, -⟩ := createSocket_rel cfg p w n c' auth
    obtain ⟨-, -, -, -, e5⟩ := createSocket_self cfg w n c' auth
    intro c hc
    rw [h1]
    rcases h c (by rw [h2] at hc; exact hc) with t | t | t | ⟨x, t0, t1, t2⟩
    · exact .inl t
    · exact .inr (.inl t)
    · exact .inr (.inr (.inl t))
    · exact .inr (.inr (.inr ⟨x, by rw [createSocket_nSock]; exact Nat.lt_succ_of_lt t0, by rw [e5 x t0]; exact t1, h3 _ t2⟩))
  doConnect w ref hlt ho _ h := by
    obtain ⟨-, d2, d3, -, d5, d6, -, -, -, -, d11⟩ := doConnect_fields w ref
    have hp (r : Nat) : ((doConnect w ref).socks r).client = (w.socks r).client := by
      rw [d2]; exact upd_proj _ _ _ _ Sock.client rfl
    intro c hc
    by_cases e : c = (w.socks ref).client
    · refine .inr (.inr (.inr ⟨ref, by rw [d5]; exact hlt, by rw [hp]; exact e.symm, ?_⟩))
      rw [d11 ho]; simp
    · rw [d3, upd_ne _ _ e]
      rcases h c (by rw [← d6]; exact hc) with t | t | t | ⟨x, t0, t1, t2⟩
      · exact .inl t
      · exact .inr (.inl t)
      · exact .inr (.inr (.inl t))
      · exact .inr (.inr (.inr ⟨x, by rw [d5]; exact t0, by rw [hp]; exact t1, by rw [d11 ho]; exact List.mem_append_left _ t2⟩))
  cleanup w ref _ _ h := by
    obtain ⟨-, d2, d3, -, d5, d6, -, -, -, d10, -⟩ := cleanup_fields cfg w ref
    intro c hc
    rw [d3, d10]
    rcases h c (by rw [← d6]; exact hc) with t | t | t | ⟨x, t0, t1, t2⟩
    · exact .inl t
    · exact .inr (.inl t)
    · exact .inr (.inr (.inl t))
    · exact .inr (.inr (.inr ⟨x, by rw [d5]; exact t0, by rw [d2, upd_proj w.socks ref x { w.socks ref with canJoin := false } Sock.client rfl]; exact t1, t2⟩))
  packet w c ref x _ _ h := fun d hd => h.rel (calm_clientPacket _ _ _ _) (timRel_packet (fun _ => False) _ _ _ _) d hd id
  received w ref type h := by
    intro c hc
    rcases h c hc with t | t | t | ⟨x, t0, t1, t2⟩
    · exact .inl t
    · exact .inr (.inl t)
    · exact .inr (.inr (.inl t))
    · exact .inr (.inr (.inr ⟨x, t0, t1, List.mem_append_left _ t2⟩))

theorem tim_run (cfg : Cfg) (h : List Ev) : Tim (run cfg h) := by
  induction h using snocRec with
  | nil => intro c hc; simp [run, init, newNs] at hc
  | append_singleton h e ih =>
    rw [run_snoc]
    obtain ⟨i1, i2⟩ := inv_run cfg h
    by_cases he : e.calm = true
    · intro c hc
      by_cases hf : c ∈ e.fires
      · cases e <;> simp only [Ev.fires, List.not_mem_nil, List.mem_singleton] at hf
        subst hf
        simp only [step] at hc ⊢
        split
        · rename_i hlt
          unfold timerFires; split
          · rename_i ht
            have hz : (((setClient (run cfg h) c fun k => { k with timer := false }).clients c).nsps).length = 0 := by
              simp only [setClient, upd_same]; rw [(i1.timer c ht).1]; rfl
            dsimp only; rw [if_pos hz]
            exact .inr (.inr (.inl (clientClose_conn _ _ _)))
          · exact ih c hlt
        · rename_i hlt
          rw [if_neg hlt] at hc; exact absurd hc hlt
      · exact ih.rel (calm_step cfg _ e he) ((blocks_timRel cfg (· ∈ e.fires)).step _ e he (fun _ _ => trivial)
          (fun _ h => h) i1).2 c hc hf
    · exact (grow_tim cfg).step i1 i2 e he
        (fun c hP d hd => hP.rel (calm_clientClose _ _ _) ((blocks_timRel cfg fun _ => False).clientClose _ c i1).2 d hd id)
        (fun v ref reason _ _ hP d hd => hP.rel (calm_onclose _ _ _ _) (timRel_onclose (fun _ => False) _ _ _ _) d hd id) ih

end Verif.World
