import Verif.Spec.Agree
import Verif.Proof.WorldBye
import Verif.Proof.WorldKeep

/-! # Client and server agree on which sockets are connected -/

namespace Verif.World
open Verif Verif.Adapter Verif.Spec

/-- From `w` to `w'` nothing was created, and if socket `r` ended and its connection is open, the reason satisfies `S`. -/
def EndsFor (S : String → Prop) (r : Nat) (w w' : W) : Prop :=
  Calm w w' ∧ Down w w' ∧ ∃ ext, w'.log = w.log ++ ext ∧
    ∀ reason, Obs.disconnect r reason ∈ ext → (w'.clients (w'.socks r).client).conn = .opened → S reason

theorem EndsFor.refl (S : String → Prop) (r : Nat) (w : W) : EndsFor S r w w :=
  ⟨.refl w, fun _ h => h, [], by simp, fun _ h => by simp at h⟩

theorem EndsFor.trans {S : String → Prop} {r : Nat} {a b c : W} (h1 : EndsFor S r a b) (h2 : EndsFor S r b c) : EndsFor S r a c := by
  obtain ⟨c1, d1, x, e1, p1⟩ := h1
  obtain ⟨c2, d2, y, e2, p2⟩ := h2
  refine ⟨c1.trans c2, fun k h => d1 k (d2 k h), x ++ y, by rw [e2, e1, List.append_assoc], fun reason hm ho => ?_⟩
  rcases List.mem_append.1 hm with hm | hm
  · refine p1 reason hm (d2 _ ?_)
    rw [← (c2.client_ns r).1]; exact ho
  · exact p2 reason hm ho

theorem mem_life_disconnect {r : Nat} {l : List Obs} {reason : String} (h : Obs.disconnect r reason ∈ l) : Life.disconnect reason ∈ life r l :=
  List.mem_filterMap.2 ⟨_, h, by simp [lifeOf]⟩

theorem mem_ending {rec : Bool} {reason reason' : String} (h : Life.disconnect reason ∈ ending rec reason') : reason = reason' := by
  unfold ending at h
  split at h <;> simpa using h

/-- Steps that end sockets for reasons that satisfy `S` only. -/
theorem EndsFor.traced {S : String → Prop} {r : Nat} {rec : Bool} {w w' : W} (c : Calm w w') (d : Down w w') (t : Traced rec S w w') :
    EndsFor S r w w' := by
  obtain ⟨ext, e, p⟩ := t
  refine ⟨c, d, ext, e, fun reason hm _ => ?_⟩
  have hl := mem_life_disconnect hm
  rcases p r with ⟨-, q⟩ | ⟨-, -, reason', hq, q⟩
  · rw [q] at hl; simp at hl
  · rw [q] at hl; rw [mem_ending hl]; exact hq

/-- Steps that end sockets of one client only, whose connection is not open afterwards. -/
theorem EndsFor.drop {S : String → Prop} {r c : Nat} {rec : Bool} {Q : String → Prop} {w w' : W} (cm : Calm w w') (d : Down w w')
    (t : Traced rec Q w w') (hc : (w'.clients c).conn ≠ .opened) (ho : OthersKept c w w') : EndsFor S r w w' := by
  obtain ⟨ext, e, p⟩ := t
  refine ⟨cm, d, ext, e, fun reason hm hop => ?_⟩
  exfalso
  by_cases hr : (w.socks r).client = c
  · rw [(cm.client_ns r).1, hr] at hop; exact hc hop
  · have hl := mem_life_disconnect hm
    rcases p r with ⟨-, q⟩ | ⟨q1, q2, -⟩
    · rw [q] at hl; simp at hl
    · rw [ho r hr] at q2
      have := congrArg Sock.connected q2
      rw [q1] at this; simp [closed] at this

theorem OthersKept.trans {c : Nat} {a b w : W} (cm : Calm a b) (h1 : OthersKept c a b) (h2 : OthersKept c b w) : OthersKept c a w :=
  fun r hr => (h2 r (by rw [(cm.client_ns r).1]; exact hr)).trans (h1 r hr)

theorem others_connClose {w : W} (hs : InvS w) (cfg : Cfg) (c : Nat) : OthersKept c w (connClose cfg w c) := by
  unfold connClose; split
  · have h1 : InvS (setClient w c fun k => { k with conn := .closing }) := invS_client hs c _ (.inl rfl) rfl fun h => ⟨rfl, h⟩
    dsimp only; split
    · split
      · exact fun r hr => others_clientOnclose h1 cfg c _ r hr
      · exact fun _ _ => rfl
    · exact fun _ _ => rfl
  · exact fun _ _ => rfl

theorem others_clientClose {w : W} (hs : InvS w) (cfg : Cfg) (c : Nat) : OthersKept c w (clientClose cfg w c) := by
  unfold clientClose; split
  · exact (others_connClose hs cfg c).trans (calm_connClose _ _ _) (others_clientOnclose (invS_connClose hs cfg c) cfg c _)
  · exact fun _ _ => rfl

theorem quiet_down (cfg : Cfg) : Quiet cfg (fun _ => True) Down where
  refl _ _ h := h
  trans h1 h2 c h := h1 c (h2 c h)
  disc w ref hc c h := by
    rw [disconnectNs_pos cfg hc, onclose_down, sockPacket_eq] at h; exact h
  ns w n f hf c h := h
  client w c f hf c' h := by
    simp only [setClient, upd_apply] at h
    split at h
    · rename_i e; subst e; exact (hf _).2.2.2 h
    · exact h
  onclose w ref reason _ c h := by rw [onclose_down] at h; exact h

theorem ends_clientOnclose {S : String → Prop} {r : Nat} {w : W} (hs : InvS w) (cfg : Cfg) (c : Nat) (reason : String)
    (hc : (w.clients c).conn ≠ .opened) : EndsFor S r w (clientOnclose cfg w c reason) :=
  .drop (calm_clientOnclose _ _ _ _) ((quiet_down cfg).clientOnclose _ _ _ trivial)
    ((prim_traced cfg fun _ => True).clientOnclose _ _ _ trivial) (by rw [clientOnclose_conn]; exact hc) (others_clientOnclose hs cfg c _)

theorem ends_connClose {S : String → Prop} {r : Nat} {w : W} (hs : InvS w) (cfg : Cfg) (c : Nat) : EndsFor S r w (connClose cfg w c) :=
  .drop (calm_connClose _ _ _) ((quiet_down cfg).connClose (reasons_true cfg) _ _)
    ((prim_traced cfg fun _ => True).connClose _ _ fun _ _ => trivial) (connClose_conn cfg w c) (others_connClose hs cfg c)

theorem ends_clientClose {S : String → Prop} {r : Nat} {w : W} (hs : InvS w) (cfg : Cfg) (c : Nat) : EndsFor S r w (clientClose cfg w c) :=
  .drop (calm_clientClose _ _ _) ((quiet_down cfg).clientClose (reasons_true cfg) _ _)
    ((prim_traced cfg fun _ => True).clientClose _ _ (fun _ _ => trivial) trivial) (clientClose_conn cfg w c) (others_clientClose hs cfg c)

theorem ends_setClient {S : String → Prop} {r : Nat} (w : W) (c : Nat) (f : Client → Client)
    (hf : ∀ k : Client, (f k).proto3 = k.proto3 ∧ ((f k).conn = .opened → k.conn = .opened)) : EndsFor S r w (setClient w c f) :=
  ⟨calm_setClient _ _ _ (hf _).1, fun c' h => by
    simp only [setClient, upd_apply] at h
    split at h
    · rename_i e; subst e; exact (hf _).2 h
    · exact h, [], by simp [setClient], fun _ h => by simp at h⟩

theorem ends_disconnectNs {S : String → Prop} (hS : S "server namespace disconnect") {r : Nat} (cfg : Cfg) (w : W) (ref : Nat) :
    EndsFor S r w (disconnectNs cfg w ref) :=
  .traced (calm_disconnectNs _ _ _) ((quiet_down cfg).disconnectNs _ _) ((prim_traced cfg S).disconnectNs hS _ _)

theorem ends_clientDisconnect {S : String → Prop} (hS : S "server namespace disconnect") {r : Nat} {w : W} (hs : InvS w) (cfg : Cfg) (c : Nat) :
    EndsFor S r w (clientDisconnect cfg w c) := by
  unfold clientDisconnect; dsimp only
  have key : ∀ (l : List Sid) (v : W), InvS v → InvS (l.foldl (eachSocket c (disconnectNs cfg)) v) ∧
      EndsFor S r v (l.foldl (eachSocket c (disconnectNs cfg)) v) := by
    intro l; induction l with
    | nil => exact fun v hv => ⟨hv, .refl _ _ _⟩
    | cons a l ih =>
      intro v hv
      rw [List.foldl_cons]
      have h1 : InvS (eachSocket c (disconnectNs cfg) v a) ∧ EndsFor S r v (eachSocket c (disconnectNs cfg) v a) := by
        unfold eachSocket; split
        · exact ⟨invS_disconnectNs hv _ _, ends_disconnectNs hS _ _ _⟩
        · exact ⟨hv, .refl _ _ _⟩
      obtain ⟨i1, i2⟩ := ih _ h1.1
      exact ⟨i1, h1.2.trans i2⟩
  obtain ⟨k1, k2⟩ := key (w.clients c).sockets.keys w hs
  have s2 := invS_client k1 c (fun k => { k with sockets := [] }) (.inr rfl) rfl fun h => ⟨rfl, h⟩
  exact (k2.trans (ends_setClient _ c (fun k => { k with sockets := [] }) fun _ => ⟨rfl, id⟩)).trans (ends_clientClose s2 cfg c)

theorem ends_disconnect {S : String → Prop} (hS : S "server namespace disconnect") {r : Nat} {w : W} (hs : InvS w) (cfg : Cfg) (status : Bool)
    (ref : Nat) : EndsFor S r w (disconnect cfg status w ref) := by
  unfold disconnect; split
  · split
    · exact ends_clientDisconnect hS hs _ _
    · exact ends_disconnectNs hS _ _ _
  · exact .refl _ _ _

/-- Every step that creates nothing. -/
theorem ends_step {S : String → Prop} (hS : S "server namespace disconnect") {r : Nat} {w : W} (hs : InvS w) (cfg : Cfg) (e : Ev)
    (hsh : e = .serverClose → S "server shutting down") (he : e.calm = true) : EndsFor S r w (step cfg w e) := by
  have silent : ∀ {w' : W}, w' = step cfg w e → w'.clients = w.clients → Traced cfg.recovery.isSome S w w' → EndsFor S r w w' := by
    intro w' hw hc ht
    exact .traced (by rw [hw]; exact calm_step cfg w e he) (fun c h => by rw [hc] at h; exact h) ht
  have q := prim_traced cfg S
  have pc : Prim0 fun a b : W => b.clients = a.clients :=
    ⟨fun _ => rfl, fun h1 h2 => h2.trans h1, fun w c ref p => by unfold clientPacket; split <;> rfl, fun _ _ _ _ => rfl⟩
  cases e <;> simp only [Ev.calm, Bool.false_eq_true] at he <;> simp only [World.step] at silent ⊢
  case transportClose c reason =>
    split
    · have h1 : EndsFor S r w (setClient w c fun k => { k with conn := .closed }) :=
        ends_setClient _ _ _ fun _ => ⟨rfl, fun h => by simp at h⟩
      split
      · exact h1.trans (ends_clientOnclose (invS_client hs c _ (.inl rfl) rfl fun h => ⟨rfl, h⟩) cfg c _ (by simp [setClient]))
      · exact h1
    · exact .refl _ _ _
  case connError c => split; exact ends_connClose hs _ _; exact .refl _ _ _
  case timer c =>
    split
    · unfold timerFires; split
      · have h1 : EndsFor S r w (setClient w c fun k => { k with timer := false }) := ends_setClient _ _ _ fun _ => ⟨rfl, id⟩
        dsimp only; split
        · exact h1.trans (ends_clientClose (invS_client hs c _ (.inl rfl) rfl (by simp)) _ _)
        · exact h1
      · exact .refl _ _ _
    · exact .refl _ _ _
  case join => exact silent rfl (pc.act _ _ _) (q.act _ _ _)
  case leave => exact silent rfl (pc.act _ _ _) (q.act _ _ _)
  case disconnect => split; exact ends_disconnect hS hs _ _ _; exact .refl _ _ _
  case disconnectSockets n rooms except flags status =>
    exact (apply_rel (fun a b => InvS a → InvS b ∧ EndsFor S r a b) (fun _ h => ⟨h, .refl _ _ _⟩)
      (fun h1 h2 h => ⟨(h2 (h1 h).1).1, (h1 h).2.trans (h2 (h1 h).1).2⟩)
      (fun s _ ref _ h => ⟨invS_disconnect h cfg status ref, ends_disconnect hS h cfg status ref⟩) _ w hs).2
  case socketsJoin =>
    exact silent rfl (apply_rel (fun a b : W => b.clients = a.clients) pc.refl pc.trans (fun _ _ _ _ => pc.join _ _ _) _ _)
      (apply_rel _ q.refl q.trans (fun _ _ _ _ => q.join _ _ _) _ _)
  case socketsLeave =>
    exact silent rfl (apply_rel (fun a b : W => b.clients = a.clients) pc.refl pc.trans (fun _ _ _ _ => pc.leaveEach _ _ _ _) _ _)
      (apply_rel _ q.refl q.trans (fun _ _ _ _ => q.leaveEach _ _ _ _) _ _)
  case broadcast n args id rooms except flags =>
    by_cases hn : n < w.nNs
    · rw [if_pos hn] at silent ⊢; exact silent rfl (pc.broadcast _ _ _ _ _) (q.broadcast _ _ _ _ _)
    · rw [if_neg hn]; exact .refl _ _ _
  case emit ref args flags =>
    by_cases hn : ref < w.nSock
    · rw [if_pos hn] at silent ⊢; exact silent rfl (pc.emit _ _ _ _ _) (q.emit _ _ _ _ _)
    · rw [if_neg hn]; exact .refl _ _ _
  case tick n =>
    cases hr : cfg.recovery with
    | some x => rw [hr] at silent; exact silent rfl rfl (.silent rfl rfl)
    | none => exact .refl _ _ _
  case serverClose =>
    exact .traced (calm_serverClose _ _) ((quiet_down cfg).serverClose (reasons_true cfg) _) (q.serverClose _ (hsh rfl))
  case reorderClient c l =>
    split
    · exact ends_setClient _ _ _ fun _ => ⟨rfl, id⟩
    · exact .refl _ _ _
  case reorderNs n l =>
    by_cases hp : l.isPerm (w.nss n).sockets = true
    · rw [if_pos hp] at silent ⊢; exact silent rfl rfl (.silent rfl rfl)
    · rw [if_neg hp]; exact .refl _ _ _
  case reorderNsps l =>
    by_cases hp : l.isPerm w.nsps = true
    · rw [if_pos hp] at silent ⊢; exact silent rfl rfl (.silent rfl rfl)
    · rw [if_neg hp]; exact .refl _ _ _

/-! ## The invariant -/

structure EndOk (S : String → Prop) (r : Nat) (w : W) : Prop where
  fresh : w.nSock ≤ r → ∀ reason, Obs.disconnect r reason ∉ w.log
  why : ∀ reason, Obs.disconnect r reason ∈ w.log → (w.clients (w.socks r).client).conn = .opened → S reason
  told : Obs.connection r ∈ w.log → ToldConnect r w.log

theorem told_more {r : Nat} {a b : List Obs} (h : ToldConnect r a) : ToldConnect r (a ++ b) := by
  obtain ⟨p, hp, ht⟩ := h
  exact ⟨p, by rw [packetsTo_append]; exact List.mem_append_left _ hp, ht⟩

theorem EndOk.mono {S S' : String → Prop} {r : Nat} {w : W} (h : EndOk S r w) (hi : ∀ x, S x → S' x) : EndOk S' r w :=
  ⟨h.fresh, fun reason hm ho => hi _ (h.why reason hm ho), h.told⟩

theorem EndOk.ends {S : String → Prop} {r : Nat} {rec : Bool} {Q : String → Prop} {w w' : W} (h : EndOk S r w)
    (hf : w.nSock ≤ r → (w.socks r).connected = false) (p : EndsFor S r w w') (t : Traced rec Q w w') : EndOk S r w' := by
  obtain ⟨c, d, ext, el, hx⟩ := p
  refine ⟨fun hn reason hm => ?_, fun reason hm ho => ?_, fun hm => ?_⟩
  · rw [c.nSock] at hn
    obtain ⟨ext', el', t'⟩ := t
    rw [el', List.mem_append] at hm
    rcases hm with hm | hm
    · exact h.fresh hn reason hm
    · have hl := mem_life_disconnect hm
      rcases t' r with ⟨-, q⟩ | ⟨q, -⟩
      · rw [q] at hl; simp at hl
      · rw [hf hn] at q; simp at q
  · rw [el, List.mem_append] at hm
    rcases hm with hm | hm
    · exact h.why reason hm (d _ (by rw [← (c.client_ns r).1]; exact ho))
    · exact hx reason hm ho
  · rw [el]; exact told_more (h.told ((traced_connection t r).1 hm))

/-- Nothing is said of the end of `r` and of its beginning, and no connection is opened that it has. -/
theorem EndOk.frame {S : String → Prop} {r : Nat} {w w' : W} (h : EndOk S r w) (hn : w.nSock ≤ w'.nSock)
    (ext : List Obs) (hl : w'.log = w.log ++ ext) (hd : ∀ reason, Obs.disconnect r reason ∉ ext)
    (hc : Obs.connection r ∈ ext → ToldConnect r ext)
    (ho : r < w.nSock → (w'.clients (w'.socks r).client).conn = .opened → (w.clients (w.socks r).client).conn = .opened) : EndOk S r w' := by
  have hm (reason : String) : Obs.disconnect r reason ∈ w'.log → Obs.disconnect r reason ∈ w.log := by
    rw [hl, List.mem_append]; exact fun h => h.elim id fun h => absurd h (hd reason)
  refine ⟨fun hge reason h' => h.fresh (Nat.le_trans hn hge) reason (hm reason h'), fun reason h' hop => ?_, fun h' => ?_⟩
  · rcases Nat.lt_or_ge r w.nSock with hlt | hge
    · exact h.why reason (hm reason h') (ho hlt hop)
    · exact absurd (hm reason h') (h.fresh hge reason)
  · rw [hl, List.mem_append] at h'
    rw [hl]
    rcases h' with h' | h'
    · exact told_more (h.told h')
    · obtain ⟨p, hp, ht⟩ := hc h'
      exact ⟨p, by rw [packetsTo_append]; exact List.mem_append_right _ hp, ht⟩

/-- Only packets were written, and no client was touched. -/
def JustPackets (a b : W) : Prop :=
  b.clients = a.clients ∧ ∃ ext, b.log = a.log ++ ext ∧ ∀ o ∈ ext, ∃ c ref p, o = Obs.packet c ref p

theorem prim0_justPackets : Prim0 JustPackets where
  refl w := ⟨rfl, [], by simp, fun _ h => by simp at h⟩
  trans := by
    rintro a b c ⟨h1, x, e1, p1⟩ ⟨h2, y, e2, p2⟩
    refine ⟨h2.trans h1, x ++ y, by rw [e2, e1, List.append_assoc], fun o ho => ?_⟩
    rcases List.mem_append.1 ho with ho | ho
    · exact p1 o ho
    · exact p2 o ho
  packet w c ref p := by
    unfold clientPacket; split
    · exact ⟨rfl, [_], rfl, fun o ho => by simp at ho; exact ⟨_, _, _, ho⟩⟩
    · exact ⟨rfl, [], by simp, fun _ h => by simp at h⟩
  ns w n f _ := ⟨rfl, [], by simp [setNs], fun _ h => by simp at h⟩

theorem grow_end (cfg : Cfg) (S : String → Prop) (r : Nat) : Grow0 cfg (EndOk S r) where
  inert w t ch now h := ⟨h.fresh, h.why, h.told⟩
  use w n h := ⟨h.fresh, h.why, h.told⟩
  data w ref v h := by
    refine h.frame (Nat.le_refl _) [] (by simp [setSock]) (by simp) (by simp) fun _ ho => ?_
    rw [show ((setSock w ref fun s => { s with data := some v }).socks r).client = (w.socks r).client from
      upd_proj _ _ _ _ Sock.client rfl] at ho
    exact ho
  newNs w s _ _ _ _ _ h := ⟨h.fresh, h.why, h.told⟩
  newClient w p hs h := by
    refine h.frame (Nat.le_refl _) [] (by simp) (by simp) (by simp) fun hlt ho => ?_
    have := (hs.sock r hlt).2
    dsimp only at ho
    rw [upd_ne _ _ (by omega)] at ho
    exact ho
  create w n c auth _ _ _ h := by
    obtain ⟨s, ⟨k1, ext, k2, k3⟩, -⟩ := createSocket_rel cfg prim0_justPackets w n c auth
    obtain ⟨-, -, -, -, s5⟩ := createSocket_self cfg w n c auth
    refine h.frame (by rw [createSocket_nSock]; omega) ext k2 (fun reason hm => ?_) (fun hm => ?_) fun hlt ho => ?_
    · obtain ⟨_, _, _, e⟩ := k3 _ hm; simp at e
    · obtain ⟨_, _, _, e⟩ := k3 _ hm; simp at e
    · rw [s5 r hlt, k1] at ho; exact ho
  doConnect w ref hlt ho _ h := by
    obtain ⟨d1, d2, d3, -, d5, -, -, -, -, -, d11⟩ := doConnect_fields w ref
    refine h.frame (by rw [d5]; exact Nat.le_refl _) _ (d11 ho) (fun reason hm => by simp at hm) (fun hm => ?_) fun _ hop => ?_
    · simp at hm; subst hm
      exact ⟨connectPkt w r, by simp [packetsTo, packetOf], rfl⟩
    · rw [d2, d3] at hop
      rw [show (upd w.socks ref { w.socks ref with connected := true } r).client = (w.socks r).client from upd_proj _ _ _ _ Sock.client rfl,
        show ∀ m, (upd w.clients (w.socks ref).client { w.clients (w.socks ref).client with
          sockets := (w.clients (w.socks ref).client).sockets.insert (w.socks ref).sid ref
          nsps := (w.clients (w.socks ref).client).nsps.insert (w.nss (w.socks ref).ns).name ref
          timer := false } m).conn = (w.clients m).conn from fun m => upd_proj _ _ _ _ Client.conn rfl] at hop
      exact hop
  cleanup w ref _ _ h := by
    obtain ⟨d1, d2, d3, -, d5, -, -, -, -, d10, -⟩ := cleanup_fields cfg w ref
    refine h.frame (by rw [d5]; exact Nat.le_refl _) [] (by simp [d10]) (by simp) (by simp) fun _ hop => ?_
    rw [d2, d3, show (upd w.socks ref { w.socks ref with canJoin := false } r).client = (w.socks r).client from
      upd_proj _ _ _ _ Sock.client rfl] at hop
    exact hop
  packet w c ref x _ _ h := by
    unfold clientPacket; split
    · exact h.frame (Nat.le_refl _) [.packet c ref x] rfl (by simp) (by simp) fun _ ho => ho
    · exact h
  received w ref type h := h.frame (Nat.le_refl _) [.received ref type] rfl (by simp) (by simp) fun _ ho => ho

/-! ## Packets of clients that wait to be handled -/

theorem packet_tasks_step (cfg : Cfg) (w : W) (e : Ev) (ref : Nat) (t : PType) (hm : Task.packet ref t ∈ (step cfg w e).tasks) :
    Task.packet ref t ∈ w.tasks ∨ ∃ c name auth, e = .recv c t name auth ∧ (w.clients c).nsps.get? name = some ref := by
  have hconnect : ∀ (v : W) c name auth, Task.packet ref t ∈ (connect cfg v c name auth).tasks → Task.packet ref t ∈ v.tasks := by
    intro v c name auth hm
    obtain ⟨a, b⟩ := routed_connect cfg v c name auth
    have ha := a ref t
    have hb := b ref t
    unfold routed at ha
    have h1 : 0 < (connect cfg v c name auth).tasks.count (.packet ref t) := List.count_pos_iff.2 hm
    exact List.count_pos_iff.1 (by omega)
  by_cases he : e.calm = true
  · rw [(calm_step cfg w e he).tasks] at hm; exact .inl hm
  · cases e <;> simp only [Ev.calm, not_true_eq_false] at he <;> simp only [step] at hm
    case accept p =>
      unfold accept at hm; dsimp only at hm; split at hm
      · have := hconnect _ _ _ _ hm
        exact .inl this
      · exact .inl hm
    case recv c type name auth =>
      split at hm
      · unfold ondecoded at hm; split at hm
        · split at hm
          · exact .inl (hconnect _ _ _ _ hm)
          · rw [(calm_clientClose _ _ _).tasks] at hm; exact .inl hm
        · rename_i ref' hg
          split at hm
          · rcases List.mem_append.1 hm with hm | hm
            · exact .inl hm
            · simp only [List.mem_singleton, Task.packet.injEq] at hm
              obtain ⟨rfl, rfl⟩ := hm
              exact .inr ⟨_, _, _, rfl, hg⟩
          · rw [(calm_clientClose _ _ _).tasks] at hm; exact .inl hm
      · exact .inl hm
    case task k =>
      split at hm
      · left
        refine (List.eraseIdx_sublist w.tasks k).subset ?_
        rename_i t' hk
        cases t' with
        | result ref' err =>
          simp only [runTask, result] at hm
          split at hm
          · rw [(cleanup_fields _ _ _).2.2.2.2.2.2.1] at hm; exact hm
          · split at hm
            · unfold sockPacket at hm
              rw [(same_packet _ _ _ _).2.1, (cleanup_fields _ _ _).2.2.2.2.2.2.1] at hm; exact hm
            · rw [(doConnect_fields _ _).2.2.2.2.2.2.1] at hm; exact hm
        | packet ref' type =>
          simp only [runTask, onpacket] at hm
          split at hm
          · rw [(calm_onclose _ _ _ _).tasks] at hm; exact hm
          · exact hm
      · exact .inl hm
    case next k i err =>
      unfold next at hm; split at hm
      · exact .inl hm
      · split at hm
        · dsimp only at hm; split at hm
          · left; simpa using hm
          · exact .inl hm
        · exact .inl hm
    case «of» name =>
      split at hm
      · exact .inl hm
      · exact .inl hm
    case use n => split at hm <;> exact .inl hm
    case setData ref' v => split at hm <;> exact .inl hm
    case clock t' => exact .inl hm

theorem hasLeft_more {cfg : Cfg} {h : List Ev} {r : Nat} (e : Ev) (hl : HasLeft cfg h r) : HasLeft cfg (h ++ [e]) r := by
  obtain ⟨pre, auth, hp, hr⟩ := hl
  exact ⟨pre, auth, hp.trans (List.prefix_append _ _), hr⟩

theorem packets_left (cfg : Cfg) (h : List Ev) (ref : Nat) (hm : Task.packet ref .disconnect ∈ (run cfg h).tasks) : HasLeft cfg h ref := by
  induction h using snocRec with
  | nil => simp [run, init, newNs] at hm
  | append_singleton h e ih =>
    rw [run_snoc] at hm
    rcases packet_tasks_step cfg _ e ref _ hm with hm | ⟨c, name, auth, rfl, hg⟩
    · exact hasLeft_more e (ih hm)
    · obtain ⟨n1, n2, n3⟩ := (inv_run cfg h).1.clNs c name ref hg
      exact ⟨h, auth, by rw [n2, n3]; exact List.prefix_refl _, n1⟩

/-- The reasons for which socket `r` may have ended though its connection is open. -/
def EndReason (cfg : Cfg) (h : List Ev) (r : Nat) (reason : String) : Prop :=
  reason = "server namespace disconnect" ∨ (reason = "server shutting down" ∧ Ev.serverClose ∈ h) ∨
  (reason = "client namespace disconnect" ∧ HasLeft cfg h r)

theorem endReason_more {cfg : Cfg} {h : List Ev} {r : Nat} (e : Ev) (reason : String) (hl : EndReason cfg h r reason) :
    EndReason cfg (h ++ [e]) r reason := by
  rcases hl with hl | ⟨h1, h2⟩ | ⟨h1, h2⟩
  · exact .inl hl
  · exact .inr (.inl ⟨h1, List.mem_append_left _ h2⟩)
  · exact .inr (.inr ⟨h1, hasLeft_more e h2⟩)

theorem end_run {cfg : Cfg} {h : List Ev} {r : Nat} (hn : NextOnceFor cfg h r) : EndOk (EndReason cfg h r) r (run cfg h) := by
  induction h using snocRec with
  | nil => exact ⟨fun _ _ h => by simp [run, init, newNs] at h, fun _ h => by simp [run, init, newNs] at h, fun h => by simp [run, init, newNs] at h⟩
  | append_singleton h e ih =>
    rw [run_snoc]
    have hn' := (nextOnceFor_snoc hn).1
    obtain ⟨i1, i2⟩ := inv_run cfg h
    have it := invR_run cfg h r hn'
    have hf (hge : (run cfg h).nSock ≤ r) : ((run cfg h).socks r).connected = false := (it.fresh hge).1
    have ho := (ih hn').mono (endReason_more e)
    by_cases he : e.calm = true
    · exact ho.ends hf (ends_step (.inl rfl) i1 cfg e (fun h' => .inr (.inl ⟨rfl, by simp [h']⟩)) he) (traced_step cfg _ e he)
    · refine (grow_end cfg _ r).step i1 i2 e he
        (fun c hP => hP.ends hf (ends_clientClose i1 cfg c) ((prim_traced cfg fun _ => True).clientClose _ _ (fun _ _ => trivial) trivial))
        (fun v ref reason hq hv hP => ?_) ho
      have hsk : v.socks = (run cfg h).socks ∧ v.nSock = (run cfg h).nSock := by rw [← hv]; exact ⟨rfl, rfl⟩
      refine hP.ends (by rw [hsk.1, hsk.2]; exact hf) ?_ (traced_onclose cfg v ref reason)
      obtain ⟨⟨-, q2⟩, q3⟩ := hq
      subst q3
      have hleft := packets_left cfg h ref q2
      have ht := traced_onclose cfg v ref "client namespace disconnect"
      by_cases hr : ref = r
      · subst hr
        exact .traced (calm_onclose _ _ _ _) (fun c h => by rw [onclose_down] at h; exact h)
          (ht.mono fun x hx => by subst hx; exact .inr (.inr ⟨rfl, hasLeft_more e hleft⟩))
      · refine ⟨calm_onclose _ _ _ _, fun c h => by rw [onclose_down] at h; exact h, ?_⟩
        obtain ⟨ext, el, p⟩ := ht
        refine ⟨ext, el, fun reason hm _ => ?_⟩
        have hl := mem_life_disconnect hm
        exfalso
        rcases p r with ⟨-, q⟩ | ⟨q1, q2, -⟩
        · rw [q] at hl; simp at hl
        · have hc : (v.socks ref).connected = true ∨ ¬ (v.socks ref).connected = true := Classical.em _
          rcases hc with hc | hc
          · rw [(onclose_effect cfg _ hc).1, upd_ne _ _ (Ne.symm hr)] at q2
            have := congrArg Sock.connected q2
            rw [q1] at this; simp [closed] at this
          · rw [onclose_neg cfg _ hc] at q2
            have := congrArg Sock.connected q2
            rw [q1] at this; simp [closed] at this

end Verif.World
