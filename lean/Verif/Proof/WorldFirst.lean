import Verif.Proof.WorldSlot
import Verif.Proof.WorldCast

/-! # The server: which packets are sent to a socket, and when -/

namespace Verif.World
open Verif Verif.Adapter Verif.Spec

/-- As `Prim`, but the only packets are DISCONNECT packets to connected sockets.  The other reasons for closing satisfy `Q`. -/
structure Quiet (cfg : Cfg) (Q : String → Prop) (R : W → W → Prop) : Prop where
  refl : ∀ w, R w w
  trans : ∀ {a b c}, R a b → R b c → R a c
  disc : ∀ w ref, (w.socks ref).connected = true → R w (disconnectNs cfg w ref)
  ns : ∀ w n f, (∀ k : Ns, (f k).name = k.name ∧ (f k).fns = k.fns ∧ (f k).sockets = k.sockets ∧ (f k).auto = k.auto ∧ (f k).sess = k.sess) →
    R w (setNs w n f)
  client : ∀ w c (f : Client → Client), (∀ k : Client, (f k).proto3 = k.proto3 ∧ (f k).nsps = k.nsps ∧
    ((f k).sockets = k.sockets ∨ (f k).sockets = []) ∧ ((f k).conn = .opened → k.conn = .opened)) → R w (setClient w c f)
  onclose : ∀ w ref reason, Q reason → R w (onclose cfg w ref reason)

/-- The reasons the engine and the library give for closing satisfy `Q`. -/
structure Reasons (cfg : Cfg) (Q : String → Prop) : Prop where
  sync : ∀ c reason, cfg.syncClose c = some reason → Q reason
  forced : Q "forced server close"
  shut : Q "server shutting down"

theorem reasons_true (cfg : Cfg) : Reasons cfg fun _ => True := ⟨fun _ _ _ => trivial, trivial, trivial⟩

theorem disconnectNs_pos (cfg : Cfg) {w : W} {ref : Nat} (h : (w.socks ref).connected = true) :
    disconnectNs cfg w ref = onclose cfg (sockPacket w ref { type := .disconnect }) ref "server namespace disconnect" := by
  unfold disconnectNs; rw [if_pos h]

namespace Quiet
variable {cfg : Cfg} {Q : String → Prop} {R : W → W → Prop} (p : Quiet cfg Q R)
include p

theorem foldl {α : Type} (f : W → α → W) (h : ∀ w a, R w (f w a)) (l : List α) (w : W) : R w (l.foldl f w) := by
  induction l generalizing w with
  | nil => exact p.refl w
  | cons a l ih => exact p.trans (h w a) (ih _)

theorem join (w : W) (ref : Nat) (rooms : List Room) : R w (join w ref rooms) := by
  unfold World.join; split
  · exact p.ns _ _ _ fun _ => ⟨rfl, rfl, rfl, rfl, rfl⟩
  · exact p.refl w

theorem leave (w : W) (ref : Nat) (room : Room) : R w (leave cfg w ref room) :=
  p.ns _ _ _ fun _ => ⟨rfl, rfl, rfl, rfl, rfl⟩

theorem leaveEach (rooms : List Room) (w : W) (ref : Nat) : R w (leaveEach cfg rooms w ref) :=
  p.foldl _ (fun _ _ => p.leave _ _ _) _ _

theorem act (w : W) (a : Act) : R w (act cfg w a) := by
  cases a <;> simp only [World.act] <;> split
  · exact p.join _ _ _
  · exact p.refl w
  · exact p.leave _ _ _
  · exact p.refl w

theorem disconnectNs (w : W) (ref : Nat) : R w (disconnectNs cfg w ref) := by
  by_cases hc : (w.socks ref).connected = true
  · exact p.disc _ _ hc
  · unfold World.disconnectNs; rw [if_neg hc]; exact p.refl w

theorem eachSocket (c : Nat) (body : W → Nat → W) (h : ∀ w r, R w (body w r)) (w : W) (sid : Sid) :
    R w (eachSocket c body w sid) := by
  unfold World.eachSocket; split
  · exact h _ _
  · exact p.refl w

theorem clientOnclose (w : W) (c : Nat) (reason : String) (hq : Q reason) : R w (clientOnclose cfg w c reason) := by
  unfold World.clientOnclose
  refine p.trans (b := setClient w c fun k => { k with listening := false, timer := false })
    (p.client _ _ _ fun _ => ⟨rfl, rfl, .inl rfl, id⟩) ?_
  exact p.trans (p.foldl _ (p.eachSocket c _ fun w r => p.onclose w r reason hq) _ _)
    (p.client _ _ _ fun _ => ⟨rfl, rfl, .inr rfl, id⟩)

theorem connClose (hr : Reasons cfg Q) (w : W) (c : Nat) : R w (connClose cfg w c) := by
  unfold World.connClose; split
  · have h1 : R w (setClient w c fun k => { k with conn := .closing }) :=
      p.client _ _ _ fun _ => ⟨rfl, rfl, .inl rfl, fun h => by simp at h⟩
    dsimp only; split
    · split
      · exact p.trans h1 (p.clientOnclose _ _ _ (hr.sync _ _ (by assumption)))
      · exact h1
    · exact h1
  · exact p.refl w

theorem clientClose (hr : Reasons cfg Q) (w : W) (c : Nat) : R w (clientClose cfg w c) := by
  unfold World.clientClose; split
  · exact p.trans (p.connClose hr _ _) (p.clientOnclose _ _ _ hr.forced)
  · exact p.refl w

theorem clientDisconnect (hr : Reasons cfg Q) (w : W) (c : Nat) : R w (clientDisconnect cfg w c) := by
  unfold World.clientDisconnect
  refine p.trans ?_ (p.clientClose hr _ _)
  exact p.trans (p.foldl _ (p.eachSocket c _ p.disconnectNs) _ _) (p.client _ _ _ fun _ => ⟨rfl, rfl, .inr rfl, id⟩)

theorem disconnect (hr : Reasons cfg Q) (status : Bool) (w : W) (ref : Nat) : R w (disconnect cfg status w ref) := by
  unfold World.disconnect; split
  · split
    · exact p.clientDisconnect hr _ _
    · exact p.disconnectNs _ _
  · exact p.refl w

theorem closeNs (hr : Reasons cfg Q) (w : W) (name : String) : R w (closeNs cfg w name) := by
  unfold World.closeNs; split
  · exact p.refl w
  · refine p.foldl _ (fun w sid => ?_) _ _
    split
    · exact p.onclose _ _ _ hr.shut
    · exact p.refl w

theorem serverClose (hr : Reasons cfg Q) (w : W) : R w (serverClose cfg w) := p.foldl _ (fun w name => p.closeNs hr w name) _ _

theorem timerFires (hr : Reasons cfg Q) (w : W) (c : Nat) : R w (timerFires cfg w c) := by
  unfold World.timerFires; split
  · have h1 : R w (setClient w c fun k => { k with timer := false }) := p.client _ _ _ fun _ => ⟨rfl, rfl, .inl rfl, id⟩
    dsimp only; split
    · exact p.trans h1 (p.clientClose hr _ _)
    · exact h1
  · exact p.refl w

/-- The relation holds over every step that creates nothing, if it does for the events listed. -/
theorem step (hr : Reasons cfg Q) (w : W) (e : Ev)
    (h0 : ∀ c reason, e = .transportClose c reason → Q reason)
    (h1 : ∀ c l, l.Perm (w.clients c).sockets → R w (setClient w c fun k => { k with sockets := l }))
    (h2 : ∀ n l, l.Perm (w.nss n).sockets → R w (setNs w n fun k => { k with sockets := l }))
    (h3 : ∀ l, l.Perm w.nsps → R w { w with nsps := l })
    (h4 : ∀ n args id rooms except flags, e = .broadcast n args id rooms except flags →
      R w (broadcast cfg w n { type := .event, data := .args args, id := id } (options rooms except flags)))
    (h5 : ∀ ref args flags, e = .emit ref args flags → ref < w.nSock → R w (emit cfg w ref args flags))
    (h6 : ∀ n sc b, e = .tick n → cfg.recovery = some (sc, b) → R w (setNs w n fun k => { k with sess := Session.tick sc w.now k.sess }))
    (he : e.calm = true) : R w (step cfg w e) := by
  cases e <;> simp only [Ev.calm, Bool.false_eq_true] at he <;> simp only [World.step]
  case transportClose c reason =>
    split
    · split
      · exact p.trans (b := setClient w c fun k => { k with conn := .closed })
          (p.client w c _ fun _ => ⟨rfl, rfl, .inl rfl, fun h => by simp at h⟩) (p.clientOnclose _ _ _ (h0 _ _ rfl))
      · exact p.client _ _ _ fun _ => ⟨rfl, rfl, .inl rfl, fun h => by simp at h⟩
    · exact p.refl w
  case connError c => split; exact p.connClose hr _ _; exact p.refl w
  case timer c => split; exact p.timerFires hr _ _; exact p.refl w
  case join => exact p.act _ _
  case leave => exact p.act _ _
  case socketsJoin => exact apply_rel R p.refl p.trans (fun _ _ _ _ => p.join _ _ _) _ _
  case socketsLeave => exact apply_rel R p.refl p.trans (fun _ _ _ _ => p.leaveEach _ _ _) _ _
  case disconnect => split; exact p.disconnect hr _ _ _; exact p.refl w
  case disconnectSockets => exact apply_rel R p.refl p.trans (fun _ _ _ _ => p.disconnect hr _ _ _) _ _
  case broadcast => split; exact h4 _ _ _ _ _ _ rfl; exact p.refl w
  case emit => split; exact h5 _ _ _ rfl (by assumption); exact p.refl w
  case tick => split; exact h6 _ _ _ rfl (by assumption); exact p.refl w
  case serverClose => exact p.serverClose hr _
  case reorderClient => split; exact h1 _ _ (List.isPerm_iff.1 (by assumption)); exact p.refl w
  case reorderNs => split; exact h2 _ _ (List.isPerm_iff.1 (by assumption)); exact p.refl w
  case reorderNsps => split; exact h3 _ (List.isPerm_iff.1 (by assumption)); exact p.refl w

end Quiet

/-! ## Only connected sockets are written to -/

/-- The observations `ext` contain only EVENT and DISCONNECT packets, each to a socket allowed by `C`. -/
def Polite (C : Nat → Prop) (ext : List Obs) : Prop :=
  ∀ c ref p, Obs.packet c ref p ∈ ext → (p.type = .event ∨ p.type = .disconnect) ∧ ∃ r, ref = some r ∧ C r

theorem polite_append {C : Nat → Prop} {a b : List Obs} (h1 : Polite C a) (h2 : Polite C b) : Polite C (a ++ b) :=
  fun c ref p h => (List.mem_append.1 h).elim (h1 c ref p) (h2 c ref p)

/-- From `w` to `w'` nothing was created, and packets were sent to connected sockets only. -/
def Speaks (w w' : W) : Prop :=
  Calm w w' ∧ ∃ ext, w'.log = w.log ++ ext ∧ Polite (fun r => (w.socks r).connected = true) ext

theorem Calm.connected {w w' : W} (c : Calm w w') {r : Nat} (h : (w'.socks r).connected = true) : (w.socks r).connected = true := by
  rcases c.socks r with e | ⟨e, -⟩
  · rw [← e]; exact h
  · exact e

theorem Speaks.refl (w : W) : Speaks w w := ⟨.refl w, [], by simp, fun _ _ _ h => by simp at h⟩

theorem Speaks.trans {a b c : W} (h1 : Speaks a b) (h2 : Speaks b c) : Speaks a c := by
  obtain ⟨c1, x, e1, p1⟩ := h1
  obtain ⟨c2, y, e2, p2⟩ := h2
  refine ⟨c1.trans c2, x ++ y, by rw [e2, e1, List.append_assoc], polite_append p1 ?_⟩
  intro c ref p h
  obtain ⟨t, r, e, hr⟩ := p2 c ref p h
  exact ⟨t, r, e, c1.connected hr⟩

theorem Speaks.silent {w w' : W} (c : Calm w w') (h : w'.log = w.log) : Speaks w w' :=
  ⟨c, [], by simp [h], fun _ _ _ h => by simp at h⟩

theorem speaks_packet (w : W) (ref : Nat) (p : Pkt) (hc : (w.socks ref).connected = true) (hp : p.type = .event ∨ p.type = .disconnect) :
    Speaks w (sockPacket w ref p) := by
  refine ⟨calm_sockPacket _ _ _, ?_⟩
  rw [sockPacket_eq]
  refine ⟨sent w p ref, rfl, fun c r x hm => ?_⟩
  unfold sent at hm; split at hm
  · simp only [List.mem_singleton, Obs.packet.injEq] at hm
    obtain ⟨-, rfl, rfl⟩ := hm
    exact ⟨hp, ref, rfl, hc⟩
  · simp at hm

theorem speaks_onclose (cfg : Cfg) (w : W) (ref : Nat) (reason : String) : Speaks w (onclose cfg w ref reason) := by
  refine ⟨calm_onclose _ _ _ _, ?_⟩
  by_cases hc : (w.socks ref).connected = true
  · refine ⟨_, by rw [onclose_log cfg reason hc, List.append_assoc, List.append_assoc], fun c r x hm => ?_⟩
    exfalso; revert hm; split <;> simp
  · rw [onclose_neg cfg reason hc]; exact ⟨[], by simp, fun _ _ _ h => by simp at h⟩

theorem quiet_speaks (cfg : Cfg) : Quiet cfg (fun _ => True) Speaks where
  refl := .refl
  trans := .trans
  disc w ref hc := by rw [disconnectNs_pos cfg hc]; exact (speaks_packet w ref _ hc (.inr rfl)).trans (speaks_onclose _ _ _ _)
  ns w n f hf := .silent (calm_setNs _ _ _ (hf _).1 (hf _).2.1) rfl
  client w c f hf := .silent (calm_setClient _ _ _ (hf _).1) rfl
  onclose w ref reason _ := speaks_onclose cfg w ref reason

theorem session_broadcast_type (c : Session.Cfg) (now : Int) (p : Pkt) (opts : Option Opts) (s : Session.St) :
    (Session.broadcast c now p opts s).2.type = p.type := by
  unfold Session.broadcast; split
  · split <;> rfl
  · rfl

theorem speaks_broadcast {w : W} (hs : InvS w) (cfg : Cfg) (n : Nat) (p : Pkt) (opts : Option Opts) (hp : p.type = .event) :
    Speaks w (broadcast cfg w n p opts) := by
  have ha (w : W) (hs : InvS w) (p : Pkt) (hp : p.type = .event) :
      Speaks w (apply (view n) opts (fun w ref => sockPacket w ref p) w).1 :=
    (apply_rel (fun a b : W => InvS a → InvS b ∧ Speaks a b) (fun _ h => ⟨h, .refl _⟩)
      (fun h1 h2 h => ⟨(h2 (h1 h).1).1, (h1 h).2.trans (h2 (h1 h).1).2⟩)
      (fun s id r hr hs => ⟨invS_sockPacket hs _ _, speaks_packet s r p (hs.reg n id r hr).2.2 (.inl hp)⟩) opts w hs).2
  unfold broadcast; split
  · refine Speaks.trans (.silent (calm_setNs _ _ _ rfl rfl) rfl) (ha _ (invS_sess hs _ _) _ ?_)
    rw [session_broadcast_type]; exact hp
  · exact ha _ hs _ hp

theorem speaks_step {w : W} (hs : InvS w) (cfg : Cfg) (e : Ev) (he : e.calm = true)
    (hem : ∀ ref args flags, e ≠ .emit ref args flags) : Speaks w (step cfg w e) :=
  (quiet_speaks cfg).step (reasons_true cfg) w e (fun _ _ _ => trivial) (fun _ _ _ => .silent (calm_setClient _ _ _ rfl) rfl)
    (fun _ _ _ => .silent (calm_setNs _ _ _ rfl rfl) rfl) (fun _ _ => .silent (calm_nsps _ _) rfl)
    (fun _ _ _ _ _ _ _ => speaks_broadcast hs _ _ _ _ rfl) (fun ref args flags h => absurd h (hem ref args flags))
    (fun _ _ _ _ _ => .silent (calm_setNs _ _ _ rfl rfl) rfl) he

/-! ## The packets of one socket -/

/-- Nothing but packets is added, and none to other sockets than those in `C`. -/
theorem packetsTo_polite {C : Nat → Prop} {ext : List Obs} (h : Polite C ext) (r : Nat) :
    (∀ p ∈ packetsTo r ext, p.type = .event ∨ p.type = .disconnect) ∧ (¬ C r → packetsTo r ext = []) := by
  refine ⟨fun p hp => ?_, fun hn => ?_⟩
  · obtain ⟨o, ho, e⟩ := List.mem_filterMap.1 hp
    cases o <;> simp only [packetOf, reduceCtorEq] at e
    split at e
    · simp only [Option.some.injEq] at e; subst e
      exact (h _ _ _ ho).1
    · simp at e
  · rw [packetsTo, List.filterMap_eq_nil_iff]
    intro o ho
    cases o <;> simp only [packetOf]
    split
    · rename_i e
      obtain ⟨r', e', hr'⟩ := (h _ _ _ ho).2
      rw [e] at e'; cases e'; exact absurd hr' hn
    · rfl

theorem packetsTo_append (r : Nat) (a b : List Obs) : packetsTo r (a ++ b) = packetsTo r a ++ packetsTo r b := by
  simp [packetsTo]

theorem packetsTo_other {r : Nat} {l : List Obs} (h : ∀ o ∈ l, packetOf r o = none) : packetsTo r l = [] := by
  rw [packetsTo, List.filterMap_eq_nil_iff]; exact h

theorem packetsTo_sent (w : W) (p : Pkt) (ref r : Nat) :
    packetsTo r (sent w p ref) = [] ∨ (ref = r ∧ ∃ q, q.type = p.type ∧ packetsTo r (sent w p ref) = [q]) := by
  unfold sent; split
  · by_cases e : ref = r
    · subst e; exact .inr ⟨rfl, { p with nsp := (w.nss (w.socks ref).ns).name }, rfl, by simp [packetsTo, packetOf]⟩
    · exact .inl (packetsTo_other fun o ho => by simp at ho; subst ho; simp [packetOf, e])
  · exact .inl rfl

theorem InvT.notConnected {rec : Bool} {used : List (Nat × Nat)} {w : W} (h : InvT rec used w) {r : Nat}
    (h1 : (w.socks r).connected = false) (h2 : (w.socks r).canJoin = true) : Obs.connection r ∉ w.log := by
  rw [mem_life, (h.life r).2.1 h1 h2]; simp

/-! ## Creating a socket -/

theorem foldl_join {ref : Nat} (rooms : List Room) (w : W) (hj : (w.socks ref).canJoin = true) :
    rooms.foldl (fun w r => join w ref [r]) w =
      setNs w (w.socks ref).ns fun k => { k with ad := rooms.foldl (fun a r => (addAll a (w.socks ref).sid [r]).1) k.ad } := by
  induction rooms generalizing w with
  | nil => simp only [List.foldl_nil, setNs, upd_self]
  | cons x rooms ih =>
    rw [List.foldl_cons]
    have e : join w ref [x] = setNs w (w.socks ref).ns fun k => { k with ad := (addAll k.ad (w.socks ref).sid [x]).1 } := by
      unfold join; rw [if_pos hj]
    rw [e, ih (setNs w _ _) hj]
    simp only [setNs, List.foldl_cons, upd_same, upd_upd]

theorem foldl_sockPacket {ref : Nat} {α : Type} (f : α → Pkt) (l : List α) (w : W) :
    l.foldl (fun w x => sockPacket w ref (f x)) w = { w with log := w.log ++ l.flatMap fun x => sent w (f x) ref } := by
  induction l generalizing w with
  | nil => simp
  | cons x l ih =>
    rw [List.foldl_cons, sockPacket_eq, ih]
    simp [sent]

/-- The state just after a session is recovered. -/
theorem recover_eq (w : W) (n c : Nat) (s : Session.Sess) (missed : List (List Val)) :
    recoverSocket w n c s missed = { w with
      nss := upd w.nss n { w.nss n with ad := s.rooms.foldl (fun a r => (addAll a s.sid [r]).1) (w.nss n).ad }
      socks := upd w.socks w.nSock { ns := n, client := c, sid := s.sid, pid := s.pid, data := s.data, recovered := true }
      nSock := w.nSock + 1
      log := w.log ++ if (w.clients c).conn = .opened then missed.map fun l =>
        .packet c (some w.nSock) { type := .event, data := .args l, nsp := (w.nss n).name } else [] } := by
  unfold recoverSocket; dsimp only
  rw [foldl_join _ _ (by simp [alloc]), foldl_sockPacket]
  simp only [alloc, setNs, upd_same, sent]
  congr 2
  split
  · rw [← List.map_eq_flatMap]
  · simp

/-- Creating a socket sends nothing, except to that socket if it is recovered. -/
theorem create_packets (cfg : Cfg) (w : W) (n c : Nat) (auth : Option (Session.Pid × String)) :
    ∃ ext, (createSocket cfg w n c auth).log = w.log ++ ext ∧ (∀ o ∈ ext, ∃ p, o = .packet c (some w.nSock) p ∧ p.type = .event) ∧
      (((createSocket cfg w n c auth).socks w.nSock).recovered = false → ext = []) ∧
      ∀ r, r ≠ w.nSock → (createSocket cfg w n c auth).socks r = w.socks r := by
  unfold createSocket; split
  · dsimp only; split
    · rw [recover_eq]
      refine ⟨_, rfl, fun o ho => ?_, fun h => ?_, fun r hr => upd_ne _ _ hr⟩
      · split at ho
        · obtain ⟨l, -, rfl⟩ := List.mem_map.1 ho; exact ⟨_, rfl, rfl⟩
        · simp at ho
      · simp [setNs] at h
    · exact ⟨[], by simp [newSocket, alloc, setNs], by simp, fun _ => rfl, fun r hr => upd_ne _ _ hr⟩
  · exact ⟨[], by simp [newSocket, alloc], by simp, fun _ => rfl, fun r hr => upd_ne _ _ hr⟩

end Verif.World
