import Verif.Proof.WorldTrace

/-! # The server: while no two open sockets share an id, every connected socket is registered -/

namespace Verif.World
open Verif Verif.Adapter Verif.Spec

/-! ## Building blocks, second version

Here the closing of a whole connection is one block. -/

/-- Without joining and leaving rooms.  `T` holds of the clients whose timers fire. -/
structure Blocks0 (cfg : Cfg) (T : Nat → Prop) (R : W → W → Prop) : Prop where
  refl : ∀ w, R w w
  trans : ∀ {a b c}, R a b → R b c → R a c
  packet : ∀ w c ref p, R w (clientPacket w c ref p)
  sess : ∀ w n (f : Ns → Session.St), R w (setNs w n fun k => { k with sess := f k })
  onclose : ∀ w ref reason, R w (onclose cfg w ref reason)
  clientOnclose : ∀ w c reason, (w.clients c).conn ≠ .opened → R w (clientOnclose cfg w c reason)
  conn : ∀ w c x, x ≠ .opened → R w (setClient w c fun k => { k with conn := x })
  timer : ∀ w c, T c → R w (setClient w c fun k => { k with timer := false })
  drop : ∀ w c, R w (setClient ((w.clients c).sockets.keys.foldl (eachSocket c (disconnectNs cfg)) w) c
    fun k => { k with sockets := [] })
  reorderClient : ∀ w c l, l.Perm (w.clients c).sockets → R w (setClient w c fun k => { k with sockets := l })
  reorderNs : ∀ w n l, l.Perm (w.nss n).sockets → R w (setNs w n fun k => { k with sockets := l })
  reorderNsps : ∀ w l, l.Perm w.nsps → R w { w with nsps := l }

/-- The same with joining and leaving rooms.  `L` holds of the rooms that sockets leave (`.inl`: that socket, `.inr`: sockets
registered in that namespace). -/
structure Blocks (cfg : Cfg) (L : Nat ⊕ Nat → Room → Prop) (T : Nat → Prop) (R : W → W → Prop) : Prop extends Blocks0 cfg T R where
  join : ∀ w ref rooms, (ref < w.nSock ∨ ∃ n sid, (w.nss n).sockets.get? sid = some ref) → R w (join w ref rooms)
  leave : ∀ w ref room, (L (.inl ref) room ∨ ∃ n sid, (w.nss n).sockets.get? sid = some ref ∧ L (.inr n) room) →
    R w (leave cfg w ref room)

/-- The rooms that an action leaves. -/
def Act.leaves : Act → List ((Nat ⊕ Nat) × Room)
  | .join .. => []
  | .leave ref room => [(.inl ref, room)]

def Ev.leaves : Ev → List ((Nat ⊕ Nat) × Room)
  | .leave ref room => [(.inl ref, room)]
  | .socketsLeave n _ _ _ target => target.map fun x => (.inr n, x)
  | _ => []

/-- A call that makes sockets join or leave rooms. -/
def Ev.rooms : Ev → Bool
  | .join .. | .leave .. | .socketsJoin .. | .socketsLeave .. => true
  | _ => false

def Ev.fires : Ev → List Nat
  | .timer c => [c]
  | _ => []

/-- The beginning of `Client.onclose`. -/
def unlisten (w : W) (c : Nat) : W := setClient w c fun k => { k with listening := false, timer := false }

/-- The loop of `Client.onclose`. -/
def closeLoop (cfg : Cfg) (w : W) (c : Nat) (reason : String) : W :=
  ((unlisten w c).clients c).sockets.keys.foldl (eachSocket c fun w ref => onclose cfg w ref reason) (unlisten w c)

theorem clientOnclose_eq (cfg : Cfg) (w : W) (c : Nat) (reason : String) :
    clientOnclose cfg w c reason = setClient (closeLoop cfg w c reason) c fun k => { k with sockets := [] } := rfl

/-- `Client.onclose` leaves the connection as it is. -/
theorem clientOnclose_conn (cfg : Cfg) (w : W) (c : Nat) (reason : String) (d : Nat) :
    ((clientOnclose cfg w c reason).clients d).conn = (w.clients d).conn := by
  have hon (w : W) (ref : Nat) : ((onclose cfg w ref reason).clients d).conn = (w.clients d).conn := by
    by_cases hc : (w.socks ref).connected = true
    · rw [onclose_pos cfg reason hc]
      simp only [obs]
      rw [(shut_fields cfg _ ref).2.2.1, (closing_socks cfg w ref reason).2.1]
      refine upd_proj _ _ _ _ Client.conn ?_
      unfold clientCleaned; rw [(closing_socks cfg w ref reason).2.1]; dsimp only; split <;> rfl
    · rw [onclose_neg cfg reason hc]
  have hfold (l : List Sid) (w : W) :
      ((l.foldl (eachSocket c fun w ref => onclose cfg w ref reason) w).clients d).conn = (w.clients d).conn := by
    induction l generalizing w with
    | nil => rfl
    | cons a l ih =>
      rw [List.foldl_cons, ih]
      unfold eachSocket; split
      · exact hon _ _
      · rfl
  unfold clientOnclose
  simp only [setClient]
  rw [upd_proj _ _ _ _ Client.conn (by rfl)]
  refine (hfold _ _).trans ?_
  exact upd_proj _ _ _ _ Client.conn rfl

theorem connClose_conn (cfg : Cfg) (w : W) (c : Nat) : ((connClose cfg w c).clients c).conn ≠ .opened := by
  unfold connClose; split
  · have h1 : ((setClient w c fun k => { k with conn := .closing }).clients c).conn = .closing := by simp [setClient]
    dsimp only; split
    · split
      · rw [clientOnclose_conn, h1]; simp
      · rw [h1]; simp
    · rw [h1]; simp
  · assumption

namespace Blocks0
variable {cfg : Cfg} {T : Nat → Prop} {R : W → W → Prop} (p : Blocks0 cfg T R)
include p

theorem foldl {α : Type} (f : W → α → W) (h : ∀ w a, R w (f w a)) (l : List α) (w : W) : R w (l.foldl f w) := by
  induction l generalizing w with
  | nil => exact p.refl w
  | cons a l ih => exact p.trans (h w a) (ih _)

theorem sockPacket (w : W) (ref : Nat) (x : Pkt) : R w (sockPacket w ref x) := p.packet _ _ _ _

theorem disconnectNs (w : W) (ref : Nat) : R w (disconnectNs cfg w ref) := by
  unfold World.disconnectNs; split
  · exact p.trans (p.sockPacket _ _ _) (p.onclose _ _ _)
  · exact p.refl w

theorem connClose (w : W) (c : Nat) : R w (connClose cfg w c) := by
  unfold World.connClose; split
  · have h1 : R w (setClient w c fun k => { k with conn := .closing }) := p.conn _ _ _ (by simp)
    dsimp only; split
    · split
      · exact p.trans h1 (p.clientOnclose _ _ _ (by simp [setClient]))
      · exact h1
    · exact h1
  · exact p.refl w

theorem clientClose (w : W) (c : Nat) : R w (clientClose cfg w c) := by
  unfold World.clientClose; split
  · exact p.trans (p.connClose _ _) (p.clientOnclose _ _ _ (connClose_conn _ _ _))
  · exact p.refl w

theorem clientDisconnect (w : W) (c : Nat) : R w (clientDisconnect cfg w c) := by
  unfold World.clientDisconnect
  exact p.trans (p.drop w c) (p.clientClose _ _)

theorem disconnect (status : Bool) (w : W) (ref : Nat) : R w (disconnect cfg status w ref) := by
  unfold World.disconnect; split
  · split
    · exact p.clientDisconnect _ _
    · exact p.disconnectNs _ _
  · exact p.refl w

theorem broadcast (w : W) (n : Nat) (x : Pkt) (opts : Option Opts) : R w (broadcast cfg w n x opts) := by
  have ha (w : W) (x : Pkt) : R w (apply (view n) opts (fun w ref => World.sockPacket w ref x) w).1 :=
    apply_rel R p.refl p.trans (fun _ _ _ _ => p.sockPacket _ _ _) _ _
  unfold World.broadcast; split
  · refine p.trans ?_ (ha _ _); exact p.sess _ _ _
  · exact ha _ _

theorem emit (w : W) (ref : Nat) (args : List Val) (flags : Flags) : R w (emit cfg w ref args flags) := by
  unfold World.emit; split
  · exact p.broadcast _ _ _ _
  · exact p.sockPacket _ _ _

theorem closeNs (w : W) (name : String) : R w (closeNs cfg w name) := by
  unfold World.closeNs; split
  · exact p.refl w
  · refine p.foldl _ (fun w sid => ?_) _ _
    split
    · exact p.onclose _ _ _
    · exact p.refl w

theorem timerFires (w : W) (c : Nat) (hc : T c) : R w (timerFires cfg w c) := by
  unfold World.timerFires; split
  · have h1 : R w (setClient w c fun k => { k with timer := false }) := p.timer _ _ hc
    dsimp only; split
    · exact p.trans h1 (p.clientClose _ _)
    · exact h1
  · exact p.refl w

theorem step (w : W) (e : Ev) (he : e.calm = true) (hl : e.rooms = false) (ht : ∀ c ∈ e.fires, T c) :
    R w (step cfg w e) := by
  cases e <;> simp only [Ev.calm, Bool.false_eq_true] at he <;> simp only [Ev.rooms, Bool.true_eq_false] at hl <;> simp only [World.step]
  case transportClose c reason =>
    split
    · split
      · exact p.trans (b := setClient w c fun k => { k with conn := .closed })
          (p.conn w c _ (by simp)) (p.clientOnclose _ _ _ (by simp [setClient]))
      · exact p.conn _ _ _ (by simp)
    · exact p.refl w
  case connError c => split; exact p.connClose _ _; exact p.refl w
  case timer c => split; exact p.timerFires _ _ (ht c (by simp [Ev.fires])); exact p.refl w
  case disconnect => split; exact p.disconnect _ _ _; exact p.refl w
  case disconnectSockets => exact apply_rel R p.refl p.trans (fun _ _ _ _ => p.disconnect _ _ _) _ _
  case broadcast => split; exact p.broadcast _ _ _ _; exact p.refl w
  case emit => split; exact p.emit _ _ _ _; exact p.refl w
  case tick => split; exact p.sess _ _ _; exact p.refl w
  case serverClose => exact p.foldl _ p.closeNs _ _
  case reorderClient => split; exact p.reorderClient _ _ _ (List.isPerm_iff.1 (by assumption)); exact p.refl w
  case reorderNs => split; exact p.reorderNs _ _ _ (List.isPerm_iff.1 (by assumption)); exact p.refl w
  case reorderNsps => split; exact p.reorderNsps _ _ (List.isPerm_iff.1 (by assumption)); exact p.refl w

end Blocks0

namespace Blocks
variable {cfg : Cfg} {L : Nat ⊕ Nat → Room → Prop} {T : Nat → Prop} {R : W → W → Prop} (p : Blocks cfg L T R)
include p

theorem leaveEach (w : W) (ref : Nat) (rooms : List Room) (n : Nat) (sid : Sid) (hg : (w.nss n).sockets.get? sid = some ref)
    (h : ∀ r ∈ rooms, L (.inr n) r) : R w (leaveEach cfg rooms w ref) := by
  unfold World.leaveEach
  induction rooms generalizing w with
  | nil => exact p.refl w
  | cons a l ih =>
    rw [List.foldl_cons]
    refine p.trans (p.leave w ref a (.inr ⟨n, sid, hg, h a List.mem_cons_self⟩)) (ih _ ?_ fun r hr => h r (List.mem_cons_of_mem _ hr))
    rw [← hg]; exact congrArg (FMap.get? · sid) (upd_proj _ _ _ _ Ns.sockets rfl)

theorem act (w : W) (a : Act) (ha : ∀ x ∈ a.leaves, L x.1 x.2) : R w (act cfg w a) := by
  cases a <;> simp only [World.act] <;> split
  · exact p.join _ _ _ (.inl (by assumption))
  · exact p.refl w
  · exact p.leave _ _ _ (.inl (ha (.inl _, _) (by simp [Act.leaves])))
  · exact p.refl w

theorem step (w : W) (e : Ev) (he : e.calm = true) (hl : ∀ x ∈ e.leaves, L x.1 x.2) (ht : ∀ c ∈ e.fires, T c) :
    R w (step cfg w e) := by
  cases hr : e.rooms with
  | false => exact p.toBlocks0.step w e he hr ht
  | true =>
    cases e <;> simp only [Ev.rooms, Bool.false_eq_true] at hr <;> simp only [World.step]
    case join => exact p.act _ _ (by simp [Act.leaves])
    case leave => exact p.act _ _ hl
    case socketsJoin => exact apply_rel R p.refl p.trans (fun _ _ _ h => p.join _ _ _ (.inr ⟨_, _, h⟩)) _ _
    case socketsLeave =>
      refine apply_rel R p.refl p.trans (fun _ _ _ h => p.leaveEach _ _ _ _ _ h fun x hx => ?_) _ _
      exact hl (.inr _, x) (List.mem_map.2 ⟨x, hx, rfl⟩)

end Blocks

/-- Invariants kept by the building blocks: `B` by whole blocks, `P` by smaller ones. -/
theorem blocks0_with {cfg : Cfg} {T : Nat → Prop} {B P : W → Prop}
    (hb : Blocks0 cfg (fun _ => True) fun w w' => (B w → B w'))
    (hu : ∀ w c, B w → B (unlisten w c))
    (packet : ∀ w c ref x, B w → P w → P (clientPacket w c ref x))
    (sess : ∀ w n (f : Ns → Session.St), B w → P w → P (setNs w n fun k => { k with sess := f k }))
    (onclose : ∀ w ref reason, B w → P w → P (onclose cfg w ref reason))
    (client : ∀ w c (f : Client → Client), (∀ k : Client, (f k).nsps = k.nsps ∧ (f k).proto3 = k.proto3) → P w → P (setClient w c f))
    (reorderNs : ∀ w n l, l.Perm (w.nss n).sockets → B w → P w → P (setNs w n fun k => { k with sockets := l }))
    (reorderNsps : ∀ w l, l.Perm w.nsps → B w → P w → P { w with nsps := l }) :
    Blocks0 cfg T fun w w' => (B w ∧ P w → B w' ∧ P w') := by
  have hns (w : W) (ref : Nat) (h : B w ∧ P w) : B (disconnectNs cfg w ref) ∧ P (disconnectNs cfg w ref) := by
    refine ⟨hb.disconnectNs _ _ h.1, ?_⟩
    unfold disconnectNs; split
    · exact onclose _ _ _ (hb.packet _ _ _ _ h.1) (packet _ _ _ _ h.1 h.2)
    · exact h.2
  have hloop (c : Nat) (body : W → Nat → W) (hbody : ∀ w r, B w ∧ P w → B (body w r) ∧ P (body w r)) (l : List Sid) (w : W)
      (h : B w ∧ P w) : B (l.foldl (eachSocket c body) w) ∧ P (l.foldl (eachSocket c body) w) := by
    induction l generalizing w with
    | nil => exact h
    | cons a l ih =>
      rw [List.foldl_cons]; refine ih _ ?_
      unfold eachSocket; split
      · exact hbody _ _ h
      · exact h
  exact {
    refl := fun w h => h
    trans := fun h1 h2 h => h2 (h1 h)
    packet := fun w c ref x h => ⟨hb.packet _ _ _ _ h.1, packet _ _ _ _ h.1 h.2⟩
    sess := fun w n f h => ⟨hb.sess _ _ _ h.1, sess _ _ _ h.1 h.2⟩
    onclose := fun w ref reason h => ⟨hb.onclose _ _ _ h.1, onclose _ _ _ h.1 h.2⟩
    clientOnclose := fun w c reason hc h => by
      refine ⟨hb.clientOnclose _ _ _ hc h.1, ?_⟩
      rw [clientOnclose_eq]
      refine client _ _ _ (fun _ => ⟨rfl, rfl⟩) (hloop c _ (fun w r h => ⟨hb.onclose _ _ _ h.1, onclose _ _ _ h.1 h.2⟩) _ _ ⟨hu _ _ h.1, ?_⟩).2
      exact client _ _ _ (fun _ => ⟨rfl, rfl⟩) h.2
    conn := fun w c x hx h => ⟨hb.conn _ _ _ hx h.1, client _ _ _ (fun _ => ⟨rfl, rfl⟩) h.2⟩
    timer := fun w c _ h => ⟨hb.timer _ _ trivial h.1, client _ _ _ (fun _ => ⟨rfl, rfl⟩) h.2⟩
    drop := fun w c h => ⟨hb.drop _ _ h.1, client _ _ _ (fun _ => ⟨rfl, rfl⟩) (hloop c _ hns _ _ h).2⟩
    reorderClient := fun w c l hp h => ⟨hb.reorderClient _ _ _ hp h.1, client _ _ _ (fun _ => ⟨rfl, rfl⟩) h.2⟩
    reorderNs := fun w n l hp h => ⟨hb.reorderNs _ _ _ hp h.1, reorderNs _ _ _ hp h.1 h.2⟩
    reorderNsps := fun w l hp h => ⟨hb.reorderNsps _ _ hp h.1, reorderNsps _ _ hp h.1 h.2⟩ }

/-- The same with joining and leaving rooms. -/
theorem blocks_with {cfg : Cfg} {L : Nat ⊕ Nat → Room → Prop} {T : Nat → Prop} {B P : W → Prop}
    (hb : Blocks cfg (fun _ _ => True) (fun _ => True) fun w w' => (B w → B w'))
    (hu : ∀ w c, B w → B (unlisten w c))
    (packet : ∀ w c ref x, B w → P w → P (clientPacket w c ref x))
    (join : ∀ w ref rooms, (ref < w.nSock ∨ ∃ n sid, (w.nss n).sockets.get? sid = some ref) → B w → P w →
      P (join w ref rooms))
    (leave : ∀ w ref room, (L (.inl ref) room ∨ ∃ n sid, (w.nss n).sockets.get? sid = some ref ∧ L (.inr n) room) → B w → P w →
      P (leave cfg w ref room))
    (sess : ∀ w n (f : Ns → Session.St), B w → P w → P (setNs w n fun k => { k with sess := f k }))
    (onclose : ∀ w ref reason, B w → P w → P (onclose cfg w ref reason))
    (client : ∀ w c (f : Client → Client), (∀ k : Client, (f k).nsps = k.nsps ∧ (f k).proto3 = k.proto3) → P w → P (setClient w c f))
    (reorderNs : ∀ w n l, l.Perm (w.nss n).sockets → B w → P w → P (setNs w n fun k => { k with sockets := l }))
    (reorderNsps : ∀ w l, l.Perm w.nsps → B w → P w → P { w with nsps := l }) :
    Blocks cfg L T fun w w' => (B w ∧ P w → B w' ∧ P w') :=
  { blocks0_with hb.toBlocks0 hu packet sess onclose client reorderNs reorderNsps with
    join := fun w ref rooms hr h => ⟨hb.join _ _ _ hr h.1, join _ _ _ hr h.1 h.2⟩
    leave := fun w ref room hr h => ⟨hb.leave _ _ _ (.inl trivial) h.1, leave _ _ _ hr h.1 h.2⟩ }

/-! ## The effect of closing one socket on the tables -/

theorem closing_reg (cfg : Cfg) (w : W) (ref : Nat) (reason : String) (n : Nat) :
    ((closing cfg w ref reason).nss n).sockets = (w.nss n).sockets ∧
    ((closing cfg w ref reason).nss n).name = (w.nss n).name := by
  have p : Prim0 fun a b : W => (b.nss n).sockets = (a.nss n).sockets ∧ (b.nss n).name = (a.nss n).name :=
    { refl := fun _ => ⟨rfl, rfl⟩
      trans := fun h1 h2 => ⟨h2.1.trans h1.1, h2.2.trans h1.2⟩
      packet := fun w c ref x => by unfold clientPacket; split <;> exact ⟨rfl, rfl⟩
      ns := fun w m f hf => ⟨upd_proj _ _ _ _ Ns.sockets (hf _).2.2.1, upd_proj _ _ _ _ Ns.name (hf _).1⟩ }
  have h1 := p.foldl (World.act cfg) (p.act cfg) (cfg.hook ref) (obs w (.disconnecting ref reason))
  have h2 (w : W) : ((persist cfg w ref reason).nss n).sockets = (w.nss n).sockets ∧
      ((persist cfg w ref reason).nss n).name = (w.nss n).name := by
    unfold persist; split
    · exact ⟨upd_proj _ _ _ _ Ns.sockets rfl, upd_proj _ _ _ _ Ns.name rfl⟩
    · exact ⟨rfl, rfl⟩
  exact p.trans h1 (h2 _)

theorem clientCleaned_closing (cfg : Cfg) (w : W) (ref : Nat) (reason : String) :
    clientCleaned (closing cfg w ref reason) ref = clientCleaned w ref := by
  unfold clientCleaned
  rw [(closing_socks cfg w ref reason).1, (closing_socks cfg w ref reason).2.1]
  simp only [(closing_reg cfg w ref reason _).2]

theorem onclose_effect (cfg : Cfg) {w : W} {ref : Nat} (reason : String) (hc : (w.socks ref).connected = true) :
    (onclose cfg w ref reason).socks = upd w.socks ref (closed (w.socks ref)) ∧
    (∀ n, ((onclose cfg w ref reason).nss n).sockets =
      if n = (w.socks ref).ns then (w.nss n).sockets.erase (w.socks ref).sid else (w.nss n).sockets) ∧
    (onclose cfg w ref reason).clients = upd w.clients (w.socks ref).client (clientCleaned w ref) := by
  rw [onclose_pos cfg reason hc]
  obtain ⟨f1, f2, f3, _⟩ := shut_fields cfg (closing cfg w ref reason) ref
  simp only [obs]
  refine ⟨?_, fun n => ?_, ?_⟩
  · rw [f2, (closing_socks cfg w ref reason).1]
  · rw [f1, (closing_socks cfg w ref reason).1, upd_apply]
    split
    · rename_i e; subst e
      simp only [nsCleaned, (closing_socks cfg w ref reason).1, (closing_reg cfg w ref reason _).1]
    · exact (closing_reg cfg w ref reason n).1
  · rw [f3, (closing_socks cfg w ref reason).1, (closing_socks cfg w ref reason).2.1, clientCleaned_closing]

/-! ## Clients that no longer listen are not open and have no socket -/

/-- The table has no entry. -/
def Empty (m : FMap String Nat) : Prop := ∀ k, m.get? k = none

def InvC (w : W) : Prop := ∀ c, (w.clients c).listening = false → (w.clients c).conn ≠ .opened ∧ Empty (w.clients c).sockets

/-- The client got no new socket and its connection was not opened. -/
structure Lesser (k k' : Client) : Prop where
  conn : k'.conn = .opened → k.conn = .opened
  listening : k'.listening = k.listening
  sockets : ∀ sid r, k'.sockets.get? sid = some r → k.sockets.get? sid = some r

theorem Lesser.rfl' (k : Client) : Lesser k k := ⟨id, rfl, fun _ _ => id⟩

/-- Each client is lesser than before, or finished. -/
def ClRel (w w' : W) : Prop := ∀ c, Lesser (w.clients c) (w'.clients c) ∨
  ((w'.clients c).listening = false ∧ (w'.clients c).conn ≠ .opened ∧ Empty (w'.clients c).sockets)

theorem ClRel.refl (w : W) : ClRel w w := fun c => .inl (.rfl' _)

theorem ClRel.trans {a b c : W} (h1 : ClRel a b) (h2 : ClRel b c) : ClRel a c := by
  intro k
  rcases h2 k with l2 | d2
  · rcases h1 k with l1 | ⟨d1, d1', d1''⟩
    · exact .inl ⟨fun h => l1.conn (l2.conn h), l2.listening.trans l1.listening, fun s r h => l1.sockets s r (l2.sockets s r h)⟩
    · refine .inr ⟨l2.listening.trans d1, fun h => d1' (l2.conn h), fun s => ?_⟩
      cases hg : (c.clients k).sockets.get? s with
      | none => rfl
      | some r => have := l2.sockets s r hg; rw [d1'' s] at this; simp at this
  · exact .inr d2

theorem ClRel.same {w w' : W} (h : w'.clients = w.clients) : ClRel w w' := fun c => by rw [h]; exact .inl (.rfl' _)

theorem ClRel.set (w : W) (c : Nat) (f : Client → Client) (h : Lesser (w.clients c) (f (w.clients c))) :
    ClRel w (setClient w c f) := by
  intro k; simp only [setClient, upd_apply]; split
  · rename_i e; subst e; exact .inl h
  · exact .inl (.rfl' _)

theorem InvC.rel {w w' : W} (h : InvC w) (r : ClRel w w') : InvC w' := by
  intro c hl
  rcases r c with l | d
  · rw [l.listening] at hl
    obtain ⟨a, b⟩ := h c hl
    refine ⟨fun h => a (l.conn h), fun s => ?_⟩
    cases hg : (w'.clients c).sockets.get? s with
    | none => rfl
    | some r => have := l.sockets s r hg; rw [b s] at this; simp at this
  · exact d.2

theorem lesser_cleaned (w : W) (ref : Nat) : Lesser (w.clients (w.socks ref).client) (clientCleaned w ref) := by
  refine ⟨?_, ?_, fun sid r h => ((clientCleaned_sockets w ref sid r).1 h).1⟩
  · unfold clientCleaned; dsimp only; split <;> exact id
  · unfold clientCleaned; dsimp only; split <;> rfl

/-- Each client is lesser than before. -/
def AllLesser (w w' : W) : Prop := ∀ c, Lesser (w.clients c) (w'.clients c)

theorem AllLesser.rel {w w' : W} (h : AllLesser w w') : ClRel w w' := fun c => .inl (h c)

theorem AllLesser.refl (w : W) : AllLesser w w := fun _ => .rfl' _

theorem AllLesser.trans {a b c : W} (h1 : AllLesser a b) (h2 : AllLesser b c) : AllLesser a c := fun k =>
  ⟨fun h => (h1 k).conn ((h2 k).conn h), (h2 k).listening.trans (h1 k).listening,
    fun s r h => (h1 k).sockets s r ((h2 k).sockets s r h)⟩

theorem AllLesser.same {w w' : W} (h : w'.clients = w.clients) : AllLesser w w' := fun c => by rw [h]; exact .rfl' _

theorem allLesser_onclose (cfg : Cfg) (w : W) (ref : Nat) (reason : String) :
    AllLesser w (onclose cfg w ref reason) := by
  by_cases hc : (w.socks ref).connected = true
  · intro c
    rw [(onclose_effect cfg reason hc).2.2, upd_apply]; split
    · rename_i e; subst e; exact lesser_cleaned w ref
    · exact .rfl' _
  · rw [onclose_neg cfg reason hc]; exact .refl w

theorem allLesser_packet (w : W) (c : Nat) (ref : Option Nat) (x : Pkt) : AllLesser w (clientPacket w c ref x) := by
  unfold clientPacket; split <;> exact .same rfl

theorem allLesser_disconnectNs (cfg : Cfg) (w : W) (ref : Nat) : AllLesser w (disconnectNs cfg w ref) := by
  unfold disconnectNs; split
  · exact (allLesser_packet _ _ _ _).trans (allLesser_onclose _ _ _ _)
  · exact .refl w

theorem allLesser_loop (c : Nat) (body : W → Nat → W) (hb : ∀ w r, AllLesser w (body w r)) (l : List Sid) (w : W) :
    AllLesser w (l.foldl (eachSocket c body) w) := by
  induction l generalizing w with
  | nil => exact .refl w
  | cons a l ih =>
    rw [List.foldl_cons]
    refine AllLesser.trans ?_ (ih _)
    unfold eachSocket; split
    · exact hb _ _
    · exact .refl w

theorem blocks_clRel (cfg : Cfg) : Blocks cfg (fun _ _ => True) (fun _ => True) fun w w' => (InvS w → InvS w' ∧ ClRel w w') where
  refl w h := ⟨h, .refl w⟩
  trans h1 h2 h := ⟨(h2 (h1 h).1).1, (h1 h).2.trans (h2 (h1 h).1).2⟩
  packet w c ref x h := ⟨invS_clientPacket h _ _ _, (allLesser_packet _ _ _ _).rel⟩
  join w ref rooms hr h := by
    refine ⟨invS_join h ?_ rooms, ?_⟩
    · rcases hr with hr | ⟨n, sid, hg⟩
      · exact hr
      · exact h.conn _ (h.reg _ _ _ hg).2.2
    · unfold join; split
      · exact .same rfl
      · exact .refl w
  leave w ref room _ h := ⟨invS_leave h _ _ _, .same rfl⟩
  sess w n f h := ⟨invS_sess h _ _, .same rfl⟩
  onclose w ref reason h := ⟨invS_onclose h _ _ _, (allLesser_onclose _ _ _ _).rel⟩
  clientOnclose w c reason hc h := by
    refine ⟨invS_clientOnclose h _ _ _, fun d => ?_⟩
    have hl := allLesser_loop c (fun w ref => onclose cfg w ref reason) (fun w r => allLesser_onclose cfg w r reason)
      ((unlisten w c).clients c).sockets.keys (unlisten w c) d
    rw [clientOnclose_eq]
    have h1 : ((unlisten w c).clients c).listening = false := by simp [unlisten, setClient]
    have h2 : ((unlisten w c).clients c).conn = (w.clients c).conn := by simp [unlisten, setClient]
    have h3 (e : d ≠ c) : (unlisten w c).clients d = w.clients d := by simp only [unlisten, setClient, upd_ne _ _ e]
    rw [← closeLoop] at hl
    generalize closeLoop cfg w c reason = v at hl
    by_cases e : d = c
    · subst e; right
      simp only [setClient, upd_same]
      exact ⟨hl.listening.trans h1, fun ho => hc (h2 ▸ hl.conn ho), fun s => rfl⟩
    · left
      rw [h3 e] at hl
      simp only [setClient, upd_ne _ _ e]
      exact hl
  conn w c x hx h := ⟨invS_client h c _ (.inl rfl) rfl fun h => ⟨rfl, h⟩, .set _ _ _ ⟨fun h => absurd h hx, rfl, fun _ _ => id⟩⟩
  timer w c hc h := ⟨invS_client h c _ (.inl rfl) rfl (by simp), .set _ _ _ ⟨id, rfl, fun _ _ => id⟩⟩
  drop w c h := by
    refine ⟨invS_client (foldl_pres (P := InvS) (invS_eachSocket c fun w r h => invS_disconnectNs h cfg r) _ h)
      c _ (.inr rfl) rfl fun h => ⟨rfl, h⟩, ?_⟩
    exact (allLesser_loop c _ (allLesser_disconnectNs cfg) _ _).rel.trans
      (.set _ _ _ ⟨id, rfl, fun _ _ h => by simp at h⟩)
  reorderClient w c l hp h := by
    have hwf : l.WF := by
      have := h.clWf c; unfold FMap.WF FMap.keys at *; exact (hp.map _).nodup_iff.2 this
    have hg (sid : Sid) (r : Nat) (hg : l.get? sid = some r) : (w.clients c).sockets.get? sid = some r :=
      (FMap.get?_perm hwf hp sid).symm.trans hg
    exact ⟨invS_setClient h c _ hwf (fun sid r hg' => h.cl c sid r (hg sid r hg')) (h.clNs c) (h.timer c),
      .set _ _ _ ⟨id, rfl, hg⟩⟩
  reorderNs w n l hp h := ⟨invS_reg_perm h n l hp, .same rfl⟩
  reorderNsps w l hp h := by
    have hwf : l.WF := by
      have := h.nspsWf; unfold FMap.WF FMap.keys at *; exact (hp.map _).nodup_iff.2 this
    exact ⟨⟨h.sock, h.conn, h.ad, h.nsWf, h.reg, h.live, h.clWf, h.cl, h.clNs, h.timer,
      fun name n hg => h.names name n ((FMap.get?_perm hwf hp name).symm.trans hg), hwf⟩, .same rfl⟩

/-! ## Every connected socket is registered -/

/-- Every connected socket is in its client's and its namespace's tables, and a client's table of namespaces only
names connected sockets. -/
structure Full (w : W) : Prop where
  cl : ∀ r, (w.socks r).connected = true → (w.clients (w.socks r).client).sockets.get? (w.socks r).sid = some r
  ns : ∀ r, (w.socks r).connected = true → (w.nss (w.socks r).ns).sockets.get? (w.socks r).sid = some r
  cns : ∀ c name r, (w.clients c).nsps.get? name = some r → (w.socks r).connected = true

def Joined (w : W) : Prop := ∀ r, (w.socks r).connected = true → (w.socks r).canJoin = true

structure Good (w : W) : Prop where
  s : InvS w
  f : Full w
  t : NoTwins w
  j : Joined w

theorem noTwins_calm {w w' : W} (h : NoTwins w) (c : Calm w w') : NoTwins w' := by
  have ho : ∀ r, IsOpen w' r → IsOpen w r := by
    intro r ⟨a, b⟩
    refine ⟨by rw [← c.nSock]; exact a, ?_⟩
    rcases c.socks r with e | ⟨_, e⟩
    · rw [← e]; exact b
    · rw [e] at b; simp [closed] at b
  intro r r' h1 h2 e
  rw [c.sid, c.sid] at e
  exact h r r' (ho r h1) (ho r' h2) e

theorem joined_calm {w w' : W} (h : Joined w) (c : Calm w w') : Joined w' := by
  intro r hc
  rcases c.socks r with e | ⟨_, e⟩
  · rw [e] at hc ⊢; exact h r hc
  · rw [e] at hc; simp [closed] at hc

theorem full_of_same {w w' : W} (h : Full w) (h1 : w'.socks = w.socks) (h2 : w'.clients = w.clients)
    (h3 : ∀ n, (w'.nss n).sockets = (w.nss n).sockets) : Full w' :=
  ⟨by rw [h1, h2]; exact h.cl, by intro r; rw [h1, h3]; exact h.ns r, by rw [h1, h2]; exact h.cns⟩

/-- In a good state, closing a socket does not touch the others. -/
theorem Good.sid_ne {w : W} (h : Good w) {r ref : Nat} (hr : (w.socks r).connected = true) (hn : r ≠ ref)
    (ho : IsOpen w ref) : (w.socks r).sid ≠ (w.socks ref).sid := fun e =>
  hn (h.t r ref ⟨h.s.conn r hr, h.j r hr⟩ ho e)

theorem clientCleaned_nsps' {w : W} {ref : Nat} (hg : (w.clients (w.socks ref).client).sockets.get? (w.socks ref).sid = some ref)
    (name : String) : (clientCleaned w ref).nsps.get? name =
      if (w.nss (w.socks ref).ns).name = name then none else (w.clients (w.socks ref).client).nsps.get? name := by
  unfold clientCleaned; simp only [hg]; rw [FMap.get?_erase]

theorem clientCleaned_get (w : W) (ref : Nat) (sid : Sid) : (clientCleaned w ref).sockets.get? sid =
    if sid = (w.socks ref).sid then none else (w.clients (w.socks ref).client).sockets.get? sid := by
  have h := clientCleaned_sockets w ref sid
  cases hg : (clientCleaned w ref).sockets.get? sid with
  | none =>
    split
    · rfl
    · rename_i hne
      cases hg' : (w.clients (w.socks ref).client).sockets.get? sid with
      | none => rfl
      | some r => have := (h r).2 ⟨hg', hne⟩; rw [hg] at this; simp at this
  | some r =>
    obtain ⟨a, b⟩ := (h r).1 hg
    rw [if_neg b, a]

theorem full_onclose {w : W} (h : Good w) (cfg : Cfg) (ref : Nat) (reason : String) :
    Full (onclose cfg w ref reason) := by
  by_cases hc : (w.socks ref).connected = true
  · obtain ⟨h1, h2, h3⟩ := onclose_effect cfg reason hc
    have ho : IsOpen w ref := ⟨h.s.conn _ hc, h.j _ hc⟩
    have hcn (r : Nat) (hr : ((onclose cfg w ref reason).socks r).connected = true) :
        r ≠ ref ∧ (onclose cfg w ref reason).socks r = w.socks r ∧ (w.socks r).connected = true := by
      rw [h1] at hr ⊢
      by_cases e : r = ref
      · subst e; simp [closed] at hr
      · rw [upd_ne _ _ e] at hr ⊢; exact ⟨e, rfl, hr⟩
    refine ⟨fun r hr => ?_, fun r hr => ?_, fun c name r hg => ?_⟩
    · obtain ⟨a, b, d⟩ := hcn r hr
      rw [b, h3, upd_apply]; split
      · rename_i e
        rw [clientCleaned_get, if_neg (h.sid_ne d a ho), ← e]; exact h.f.cl r d
      · exact h.f.cl r d
    · obtain ⟨a, b, d⟩ := hcn r hr
      rw [b, h2]; split
      · rw [FMap.get?_erase_ne (h.sid_ne d a ho).symm]; exact h.f.ns r d
      · exact h.f.ns r d
    · have key : (w.clients c).nsps.get? name = some r ∧ r ≠ ref := by
        rw [h3, upd_apply] at hg; split at hg
        · rename_i e
          rw [clientCleaned_nsps' (h.f.cl ref hc)] at hg
          split at hg
          · simp at hg
          · rename_i hne
            rw [← e] at hg
            refine ⟨hg, ?_⟩
            rintro rfl; exact hne (h.s.clNs _ _ _ hg).2.2
        · rename_i e
          exact ⟨hg, by rintro rfl; exact e (h.s.clNs _ _ _ hg).2.1.symm⟩
      rw [h1, upd_ne _ _ key.2]; exact h.f.cns c name r key.1
  · rw [onclose_neg cfg reason hc]; exact h.f

theorem good_onclose {w : W} (h : Good w) (cfg : Cfg) (ref : Nat) (reason : String) : Good (onclose cfg w ref reason) :=
  ⟨invS_onclose h.s _ _ _, full_onclose h _ _ _, noTwins_calm h.t (calm_onclose _ _ _ _), joined_calm h.j (calm_onclose _ _ _ _)⟩

theorem good_packet {w : W} (h : Good w) (c : Nat) (ref : Option Nat) (x : Pkt) : Good (clientPacket w c ref x) := by
  refine ⟨invS_clientPacket h.s _ _ _, ?_, noTwins_calm h.t (calm_clientPacket _ _ _ _), joined_calm h.j (calm_clientPacket _ _ _ _)⟩
  unfold clientPacket; split
  · exact full_of_same h.f rfl rfl fun _ => rfl
  · exact h.f

theorem good_disconnectNs {w : W} (h : Good w) (cfg : Cfg) (ref : Nat) : Good (disconnectNs cfg w ref) := by
  unfold disconnectNs; split
  · exact good_onclose (good_packet h _ _ _) _ _ _
  · exact h

/-- After the loop over the keys, nothing is left under them. -/
theorem loop_removes (c : Nat) (body : W → Nat → W) (hb : ∀ w r, Good w → Good (body w r))
    (hl : ∀ w r, AllLesser w (body w r))
    (hr : ∀ w sid r, Good w → (w.clients c).sockets.get? sid = some r → ((body w r).clients c).sockets.get? sid = none)
    (l : List Sid) (w : W) (h : Good w) :
    Good (l.foldl (eachSocket c body) w) ∧ ∀ sid ∈ l, ((l.foldl (eachSocket c body) w).clients c).sockets.get? sid = none := by
  induction l generalizing w with
  | nil => exact ⟨h, fun _ hm => by simp at hm⟩
  | cons a l ih =>
    rw [List.foldl_cons]
    have h1 : Good (eachSocket c body w a) ∧ ((eachSocket c body w a).clients c).sockets.get? a = none := by
      unfold eachSocket; split
      · rename_i r hg; exact ⟨hb _ _ h, hr _ _ _ h hg⟩
      · rename_i hg; exact ⟨h, hg⟩
    obtain ⟨h2, h3⟩ := ih _ h1.1
    refine ⟨h2, fun sid hm => ?_⟩
    rcases List.mem_cons.1 hm with rfl | hm
    · cases hg : ((l.foldl (eachSocket c body) (eachSocket c body w sid)).clients c).sockets.get? sid with
      | none => rfl
      | some r =>
        have := (allLesser_loop c body hl l (eachSocket c body w sid) c).sockets sid r hg
        rw [h1.2] at this; simp at this
    · exact h3 sid hm

theorem onclose_removes {w : W} (h : Good w) (cfg : Cfg) (reason : String) (c : Nat) (sid : Sid) (r : Nat)
    (hg : (w.clients c).sockets.get? sid = some r) :
    ((onclose cfg w r reason).clients c).sockets.get? sid = none := by
  obtain ⟨a, b, d⟩ := h.s.cl c sid r hg
  rw [(onclose_effect cfg reason d).2.2, a, upd_same, clientCleaned_get, b, if_pos rfl]

theorem disconnectNs_removes {w : W} (h : Good w) (cfg : Cfg) (c : Nat) (sid : Sid) (r : Nat)
    (hg : (w.clients c).sockets.get? sid = some r) :
    ((disconnectNs cfg w r).clients c).sockets.get? sid = none := by
  unfold disconnectNs; split
  · refine onclose_removes (good_packet h _ _ _) cfg _ c sid r ?_
    unfold clientPacket; split <;> exact hg
  · rename_i hn; exact absurd (h.s.cl c sid r hg).2.2 hn

/-- A loop over the whole table of a client leaves it without sockets and namespaces. -/
theorem loop_empties (c : Nat) (body : W → Nat → W) (hb : ∀ w r, Good w → Good (body w r))
    (hl : ∀ w r, AllLesser w (body w r))
    (hr : ∀ w sid r, Good w → (w.clients c).sockets.get? sid = some r → ((body w r).clients c).sockets.get? sid = none)
    (w : W) (h : Good w) :
    let w' := (w.clients c).sockets.keys.foldl (eachSocket c body) w
    Good w' ∧ Empty (w'.clients c).sockets ∧ Empty (w'.clients c).nsps ∧
      ∀ r, (w'.socks r).client = c → (w'.socks r).connected = false := by
  intro w'
  obtain ⟨h1, h2⟩ := loop_removes c body hb hl hr (w.clients c).sockets.keys w h
  have he : Empty (w'.clients c).sockets := by
    intro sid
    cases hg : (w'.clients c).sockets.get? sid with
    | none => rfl
    | some r =>
      have hg0 := (allLesser_loop c body hl (w.clients c).sockets.keys w c).sockets sid r hg
      have := h2 sid ((FMap.mem_keys_iff _ _).2 ⟨r, hg0⟩)
      exact absurd (hg.symm.trans this) (by simp)
  have hno : ∀ r, (w'.socks r).client = c → (w'.socks r).connected = false := by
    intro r hc
    cases hcn : (w'.socks r).connected with
    | false => rfl
    | true =>
      have := h1.f.cl r hcn
      have e : (w'.clients (w'.socks r).client).sockets.get? (w'.socks r).sid = none := by rw [hc]; exact he _
      exact absurd (this.symm.trans e) (by simp)
  refine ⟨h1, he, fun name => ?_, hno⟩
  cases hg : (w'.clients c).nsps.get? name with
  | none => rfl
  | some r =>
    have h3 := h1.f.cns c name r hg
    have h4 := hno r (h1.s.clNs c name r hg).2.1
    exact absurd (h3.symm.trans h4) (by simp)

theorem full_client {w : W} (h : Full w) (c : Nat) (f : Client → Client)
    (h1 : ∀ sid, (f (w.clients c)).sockets.get? sid = (w.clients c).sockets.get? sid)
    (h2 : (f (w.clients c)).nsps = (w.clients c).nsps) : Full (setClient w c f) := by
  have e1 (k : Nat) (sid : Sid) : ((setClient w c f).clients k).sockets.get? sid = (w.clients k).sockets.get? sid := by
    simp only [setClient, upd_apply]; split
    · rename_i e; subst e; exact h1 sid
    · rfl
  have e2 (k : Nat) : ((setClient w c f).clients k).nsps = (w.clients k).nsps := upd_proj _ _ _ _ Client.nsps h2
  exact ⟨fun r hr => (e1 _ _).trans (h.cl r hr), h.ns, fun k name r hg => h.cns k name r (by rw [← e2 k]; exact hg)⟩

theorem good_client {w : W} (h : Good w) (c : Nat) (f : Client → Client)
    (h0 : (f (w.clients c)).proto3 = (w.clients c).proto3)
    (h1 : (f (w.clients c)).sockets = (w.clients c).sockets)
    (h2 : (f (w.clients c)).nsps = (w.clients c).nsps)
    (h3 : (f (w.clients c)).timer = true → (f (w.clients c)).listening = (w.clients c).listening ∧ (w.clients c).timer = true) :
    Good (setClient w c f) :=
  ⟨invS_client h.s c f (.inl h1) h2 h3, full_client h.f c f (fun _ => by rw [h1]) h2, noTwins_calm h.t (calm_setClient _ _ _ h0),
    joined_calm h.j (calm_setClient _ _ _ h0)⟩

theorem good_empty {w : W} (h : Good w) (c : Nat) (he : Empty (w.clients c).sockets) :
    Good (setClient w c fun k => { k with sockets := [] }) :=
  ⟨invS_client h.s c _ (.inr rfl) rfl fun h => ⟨rfl, h⟩, full_client h.f c _ (fun sid => (he sid).symm) rfl,
    noTwins_calm h.t (calm_setClient _ _ _ rfl), joined_calm h.j (calm_setClient _ _ _ rfl)⟩

theorem good_unlisten {w : W} (h : Good w) (c : Nat) : Good (unlisten w c) :=
  good_client h c _ rfl rfl rfl (by simp)

/-- `Client.onclose`: no socket and no namespace entry is left. -/
theorem good_clientOnclose {w : W} (h : Good w) (cfg : Cfg) (c : Nat) (reason : String) :
    Good (clientOnclose cfg w c reason) ∧ Empty ((clientOnclose cfg w c reason).clients c).sockets ∧
      Empty ((clientOnclose cfg w c reason).clients c).nsps ∧
      ∀ r, ((clientOnclose cfg w c reason).socks r).client = c → ((clientOnclose cfg w c reason).socks r).connected = false := by
  obtain ⟨h1, h2, h3, h4⟩ := loop_empties c (fun w ref => onclose cfg w ref reason) (fun w r h => good_onclose h _ _ _)
    (fun w r => allLesser_onclose _ _ _ _) (fun w sid r h hg => onclose_removes h cfg reason c sid r hg)
    (unlisten w c) (good_unlisten h c)
  rw [clientOnclose_eq]
  rw [← closeLoop] at h1 h2 h3 h4
  refine ⟨good_empty h1 c h2, ?_, ?_, h4⟩
  · simp only [setClient, upd_same]; intro k; rfl
  · simp only [setClient, upd_same]; exact h3

theorem good_drop {w : W} (h : Good w) (cfg : Cfg) (c : Nat) :
    Good (setClient ((w.clients c).sockets.keys.foldl (eachSocket c (disconnectNs cfg)) w) c
      fun k => { k with sockets := [] }) := by
  obtain ⟨h1, h2, h3, h4⟩ := loop_empties c (disconnectNs cfg) (fun w r h => good_disconnectNs h _ _)
    (fun w r => allLesser_disconnectNs _ _ _) (fun w sid r h hg => disconnectNs_removes h cfg c sid r hg) w h
  exact good_empty h1 c h2

theorem blocks_good (cfg : Cfg) : Blocks cfg (fun _ _ => True) (fun _ => True) fun w w' => (Good w → Good w') where
  refl w h := h
  trans h1 h2 h := h2 (h1 h)
  packet w c ref x h := good_packet h _ _ _
  join w ref rooms hr h := by
    have cm := calm_join w ref rooms
    refine ⟨((blocks_clRel cfg).join w ref rooms hr h.s).1, ?_, noTwins_calm h.t cm, joined_calm h.j cm⟩
    unfold join; split
    · exact full_of_same h.f rfl rfl fun _ => upd_proj _ _ _ _ Ns.sockets rfl
    · exact h.f
  leave w ref room _ h :=
    ⟨invS_leave h.s _ _ _, full_of_same h.f rfl rfl fun _ => upd_proj _ _ _ _ Ns.sockets rfl,
      noTwins_calm h.t (calm_leave _ _ _ _), joined_calm h.j (calm_leave _ _ _ _)⟩
  sess w n f h :=
    ⟨invS_sess h.s _ _, full_of_same h.f rfl rfl fun _ => upd_proj _ _ _ _ Ns.sockets rfl,
      noTwins_calm h.t (calm_setNs _ _ _ rfl rfl), joined_calm h.j (calm_setNs _ _ _ rfl rfl)⟩
  onclose w ref reason h := good_onclose h _ _ _
  clientOnclose w c reason _ h := (good_clientOnclose h _ _ _).1
  conn w c x _ h := good_client h c _ rfl rfl rfl fun h => ⟨rfl, h⟩
  timer w c hc h := good_client h c _ rfl rfl rfl (by simp)
  drop w c h := good_drop h cfg c
  reorderClient w c l hp h := by
    have hi := ((blocks_clRel cfg).reorderClient w c l hp h.s).1
    refine ⟨hi, full_client h.f c _ (fun sid => ?_) rfl, noTwins_calm h.t (calm_setClient _ _ _ rfl), joined_calm h.j (calm_setClient _ _ _ rfl)⟩
    have hwf := hi.clWf c
    simp only [setClient, upd_same] at hwf
    exact FMap.get?_perm hwf hp sid
  reorderNs w n l hp h := by
    have hi := ((blocks_clRel cfg).reorderNs w n l hp h.s).1
    have hwf := hi.nsWf n
    simp only [setNs, upd_same] at hwf
    refine ⟨hi, ⟨h.f.cl, fun r hr => ?_, h.f.cns⟩, noTwins_calm h.t (calm_setNs _ _ _ rfl rfl), joined_calm h.j (calm_setNs _ _ _ rfl rfl)⟩
    have := h.f.ns r hr
    simp only [setNs, upd_apply]; split
    · rename_i e; subst e; exact (FMap.get?_perm hwf hp _).trans this
    · exact this
  reorderNsps w l hp h :=
    ⟨((blocks_clRel cfg).reorderNsps w l hp h.s).1, full_of_same h.f rfl rfl fun _ => rfl, noTwins_calm h.t (calm_nsps _ _),
      joined_calm h.j (calm_nsps _ _)⟩

theorem blocks_invS (cfg : Cfg) : Blocks cfg (fun _ _ => True) (fun _ => True) fun w w' => (InvS w → InvS w') where
  refl _ h := h
  trans h1 h2 h := h2 (h1 h)
  packet w c ref x h := ((blocks_clRel cfg).packet w c ref x h).1
  join w ref rooms hr h := ((blocks_clRel cfg).join w ref rooms hr h).1
  leave w ref room hr h := ((blocks_clRel cfg).leave w ref room hr h).1
  sess w n f h := ((blocks_clRel cfg).sess w n f h).1
  onclose w ref reason h := ((blocks_clRel cfg).onclose w ref reason h).1
  clientOnclose w c reason hc h := ((blocks_clRel cfg).clientOnclose w c reason hc h).1
  conn w c x hx h := ((blocks_clRel cfg).conn w c x hx h).1
  timer w c hc h := ((blocks_clRel cfg).timer w c hc h).1
  drop w c h := ((blocks_clRel cfg).drop w c h).1
  reorderClient w c l hp h := ((blocks_clRel cfg).reorderClient w c l hp h).1
  reorderNs w n l hp h := ((blocks_clRel cfg).reorderNs w n l hp h).1
  reorderNsps w l hp h := ((blocks_clRel cfg).reorderNsps w l hp h).1

theorem invS_unlisten {w : W} (h : InvS w) (c : Nat) : InvS (unlisten w c) :=
  invS_client h c _ (.inl rfl) rfl (by simp)

/-! ## Connections that are closed have no socket -/

theorem invC_step {w : W} (h : InvC w) (hs : InvS w) (cfg : Cfg) (e : Ev) : InvC (step cfg w e) := by
  by_cases he : e.calm = true
  · exact h.rel ((blocks_clRel cfg).step w e he (fun _ _ => trivial) (fun _ _ => trivial) hs).2
  · have hcreate (w : W) (n c : Nat) (auth : Option (Session.Pid × String)) :
        (createSocket cfg w n c auth).clients = w.clients := by
      obtain ⟨s, h1, -⟩ := createSocket_rel cfg (R := fun a b => b.clients = a.clients)
        ⟨fun _ => rfl, fun h1 h2 => h2.trans h1, fun w c ref x => by unfold clientPacket; split <;> rfl, fun _ _ _ _ => rfl⟩ w n c auth
      exact h1
    have hdo (w : W) (h : InvC w) (ref : Nat) (ho : (w.clients (w.socks ref).client).conn = .opened) :
        InvC (doConnect w ref) := by
      intro c
      rw [(doConnect_fields w ref).2.2.1, upd_apply]; split
      · rename_i e; subst e
        intro hl; exact absurd ho (h _ hl).1
      · exact h c
    have hadd (w : W) (h : InvC w) (n c : Nat) (auth : Option (Session.Pid × String)) : InvC (add cfg w n c auth) := by
      have h1 : InvC (createSocket cfg w n c auth) := by intro d; rw [hcreate]; exact h d
      unfold add; dsimp only; split
      · rename_i hc
        refine hdo _ h1 _ ?_
        obtain ⟨s, cm, -, s2, s3, -⟩ := createSocket_alloc cfg w n c auth
        have : ((createSocket cfg w n c auth).socks w.nSock).client = c := by
          rw [cm.client]; simp [alloc, s2]
        rw [this]; exact hc.2.2
      · split <;> exact h1
    have hconn (w : W) (h : InvC w) (c : Nat) (name : String) (auth : Option (Session.Pid × String)) :
        InvC (connect cfg w c name auth) := by
      unfold connect; split
      · exact hadd _ h _ _ _
      · split
        · exact hadd _ (by exact h) _ _ _
        · exact h.rel (allLesser_packet _ _ _ _).rel
    have hclean (w : W) (h : InvC w) (ref : Nat) : InvC (cleanup cfg w ref) := by
      intro c; rw [(cleanup_fields cfg w ref).2.2.1]; exact h c
    cases e <;> simp only [Ev.calm, not_true_eq_false] at he <;> simp only [step]
    case accept p =>
      have h1 : InvC { w with
          clients := upd w.clients w.nClient { proto3 := p, conn := .opened, timer := true, listening := true }
          nClient := w.nClient + 1 } := by
        intro c; simp only [upd_apply]; split
        · intro h; simp at h
        · exact h c
      unfold accept; dsimp only; split
      · exact hconn _ h1 _ _ _
      · exact h1
    case recv c type name auth =>
      split
      · have hcl := h.rel ((blocks_clRel cfg).clientClose w c hs).2
        unfold ondecoded; split
        · split
          · exact hconn _ h _ _ _
          · exact hcl
        · split
          · exact h
          · exact hcl
      · exact h
    case task k =>
      split
      · rename_i t ht
        have h1 : InvC { w with tasks := w.tasks.eraseIdx k } := h
        have s1 : InvS { w with tasks := w.tasks.eraseIdx k } := invS_tasks hs _
        generalize { w with tasks := w.tasks.eraseIdx k } = v at h1 s1
        cases t with
        | result ref err =>
          simp only [runTask, result]; split
          · exact hclean _ h1 _
          · rename_i ho
            split
            · exact (hclean _ h1 _).rel (allLesser_packet _ _ _ _).rel
            · exact hdo _ h1 _ (by simpa using ho)
        | packet ref type =>
          simp only [runTask, onpacket]; split
          · exact h1.rel (allLesser_onclose _ _ _ _).rel
          · exact h1
      · exact h
    case next k i err =>
      unfold next; split
      · exact h
      · split
        · dsimp only; split <;> exact h
        · exact h
    case «of» name => split <;> exact h
    case use n => split <;> exact h
    case setData ref v => split <;> exact h
    case clock t => exact h

theorem invC_run (cfg : Cfg) (h : List Ev) : InvC (run cfg h) := by
  induction h using snocRec with
  | nil => intro c _; exact ⟨by simp [run, init, newNs], fun _ => rfl⟩
  | append_singleton h e ih => rw [run_snoc]; exact invC_step ih (inv_run cfg h).1 cfg e

/-! ## Steps that create something -/

/-- A condition that may be assumed before a step if it holds before and after the whole event. -/
class Stable (T : W → Prop) : Prop where
  tasks : ∀ w t, T w → T { w with tasks := t }
  doConnect : ∀ w ref, T (doConnect w ref) → T w

instance : Stable fun _ => True := ⟨fun _ _ _ => trivial, fun _ _ _ => trivial⟩

/-- What has to be shown of an invariant for the steps that create something, with `T` at those steps. -/
structure Grow (cfg : Cfg) (T P : W → Prop) : Prop where
  inert : ∀ w t ch now, P w → P { w with tasks := t, chains := ch, now := now }
  use : ∀ w n, P w → P (setNs w n fun k => { k with fns := k.fns + 1 })
  data : ∀ w ref v, P w → P (setSock w ref fun s => { s with data := some v })
  newNs : ∀ w s, s.ad = {} → s.sockets = [] → s.sess = {} → w.nsps.get? s.name = none → InvS w → P w → P (newNs w s)
  newClient : ∀ w p, InvS w → P w → P { w with
    clients := upd w.clients w.nClient { proto3 := p, conn := .opened, timer := true, listening := true }
    nClient := w.nClient + 1 }
  create : ∀ w n c auth, n < w.nNs → c < w.nClient → InvS w → P w → P (createSocket cfg w n c auth)
  doConnect : ∀ w ref, ref < w.nSock → (w.clients (w.socks ref).client).conn = .opened → (w.socks ref).connected = false →
    (w.socks ref).canJoin = true → InvS w → T w → P w → P (doConnect w ref)
  cleanup : ∀ w ref, ref < w.nSock → (w.socks ref).connected = false →
    (w.socks ref).canJoin = true → InvS w → T w → P w → P (cleanup cfg w ref)
  packet : ∀ w c ref x, x.type = .connectError → InvS w → P w → P (clientPacket w c ref x)
  received : ∀ w ref type, P w → P (obs w (.received ref type))

theorem createSocket_self (cfg : Cfg) (w : W) (n c : Nat) (auth : Option (Session.Pid × String)) :
    ((createSocket cfg w n c auth).socks w.nSock).ns = n ∧ ((createSocket cfg w n c auth).socks w.nSock).client = c ∧
    ((createSocket cfg w n c auth).socks w.nSock).connected = false ∧
    ((createSocket cfg w n c auth).socks w.nSock).canJoin = true ∧
    ∀ r, r < w.nSock → (createSocket cfg w n c auth).socks r = w.socks r := by
  have p : Prim0 fun a b : W => b.socks = a.socks :=
    ⟨fun _ => rfl, fun h1 h2 => h2.trans h1, fun w c ref x => by unfold clientPacket; split <;> rfl, fun _ _ _ _ => rfl⟩
  obtain ⟨s, h1, -, s1, s2, s3, s4⟩ := createSocket_rel cfg p w n c auth
  rw [h1]; simp only [alloc, upd_same]
  exact ⟨s1, s2, s3, s4, fun r hr => upd_ne _ _ (Nat.ne_of_lt hr)⟩

theorem noTwins_doConnect {w : W} {ref : Nat} (h : NoTwins (doConnect w ref)) : NoTwins w := by
  obtain ⟨-, d2, -, -, d5, -⟩ := doConnect_fields w ref
  have hp {β : Type} (p : Sock → β) (hp : p { w.socks ref with connected := true } = p (w.socks ref)) (r : Nat) :
      p ((doConnect w ref).socks r) = p (w.socks r) := by rw [d2]; exact upd_proj _ _ _ _ p hp
  intro r r' h1 h2 e
  refine h r r' ⟨by rw [d5]; exact h1.1, by rw [hp Sock.canJoin rfl]; exact h1.2⟩
    ⟨by rw [d5]; exact h2.1, by rw [hp Sock.canJoin rfl]; exact h2.2⟩ ?_
  rw [hp Sock.sid rfl, hp Sock.sid rfl]; exact e

instance : Stable NoTwins := ⟨fun _ _ h => h, fun _ _ => noTwins_doConnect⟩

theorem Grow.add {cfg : Cfg} {T P : W → Prop} [Stable T] (g : Grow cfg T P) {w : W} (hs : InvS w) (n c : Nat) (hn : n < w.nNs)
    (hc : c < w.nClient) (auth : Option (Session.Pid × String)) (ht : T (add cfg w n c auth)) (hP : P w) :
    P (add cfg w n c auth) := by
  have h1 := g.create w n c auth hn hc hs hP
  have s1 := invS_createSocket hs cfg n c hn hc auth
  obtain ⟨e1, e2, e3, e4, -⟩ := createSocket_self cfg w n c auth
  have hnew := createSocket_nSock cfg w n c auth
  unfold World.add at ht ⊢; dsimp only at ht ⊢; split
  · rename_i hc'
    rw [if_pos hc'] at ht
    exact g.doConnect _ _ (by omega) (by rw [e2]; exact hc'.2.2) e3 e4 s1 (Stable.doConnect _ _ ht) h1
  · split
    · exact g.inert _ _ _ _ h1
    · exact g.inert _ _ _ _ h1

theorem Grow.connect {cfg : Cfg} {T P : W → Prop} [Stable T] (g : Grow cfg T P) {w : W} (hs : InvS w) (c : Nat)
    (hc : c < w.nClient) (name : String) (auth : Option (Session.Pid × String)) (ht : T (connect cfg w c name auth))
    (hP : P w) : P (connect cfg w c name auth) := by
  unfold World.connect at ht ⊢; split
  · rename_i n hn
    simp only [hn] at ht
    exact g.add hs _ _ (hs.names _ _ hn).1 hc _ ht hP
  · rename_i hn
    simp only [hn] at ht
    split
    · rename_i ha
      rw [if_pos ha] at ht
      exact g.add (w := World.newNs w { name := name, fns := cfg.childFns, auto := cfg.autoClean })
        (invS_newNs hs _ rfl rfl) _ _ (Nat.lt_succ_self _) hc _ ht (g.newNs _ _ rfl rfl rfl hn hs hP)
    · exact g.packet _ _ _ _ rfl hs hP

/-- An invariant kept by the building blocks and by the steps that create something, if it is kept when the middlewares have decided. -/
theorem Grow.step_of {cfg : Cfg} {T P : W → Prop} [Stable T] (g : Grow cfg T P) {w : W} (hs : InvS w)
    (hres : ∀ tasks ref err, .result ref err ∈ w.tasks → P { w with tasks := tasks } → P (result cfg { w with tasks := tasks } ref err)) (e : Ev) (he : ¬ e.calm = true)
    (hn' : T (step cfg w e))
    (hclose : ∀ c, P w → P (clientClose cfg w c))
    (honclose : ∀ v ref reason, (v.tasks.Sublist w.tasks ∧ .packet ref .disconnect ∈ w.tasks) ∧ reason = "client namespace disconnect" → { v with tasks := w.tasks } = w → P v → P (onclose cfg v ref reason))
    (hP : P w) : P (step cfg w e) := by
  cases e <;> simp only [Ev.calm, not_true_eq_false] at he <;> simp only [World.step] at hn' ⊢
  case accept p =>
    have h1 := g.newClient w p hs hP
    have s1 : InvS { w with
        clients := upd w.clients w.nClient { proto3 := p, conn := .opened, timer := true, listening := true }
        nClient := w.nClient + 1 } := by
      refine ⟨fun r hr => ⟨(hs.sock r hr).1, Nat.lt_succ_of_lt (hs.sock r hr).2⟩, hs.conn, hs.ad, hs.nsWf, hs.reg, hs.live, ?_, ?_, ?_, ?_,
        hs.names, hs.nspsWf⟩
      · intro c; simp only [upd_apply]; split
        · exact FMap.wf_nil
        · exact hs.clWf c
      · intro c sid r; simp only [upd_apply]; split
        · intro h; simp at h
        · exact hs.cl c sid r
      · intro c name r; simp only [upd_apply]; split
        · intro h; simp at h
        · exact hs.clNs c name r
      · intro c; simp only [upd_apply]; split
        · intro _; exact ⟨rfl, rfl⟩
        · exact hs.timer c
    unfold accept at hn' ⊢; dsimp only at hn' ⊢; split
    · rename_i hp
      simp only [hp, if_true] at hn'
      simp only [hp] at h1 s1 ⊢
      exact g.connect s1 _ (Nat.lt_succ_self _) _ _ hn' h1
    · exact h1
  case recv c type name auth =>
    split
    · rename_i hc
      rw [if_pos hc] at hn'
      unfold ondecoded at hn' ⊢; split
      · rename_i hg
        simp only [hg] at hn'
        split
        · rename_i htp
          rw [if_pos htp] at hn'
          exact g.connect hs _ hc.1 _ _ hn' hP
        · exact hclose c hP
      · split
        · exact g.inert w _ w.chains w.now hP
        · exact hclose c hP
    · exact hP
  case task k =>
    split
    · rename_i t hk
      have h1 : P { w with tasks := w.tasks.eraseIdx k } := g.inert w _ w.chains w.now hP
      cases t with
      | result ref err => exact hres _ ref err (List.mem_of_getElem? hk) h1
      | packet ref type =>
        simp only [runTask, onpacket]; split
        · rename_i ht
          subst ht
          exact honclose _ _ _ ⟨⟨List.eraseIdx_sublist _ _, List.mem_of_getElem? hk⟩, rfl⟩ rfl h1
        · exact g.received _ _ _ h1
    · exact hP
  case next k i err =>
    unfold next; split
    · exact hP
    · split
      · dsimp only; split
        · exact g.inert _ _ _ w.now hP
        · exact g.inert _ w.tasks _ w.now hP
      · exact hP
  case «of» name =>
    split
    · exact hP
    · rename_i hg; exact g.newNs _ _ rfl rfl rfl hg hs hP
  case use n => split; exact g.use _ _ hP; exact hP
  case setData ref v => split; exact g.data _ _ _ hP; exact hP
  case clock t => exact g.inert _ w.tasks w.chains _ hP

/-- An invariant kept by the building blocks and by the steps that create something. -/
theorem Grow.step {cfg : Cfg} {T P : W → Prop} [Stable T] (g : Grow cfg T P) {used : List (Nat × Nat)} {w : W} (hs : InvS w) (hr : Refs w)
    (ht : InvT cfg.recovery.isSome used w) (e : Ev) (he : ¬ e.calm = true)
    (hn : T w) (hn' : T (step cfg w e))
    (hclose : ∀ c, P w → P (clientClose cfg w c))
    (honclose : ∀ v ref reason, (v.tasks.Sublist w.tasks ∧ .packet ref .disconnect ∈ w.tasks) ∧ reason = "client namespace disconnect" → { v with tasks := w.tasks } = w → P v → P (onclose cfg v ref reason))
    (hP : P w) : P (step cfg w e) := by
  refine g.step_of hs (fun tasks ref err hm h1 => ?_) e he hn' hclose honclose hP
  have hm : ref ∈ pending w := by
    unfold pending
    exact List.mem_append_left _ (List.mem_filterMap.2 ⟨_, hm, rfl⟩)
  have hlt := pending_lt hr ref hm
  have s1 : InvS { w with tasks := tasks } := invS_tasks hs _
  have n1 : T { w with tasks := tasks } := Stable.tasks _ _ hn
  obtain ⟨u1, u2⟩ := ht.undecided ref hm
  have hcl := g.cleanup { w with tasks := tasks } ref hlt u1 u2 s1 n1 h1
  have scl := invS_cleanup s1 cfg ref
  unfold result; dsimp only; split
  · exact hcl
  · rename_i ho
    split
    · exact g.packet _ _ _ _ rfl scl hcl
    · exact g.doConnect _ _ hlt (by simpa using ho) u1 u2 s1 n1 h1

/-- The same for invariants that hold however often `next` is called. -/
structure Grow0 (cfg : Cfg) (P : W → Prop) : Prop where
  inert : ∀ w t ch now, P w → P { w with tasks := t, chains := ch, now := now }
  use : ∀ w n, P w → P (setNs w n fun k => { k with fns := k.fns + 1 })
  data : ∀ w ref v, P w → P (setSock w ref fun s => { s with data := some v })
  newNs : ∀ w s, s.ad = {} → s.sockets = [] → s.sess = {} → w.nsps.get? s.name = none → InvS w → P w → P (newNs w s)
  newClient : ∀ w p, InvS w → P w → P { w with
    clients := upd w.clients w.nClient { proto3 := p, conn := .opened, timer := true, listening := true }
    nClient := w.nClient + 1 }
  create : ∀ w n c auth, n < w.nNs → c < w.nClient → InvS w → P w → P (createSocket cfg w n c auth)
  doConnect : ∀ w ref, ref < w.nSock → (w.clients (w.socks ref).client).conn = .opened → InvS w → P w → P (doConnect w ref)
  cleanup : ∀ w ref, ref < w.nSock → InvS w → P w → P (cleanup cfg w ref)
  packet : ∀ w c ref x, x.type = .connectError → InvS w → P w → P (clientPacket w c ref x)
  received : ∀ w ref type, P w → P (obs w (.received ref type))

theorem Grow0.step {cfg : Cfg} {P : W → Prop} (g : Grow0 cfg P) {w : W} (hs : InvS w) (hr : Refs w) (e : Ev) (he : ¬ e.calm = true)
    (hclose : ∀ c, P w → P (clientClose cfg w c))
    (honclose : ∀ v ref reason, (v.tasks.Sublist w.tasks ∧ .packet ref .disconnect ∈ w.tasks) ∧ reason = "client namespace disconnect" → { v with tasks := w.tasks } = w → P v → P (onclose cfg v ref reason))
    (hP : P w) : P (step cfg w e) := by
  have g' : Grow cfg (fun _ => True) P := ⟨g.inert, g.use, g.data, g.newNs, g.newClient, g.create,
    fun w ref a b _ _ s _ h => g.doConnect w ref a b s h, fun w ref a _ _ s _ h => g.cleanup w ref a s h, g.packet, g.received⟩
  refine g'.step_of hs (fun tasks ref err hm h1 => ?_) e he trivial hclose honclose hP
  have hlt := pending_lt hr ref (by
    unfold pending
    exact List.mem_append_left _ (List.mem_filterMap.2 ⟨_, hm, rfl⟩))
  have s1 : InvS { w with tasks := tasks } := invS_tasks hs _
  have hcl := g.cleanup { w with tasks := tasks } ref hlt s1 h1
  unfold result; dsimp only; split
  · exact hcl
  · rename_i ho
    split
    · exact g.packet _ _ _ _ rfl (invS_cleanup s1 cfg ref) hcl
    · exact g.doConnect _ _ hlt (by simpa using ho) s1 h1

/-! ## Every connected socket is registered: all steps -/

theorem joined_socks {w w' : W} (h : Joined w) (hs : ∀ r, (w'.socks r).connected = true → (w.socks r).connected = true ∧
    (w'.socks r).canJoin = (w.socks r).canJoin) : Joined w' := fun r hr => by
  rw [(hs r hr).2]; exact h r (hs r hr).1

theorem grow_full (cfg : Cfg) : Grow cfg NoTwins fun w => Full w ∧ Joined w where
  inert w t ch now h := ⟨⟨h.1.cl, h.1.ns, h.1.cns⟩, h.2⟩
  use w n h := ⟨full_of_same h.1 rfl rfl fun _ => upd_proj _ _ _ _ Ns.sockets rfl, h.2⟩
  data w ref v h := by
    have hp {β : Type} (p : Sock → β) (hp : p { w.socks ref with data := some v } = p (w.socks ref)) (r : Nat) :
        p ((setSock w ref fun s => { s with data := some v }).socks r) = p (w.socks r) := upd_proj _ _ _ _ p hp
    refine ⟨⟨fun r => ?_, fun r => ?_, fun c name r => ?_⟩, fun r => ?_⟩
    · rw [hp Sock.connected rfl, hp Sock.client rfl, hp Sock.sid rfl]; exact h.1.cl r
    · rw [hp Sock.connected rfl, hp Sock.ns rfl, hp Sock.sid rfl]; exact h.1.ns r
    · rw [hp Sock.connected rfl]; exact h.1.cns c name r
    · rw [hp Sock.connected rfl, hp Sock.canJoin rfl]; exact h.2 r
  newNs w s _ _ _ _ hs h := by
    refine ⟨⟨h.1.cl, fun r hr => ?_, h.1.cns⟩, h.2⟩
    have := (hs.sock r (hs.conn r hr)).1
    simp only [newNs]; rw [upd_ne _ _ (Nat.ne_of_lt this)]; exact h.1.ns r hr
  newClient w p hs h := by
    refine ⟨⟨fun r hr => ?_, h.1.ns, fun c name r => ?_⟩, h.2⟩
    · have := (hs.sock r (hs.conn r hr)).2
      dsimp only; rw [upd_ne _ _ (Nat.ne_of_lt this)]; exact h.1.cl r hr
    · simp only [upd_apply]; split
      · intro h; simp at h
      · exact h.1.cns c name r
  create w n c auth hn hc hs h := by
    have p : Prim0 fun a b : W => b.clients = a.clients ∧ ∀ n, (b.nss n).sockets = (a.nss n).sockets :=
      ⟨fun _ => ⟨rfl, fun _ => rfl⟩, fun h1 h2 => ⟨h2.1.trans h1.1, fun n => (h2.2 n).trans (h1.2 n)⟩,
        fun w c ref x => by unfold clientPacket; split <;> exact ⟨rfl, fun _ => rfl⟩,
        fun w n f hf => ⟨rfl, fun m => upd_proj _ _ _ _ Ns.sockets (hf _).2.2.1⟩⟩
    obtain ⟨s, ⟨h1, h2⟩, -⟩ := createSocket_rel cfg p w n c auth
    obtain ⟨-, -, e3, -, e5⟩ := createSocket_self cfg w n c auth
    have hold (r : Nat) (hr : ((createSocket cfg w n c auth).socks r).connected = true) :
        (createSocket cfg w n c auth).socks r = w.socks r := by
      refine e5 r ?_
      have h3 := (invS_createSocket hs cfg n c hn hc auth).conn r hr
      rw [createSocket_nSock] at h3
      rcases Nat.lt_or_eq_of_le (Nat.lt_succ_iff.1 h3) with h4 | rfl
      · exact h4
      · rw [e3] at hr; simp at hr
    refine ⟨⟨fun r hr => ?_, fun r hr => ?_, fun c' name r hg => ?_⟩, fun r hr => ?_⟩
    · have e := hold r hr; rw [e] at hr ⊢; rw [h1]; exact h.1.cl r hr
    · have e := hold r hr; rw [e] at hr ⊢; rw [h2]; exact h.1.ns r hr
    · rw [h1] at hg
      rw [e5 r (hs.clNs _ _ _ hg).1]; exact h.1.cns c' name r hg
    · have e := hold r hr; rw [e] at hr ⊢; exact h.2 r hr
  doConnect w ref hlt ho hc hj hs ht h := by
    obtain ⟨d1, d2, d3, -, d5, -⟩ := doConnect_fields w ref
    have hopen : IsOpen w ref := ⟨hlt, hj⟩
    have hp {β : Type} (p : Sock → β) (hp : p { w.socks ref with connected := true } = p (w.socks ref)) (r : Nat) :
        p ((doConnect w ref).socks r) = p (w.socks r) := by rw [d2]; exact upd_proj _ _ _ _ p hp
    have hcon (r : Nat) (hr : ((doConnect w ref).socks r).connected = true) : r = ref ∨ (w.socks r).connected = true := by
      rw [d2, upd_apply] at hr; split at hr
      · exact .inl (by assumption)
      · exact .inr hr
    have hne (r : Nat) (hn : r ≠ ref) (hr : (w.socks r).connected = true) : (w.socks r).sid ≠ (w.socks ref).sid := fun e =>
      hn (ht r ref ⟨hs.conn r hr, h.2 r hr⟩ hopen e)
    refine ⟨⟨fun r hr => ?_, fun r hr => ?_, fun c name r hg => ?_⟩, fun r hr => ?_⟩
    · rw [hp Sock.client rfl, hp Sock.sid rfl, d3, upd_apply]
      by_cases e : r = ref
      · subst e; simp
      · have hr' := (hcon r hr).resolve_left e
        split
        · rename_i e'
          rw [FMap.get?_insert_ne (hne r e hr').symm, ← e']; exact h.1.cl r hr'
        · exact h.1.cl r hr'
    · rw [hp Sock.ns rfl, hp Sock.sid rfl, d1, upd_apply]
      by_cases e : r = ref
      · subst e; simp [nsConnected]
      · have hr' := (hcon r hr).resolve_left e
        split
        · rename_i e'
          simp only [nsConnected]
          rw [FMap.get?_insert_ne (hne r e hr').symm, ← e']; exact h.1.ns r hr'
        · exact h.1.ns r hr'
    · have key : r = ref ∨ (w.socks r).connected = true := by
        rw [d3, upd_apply] at hg; split at hg
        · by_cases en : (w.nss (w.socks ref).ns).name = name
          · subst en; simp at hg; exact .inl hg.symm
          · rw [FMap.get?_insert_ne en] at hg; exact .inr (h.1.cns _ name r hg)
        · exact .inr (h.1.cns c name r hg)
      rw [d2, upd_apply]; split
      · rfl
      · exact key.resolve_left (by assumption)
    · rw [hp Sock.canJoin rfl]
      rcases hcon r hr with rfl | hr'
      · exact hj
      · exact h.2 r hr'
  cleanup w ref hlt hc hj hs ht h := by
    obtain ⟨d1, d2, d3, -⟩ := cleanup_fields cfg w ref
    have hp {β : Type} (p : Sock → β) (hp : p { w.socks ref with canJoin := false } = p (w.socks ref)) (r : Nat) :
        p ((cleanup cfg w ref).socks r) = p (w.socks r) := by rw [d2]; exact upd_proj _ _ _ _ p hp
    have hcon (r : Nat) (hr : ((cleanup cfg w ref).socks r).connected = true) : r ≠ ref ∧ (w.socks r).connected = true := by
      rw [hp Sock.connected rfl] at hr
      exact ⟨by rintro rfl; rw [hc] at hr; simp at hr, hr⟩
    refine ⟨⟨fun r hr => ?_, fun r hr => ?_, fun c name r hg => ?_⟩, fun r hr => ?_⟩
    · rw [hp Sock.client rfl, hp Sock.sid rfl, d3]; exact h.1.cl r (hcon r hr).2
    · obtain ⟨hn, hr'⟩ := hcon r hr
      have hne : (w.socks r).sid ≠ (w.socks ref).sid := fun e => hn (ht r ref ⟨hs.conn r hr', h.2 r hr'⟩ ⟨hlt, hj⟩ e)
      rw [hp Sock.ns rfl, hp Sock.sid rfl, d1, upd_apply]; split
      · rename_i e'
        simp only [nsCleaned]
        rw [FMap.get?_erase_ne hne.symm, ← e']; exact h.1.ns r hr'
      · exact h.1.ns r hr'
    · rw [d3] at hg; rw [hp Sock.connected rfl]; exact h.1.cns c name r hg
    · obtain ⟨hn, hr'⟩ := hcon r hr
      rw [d2, upd_ne _ _ hn]; exact h.2 r hr'
  packet w c ref x _ hs h := by
    unfold clientPacket; split
    · exact ⟨full_of_same h.1 rfl rfl fun _ => rfl, h.2⟩
    · exact h
  received w ref type h := ⟨full_of_same h.1 rfl rfl fun _ => rfl, h.2⟩

theorem neverTwins_snoc {cfg : Cfg} {h : List Ev} {e : Ev} (ht : NeverTwins cfg (h ++ [e])) :
    NeverTwins cfg h ∧ NoTwins (run cfg h) ∧ NoTwins (step cfg (run cfg h) e) :=
  ⟨fun p hp => ht p (hp.trans (List.prefix_append _ _)), ht h (List.prefix_append _ _),
    by rw [← run_snoc]; exact ht _ (List.prefix_refl _)⟩

theorem good_run (cfg : Cfg) (h : List Ev) (hn : NextOnce h) (ht : NeverTwins cfg h) : Good (run cfg h) := by
  induction h using snocRec with
  | nil =>
    refine ⟨(inv_run cfg []).1, ⟨?_, ?_, ?_⟩, ht _ (List.prefix_refl _), ?_⟩
    · intro r hr; simp [run, init, newNs] at hr
    · intro r hr; simp [run, init, newNs] at hr
    · intro c name r hr; simp [run, init, newNs] at hr
    · intro r hr; simp [run, init, newNs] at hr
  | append_singleton h e ih =>
    obtain ⟨t1, t2, t3⟩ := neverTwins_snoc ht
    obtain ⟨n1, -⟩ := nextOnce_snoc hn
    have g := ih n1 t1
    rw [run_snoc]
    obtain ⟨i1, i2⟩ := inv_run cfg h
    by_cases he : e.calm = true
    · exact (blocks_good cfg).step _ e he (fun _ _ => trivial) (fun _ _ => trivial) g
    · have := (grow_full cfg).step i1 i2 (invT_run cfg h n1) e he t2 t3
        (fun c hP => by
          have := (blocks_good cfg).clientClose (run cfg h) c ⟨i1, hP.1, t2, hP.2⟩
          exact ⟨this.f, this.j⟩)
        (fun v ref reason _ hv hP => by
          have hs : InvS v := by
            have : InvS { v with tasks := (run cfg h).tasks } := by rw [hv]; exact i1
            exact ⟨this.sock, this.conn, this.ad, this.nsWf, this.reg, this.live, this.clWf, this.cl, this.clNs, this.timer, this.names, this.nspsWf⟩
          have ht : NoTwins v := by
            have : NoTwins { v with tasks := (run cfg h).tasks } := by rw [hv]; exact t2
            exact this
          have := good_onclose ⟨hs, hP.1, ht, hP.2⟩ cfg ref reason
          exact ⟨this.f, this.j⟩) ⟨g.f, g.j⟩
      exact ⟨(inv_step i1 i2 cfg e).1, this.1, t3, this.2⟩

/-! ## Every registered socket is known to the adapter -/

def Known (w : W) : Prop := ∀ n sid r, (w.nss n).sockets.get? sid = some r → sid ∈ (w.nss n).ad.sids.keys

theorem known_set {w : W} (h : Known w) (n : Nat) (f : Ns → Ns)
    (h1 : ∀ sid r, (f (w.nss n)).sockets.get? sid = some r → (w.nss n).sockets.get? sid = some r)
    (h2 : ∀ sid, sid ∈ (w.nss n).ad.sids.keys → sid ∈ (f (w.nss n)).ad.sids.keys) : Known (setNs w n f) := by
  intro m sid r; simp only [setNs, upd_apply]; split
  · rename_i e; subst e; exact fun hg => h2 _ (h _ _ _ (h1 _ _ hg))
  · exact h m sid r

theorem known_join {w : W} (h : Known w) (hs : InvS w) (ref : Nat) (rooms : List Room) : Known (join w ref rooms) := by
  unfold join; split
  · refine known_set h _ _ (fun _ _ h => h) fun sid hk => ?_
    exact ((addAll_spec (hs.ad _) _ rooms).2.2 sid).2 (.inr hk)
  · exact h

theorem known_leave {w : W} (h : Known w) (hs : InvS w) (cfg : Cfg) (ref : Nat) (room : Room) : Known (leave cfg w ref room) := by
  refine known_set h _ _ (fun _ _ h => h) fun sid hk => ?_
  exact ((del_spec (hs.ad _) _ _ room).2.2 sid).2 hk

theorem known_acts {w : W} (h : Known w) (hs : InvS w) (cfg : Cfg) (l : List Act) :
    Known (l.foldl (act cfg) w) ∧ InvS (l.foldl (act cfg) w) := by
  induction l generalizing w with
  | nil => exact ⟨h, hs⟩
  | cons a l ih =>
    rw [List.foldl_cons]
    refine ih ?_ (invS_act hs cfg a)
    cases a <;> simp only [act] <;> split
    · exact known_join h hs _ _
    · exact h
    · exact known_leave h hs _ _ _
    · exact h

theorem known_closing {w : W} (h : Known w) (hs : InvS w) (cfg : Cfg) (ref : Nat) (reason : String) :
    Known (closing cfg w ref reason) ∧ InvS (closing cfg w ref reason) := by
  obtain ⟨h1, h2⟩ := known_acts (w := obs w (.disconnecting ref reason)) h (invS_obs hs _) cfg (cfg.hook ref)
  unfold closing
  generalize (cfg.hook ref).foldl (act cfg) (obs w (.disconnecting ref reason)) = v at h1 h2
  refine ⟨?_, ?_⟩
  · unfold persist; split
    · exact known_set h1 (v.socks ref).ns (fun n => { n with sess := Session.persist v.now (session v ref) n.sess })
        (fun _ _ h => h) fun _ h => h
    · exact h1
  · unfold persist; split
    · exact invS_obs (invS_sess h2 _ _) _
    · exact h2

theorem known_nsCleaned {w : W} (h : Known w) (hs : InvS w) (cfg : Cfg) (ref : Nat) (w' : W)
    (hw : w'.nss = upd w.nss (w.socks ref).ns (nsCleaned cfg w ref)) : Known w' := by
  intro n sid r; rw [hw, upd_apply]; split
  · rename_i e; subst e
    simp only [nsCleaned]
    intro hg
    rw [FMap.get?_erase] at hg
    split at hg
    · simp at hg
    · rename_i hne
      exact ((delAll_spec (hs.ad _) _ _).2.2 sid).2 ⟨h _ _ _ hg, Ne.symm hne⟩
  · exact h n sid r

theorem known_onclose {w : W} (h : Known w) (hs : InvS w) (cfg : Cfg) (ref : Nat) (reason : String) :
    Known (onclose cfg w ref reason) := by
  by_cases hc : (w.socks ref).connected = true
  · rw [onclose_pos cfg reason hc]
    obtain ⟨h1, h2⟩ := known_closing h hs cfg ref reason
    exact known_nsCleaned h1 h2 cfg ref (shut cfg (closing cfg w ref reason) ref) (shut_fields cfg _ ref).1
  · rw [onclose_neg cfg reason hc]; exact h

theorem blocks_known (cfg : Cfg) : Blocks cfg (fun _ _ => True) (fun _ => True) fun w w' => (InvS w ∧ Known w → InvS w' ∧ Known w') :=
  blocks_with (blocks_invS cfg) (fun _ c h => invS_unlisten h c)
    (fun w c ref x _ h => by unfold clientPacket; split <;> exact h)
    (fun w ref rooms _ hs h => known_join h hs _ _)
    (fun w ref room _ hs h => known_leave h hs _ _ _)
    (fun w n f _ h => known_set h _ _ (fun _ _ h => h) fun _ h => h)
    (fun w ref reason hs h => known_onclose h hs _ _ _)
    (fun w c f _ h => h)
    (fun w n l hp hs h => known_set h _ _
      (fun sid r hg => (FMap.get?_perm (by have := hs.nsWf n; unfold FMap.WF FMap.keys at *; exact (hp.map _).nodup_iff.2 this) hp sid).symm.trans hg)
      fun _ h => h)
    (fun w l _ _ h => h)

theorem grow_known (cfg : Cfg) : Grow cfg (fun _ => True) Known where
  inert w t ch now h := h
  use w n h := known_set h _ _ (fun _ _ h => h) fun _ h => h
  data w ref v h := h
  newNs w s _ hs _ _ _ h := by
    intro n sid r; simp only [newNs, upd_apply]; split
    · rw [hs]; intro h; simp at h
    · exact h n sid r
  newClient w p _ h := h
  create w n c auth hn hc hs h := by
    have hr (w : W) (hs : InvS w) (h : Known w) (hn : n < w.nNs) (hc : c < w.nClient) (s : Session.Sess) (missed : List (List Val)) :
        Known (recoverSocket w n c s missed) := by
      unfold recoverSocket
      have ha : InvS (alloc w { ns := n, client := c, sid := s.sid, pid := s.pid, data := s.data, recovered := true }) :=
        invS_alloc hs _ hn hc rfl
      have h1 : ∀ (l : List Room) (v : W), InvS v → Known v → w.nSock < v.nSock →
          Known (l.foldl (fun v r => join v w.nSock [r]) v) := by
        intro l; induction l with
        | nil => exact fun v _ h _ => h
        | cons a l ih =>
          intro v hs h hlt
          rw [List.foldl_cons]
          refine ih _ (invS_join hs hlt _) (known_join h hs _ _) ?_
          rw [(calm_join v w.nSock [a]).nSock]; exact hlt
      have h2 : ∀ (l : List (List Val)) (v : W), Known v →
          Known (l.foldl (fun v l => sockPacket v w.nSock { type := .event, data := .args l }) v) := by
        intro l; induction l with
        | nil => exact fun v h => h
        | cons a l ih =>
          intro v h; rw [List.foldl_cons]; refine ih _ ?_
          unfold sockPacket clientPacket; split <;> exact h
      exact h2 _ _ (h1 _ _ ha (by exact h) (Nat.lt_succ_self _))
    have hk (f : Ns → Session.St) : Known (setNs w n fun k => { k with sess := f k }) :=
      known_set h _ _ (fun _ _ h => h) fun _ h => h
    unfold createSocket; split
    · dsimp only; split
      · exact hr _ (invS_sess hs _ _) (hk _) hn hc _ _
      · rename_i sc _ pid off _ _ _
        exact hk fun _ => (Session.restore sc w.now pid off (w.nss n).sess).1
    · exact h
  doConnect w ref hlt ho hc hj hs _ h := by
    intro n sid r
    rw [(doConnect_fields w ref).1, upd_apply]; split
    · rename_i e; subst e
      simp only [nsConnected, hj, if_true]
      intro hg
      refine ((addAll_spec (hs.ad _) _ _).2.2 sid).2 ?_
      rw [FMap.get?_insert] at hg
      split at hg
      · rename_i e; exact .inl e.symm
      · exact .inr (h _ _ _ hg)
    · exact h n sid r
  cleanup w ref _ _ _ hs _ h := known_nsCleaned h hs cfg ref _ (cleanup_fields cfg w ref).1
  packet w c ref x _ _ h := by unfold clientPacket; split <;> exact h
  received w ref type h := h

theorem known_run (cfg : Cfg) (h : List Ev) (hn : NextOnce h) : Known (run cfg h) := by
  induction h using snocRec with
  | nil =>
    intro n sid r hg
    simp only [run, List.foldl_nil, init, newNs, upd_apply] at hg
    split at hg <;> simp at hg
  | append_singleton h e ih =>
    obtain ⟨n1, -⟩ := nextOnce_snoc hn
    rw [run_snoc]
    obtain ⟨i1, i2⟩ := inv_run cfg h
    by_cases he : e.calm = true
    · exact ((blocks_known cfg).step _ e he (fun _ _ => trivial) (fun _ _ => trivial) ⟨i1, ih n1⟩).2
    · refine (grow_known cfg).step i1 i2 (invT_run cfg h n1) e he trivial trivial
        (fun c hP => ((blocks_known cfg).clientClose _ c ⟨i1, hP⟩).2) (fun v ref reason _ hv hP => ?_) (ih n1)
      have hs : InvS v := by
        have : InvS { v with tasks := (run cfg h).tasks } := by rw [hv]; exact i1
        exact ⟨this.sock, this.conn, this.ad, this.nsWf, this.reg, this.live, this.clWf, this.cl, this.clNs, this.timer, this.names, this.nspsWf⟩
      exact known_onclose hP hs _ _ _

theorem joined_run (cfg : Cfg) (h : List Ev) (hn : NextOnce h) : Joined (run cfg h) := fun r hr =>
  (((invT_run cfg h hn).life r).1 hr).1

end Verif.World
