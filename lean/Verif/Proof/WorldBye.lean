import Verif.Proof.WorldShown
import Verif.Proof.WorldClose

/-! # The server: what the client is told at the end -/

namespace Verif.World
open Verif Verif.Adapter Verif.Spec

theorem farewell_append (r : Nat) (a b : List Obs) : farewell r (a ++ b) = farewell r a ++ farewell r b := by
  simp [farewell]

theorem farewell_nil {r : Nat} {l : List Obs} (h : ∀ o ∈ l, byeOf r o = none) : farewell r l = [] := by
  rw [farewell, List.filterMap_eq_nil_iff]; exact h

/-- The three ways to end: told first; without a packet, for another reason; without a packet because the connection was
no longer open. -/
def Fair (r : Nat) (w : W) (l : List Bye) : Prop :=
  l = [.told (w.socks r).client (w.nss (w.socks r).ns).name, .ended "server namespace disconnect"] ∨
  ∃ reason, l = [.ended reason] ∧
    (reason = "server namespace disconnect" → (w.clients (w.socks r).client).conn ≠ .opened)

/-- No connection was opened. -/
def Down (w w' : W) : Prop := ∀ c, (w'.clients c).conn = .opened → (w.clients c).conn = .opened

theorem Calm.client_ns {w w' : W} (c : Calm w w') (r : Nat) :
    (w'.socks r).client = (w.socks r).client ∧ (w'.socks r).ns = (w.socks r).ns := by
  rcases c.socks r with e | ⟨-, e⟩ <;> rw [e] <;> exact ⟨rfl, rfl⟩

theorem Fair.calm {r : Nat} {w w' : W} {l : List Bye} (h : Fair r w l) (c : Calm w w') (d : Down w w') : Fair r w' l := by
  obtain ⟨e1, e2⟩ := c.client_ns r
  rcases h with h | ⟨reason, h, h'⟩
  · left; rw [e1, e2, c.name]; exact h
  · exact .inr ⟨reason, h, fun hr ho => h' hr (d _ (by rw [← e1]; exact ho))⟩

/-- From `w` to `w'` nothing was created; either nothing was said of the end of socket `r`, or it ended. -/
def Parts (r : Nat) (w w' : W) : Prop :=
  Calm w w' ∧ Down w w' ∧ ∃ ext, w'.log = w.log ++ ext ∧
    (((w'.socks r).connected = (w.socks r).connected ∧ farewell r ext = []) ∨
     ((w.socks r).connected = true ∧ (w'.socks r).connected = false ∧ Fair r w' (farewell r ext)))

theorem Parts.refl (r : Nat) (w : W) : Parts r w w :=
  ⟨.refl w, fun _ h => h, [], by simp, .inl ⟨rfl, rfl⟩⟩

theorem Parts.trans {r : Nat} {a b c : W} (h1 : Parts r a b) (h2 : Parts r b c) : Parts r a c := by
  obtain ⟨c1, d1, x, e1, p1⟩ := h1
  obtain ⟨c2, d2, y, e2, p2⟩ := h2
  refine ⟨c1.trans c2, fun k h => d1 k (d2 k h), x ++ y, by rw [e2, e1, List.append_assoc], ?_⟩
  rw [farewell_append]
  rcases p1 with ⟨q1, f1⟩ | ⟨q1, q2, f1⟩
  · rcases p2 with ⟨q3, f2⟩ | ⟨q3, q4, f2⟩
    · exact .inl ⟨q3.trans q1, by rw [f1, f2]; rfl⟩
    · exact .inr ⟨by rw [← q1]; exact q3, q4, by rw [f1]; exact f2⟩
  · rcases p2 with ⟨q3, f2⟩ | ⟨q3, q4, f2⟩
    · exact .inr ⟨q1, by rw [q3]; exact q2, by rw [f2, List.append_nil]; exact f1.calm c2 d2⟩
    · rw [q2] at q3; simp at q3

theorem Parts.silent {r : Nat} {w w' : W} (c : Calm w w') (d : Down w w') (h : w'.log = w.log)
    (hs : (w'.socks r).connected = (w.socks r).connected) : Parts r w w' :=
  ⟨c, d, [], by simp [h], .inl ⟨hs, rfl⟩⟩

theorem onclose_down (cfg : Cfg) (w : W) (ref : Nat) (reason : String) :
    ∀ c, ((onclose cfg w ref reason).clients c).conn = (w.clients c).conn := by
  intro c
  by_cases hc : (w.socks ref).connected = true
  · rw [(onclose_effect cfg reason hc).2.2]
    refine upd_proj _ _ _ _ Client.conn ?_
    unfold clientCleaned; dsimp only; cases (w.clients (w.socks ref).client).sockets.get? (w.socks ref).sid <;> rfl
  · rw [onclose_neg cfg reason hc]

theorem byeOf_onclose (cfg : Cfg) (w : W) (ref r : Nat) (reason : String) :
    farewell r (([.disconnecting ref reason] : List Obs) ++
      (if cfg.recovery.isSome ∧ reason ∈ recoverable then [.saved ref (session (heard cfg w ref reason) ref)] else []) ++
      [.disconnect ref reason]) = if ref = r then [.ended reason] else [] := by
  by_cases e : ref = r <;> split <;> simp [farewell, List.filterMap_cons, byeOf, e]

theorem parts_onclose (cfg : Cfg) (r : Nat) (w : W) (ref : Nat) (reason : String)
    (hq : reason ≠ "server namespace disconnect") : Parts r w (onclose cfg w ref reason) := by
  by_cases hc : (w.socks ref).connected = true
  · refine ⟨calm_onclose _ _ _ _, fun c h => by rw [onclose_down] at h; exact h, _,
      by rw [onclose_log cfg reason hc, List.append_assoc, List.append_assoc], ?_⟩
    rw [← List.append_assoc, byeOf_onclose, (onclose_effect cfg reason hc).1]
    by_cases e : ref = r
    · subst e; rw [upd_same, if_pos rfl]
      exact .inr ⟨hc, rfl, .inr ⟨reason, rfl, fun h => absurd h hq⟩⟩
    · rw [upd_ne _ _ (Ne.symm e), if_neg e]; exact .inl ⟨rfl, rfl⟩
  · rw [onclose_neg cfg reason hc]; exact .refl r w

theorem farewell_sent (r ref : Nat) (w : W) (p : Pkt) (h : p.type = .disconnect → ref ≠ r) : farewell r (sent w p ref) = [] := by
  unfold sent; split
  · refine farewell_nil fun o ho => ?_
    simp at ho; subst ho
    simp only [byeOf, Option.some.injEq]
    rw [if_neg]; rintro ⟨rfl, h'⟩; exact h h' rfl
  · rfl

theorem parts_packet (r : Nat) (w : W) (ref : Nat) (p : Pkt) (h : p.type = .disconnect → ref ≠ r) : Parts r w (sockPacket w ref p) := by
  refine ⟨calm_sockPacket _ _ _, ?_⟩
  rw [sockPacket_eq]
  exact ⟨fun _ h => h, _, rfl, .inl ⟨rfl, farewell_sent r ref w p h⟩⟩

theorem parts_disc (cfg : Cfg) (r : Nat) (w : W) (ref : Nat) (hc : (w.socks ref).connected = true) :
    Parts r w (disconnectNs cfg w ref) := by
  have e0 := disconnectNs_pos cfg hc
  rw [sockPacket_eq] at e0
  have hc' : ({ w with log := w.log ++ sent w { type := .disconnect } ref }.socks ref).connected = true := hc
  refine ⟨calm_disconnectNs _ _ _, fun c h => by rw [e0, onclose_down] at h; exact h, _,
    by rw [e0, onclose_log cfg _ hc', List.append_assoc, List.append_assoc, List.append_assoc], ?_⟩
  · have hcalm := calm_disconnectNs cfg w ref
    obtain ⟨k1, k2⟩ := hcalm.client_ns r
    rw [farewell_append, ← List.append_assoc [_], byeOf_onclose]
    by_cases e : ref = r
    · subst e
      rw [if_pos rfl]
      refine .inr ⟨hc, by rw [e0, (onclose_effect cfg _ hc').1, upd_same]; rfl, ?_⟩
      unfold Fair
      rw [k1, k2, hcalm.name]
      by_cases ho : (w.clients (w.socks ref).client).conn = .opened
      · left; simp [sent, ho, farewell, byeOf]
      · refine .inr ⟨_, by simp only [sent, ho, if_false]; rfl, fun _ => ?_⟩
        rw [e0, onclose_down]; exact ho
    · rw [if_neg e]
      refine .inl ⟨by rw [e0, (onclose_effect cfg _ hc').1, upd_ne _ _ (Ne.symm e)], ?_⟩
      rw [farewell_sent r ref w _ fun _ => e]; rfl

/-- From `w` to `w'` connections stay as they are and sockets only end by being told, if their connection is open. -/
def Tells (r : Nat) (w w' : W) : Prop :=
  Calm w w' ∧ (∀ c, (w'.clients c).conn = (w.clients c).conn) ∧ ∃ ext, w'.log = w.log ++ ext ∧
    (((w'.socks r).connected = (w.socks r).connected ∧ farewell r ext = []) ∨
     ((w.socks r).connected = true ∧ (w'.socks r).connected = false ∧ ((w.clients (w.socks r).client).conn = .opened →
       farewell r ext = [.told (w.socks r).client (w.nss (w.socks r).ns).name, .ended "server namespace disconnect"])))

theorem Tells.refl (r : Nat) (w : W) : Tells r w w := ⟨.refl w, fun _ => rfl, [], by simp, .inl ⟨rfl, rfl⟩⟩

theorem Tells.trans {r : Nat} {a b c : W} (h1 : Tells r a b) (h2 : Tells r b c) : Tells r a c := by
  obtain ⟨c1, d1, x, e1, p1⟩ := h1
  obtain ⟨c2, d2, y, e2, p2⟩ := h2
  refine ⟨c1.trans c2, fun k => (d2 k).trans (d1 k), x ++ y, by rw [e2, e1, List.append_assoc], ?_⟩
  rw [farewell_append]
  rcases p1 with ⟨q1, f1⟩ | ⟨q1, q2, f1⟩
  · rcases p2 with ⟨q3, f2⟩ | ⟨q3, q4, f2⟩
    · exact .inl ⟨q3.trans q1, by rw [f1, f2]; rfl⟩
    · refine .inr ⟨by rw [← q1]; exact q3, q4, fun ho => ?_⟩
      obtain ⟨k1, k2⟩ := c1.client_ns r
      rw [f1, f2 (by rw [d1, k1]; exact ho), k1, k2, c1.name]; rfl
  · rcases p2 with ⟨q3, f2⟩ | ⟨q3, q4, f2⟩
    · exact .inr ⟨q1, by rw [q3]; exact q2, fun ho => by rw [f1 ho, f2]; rfl⟩
    · rw [q2] at q3; simp at q3

theorem tells_disc (cfg : Cfg) (r : Nat) (w : W) (ref : Nat) : Tells r w (disconnectNs cfg w ref) := by
  by_cases hc : (w.socks ref).connected = true
  · obtain ⟨p1, -, ext, p3, p4⟩ := parts_disc cfg r w ref hc
    have e0 := disconnectNs_pos cfg hc
    have hconn (c : Nat) : ((disconnectNs cfg w ref).clients c).conn = (w.clients c).conn := by
      rw [e0, sockPacket_eq, onclose_down]
    refine ⟨p1, hconn, ext, p3, p4.imp_right fun ⟨q1, q2, q3⟩ => ⟨q1, q2, fun ho => ?_⟩⟩
    obtain ⟨k1, k2⟩ := p1.client_ns r
    rw [sockPacket_eq] at e0
    have hc' : ({ w with log := w.log ++ sent w { type := .disconnect } ref }.socks ref).connected = true := hc
    have el : (disconnectNs cfg w ref).log = w.log ++ (sent w { type := .disconnect } ref ++
        ([.disconnecting ref "server namespace disconnect"] ++ ((if cfg.recovery.isSome ∧ "server namespace disconnect" ∈ recoverable then
          [.saved ref (session (heard cfg { w with log := w.log ++ sent w { type := .disconnect } ref } ref "server namespace disconnect") ref)]
          else []) ++ [.disconnect ref "server namespace disconnect"]))) := by
      rw [e0, onclose_log cfg _ hc', List.append_assoc, List.append_assoc, List.append_assoc]
    have ee := List.append_cancel_left (p3.symm.trans el)
    have er : ref = r := by
      refine Classical.byContradiction fun e => ?_
      rw [e0, (onclose_effect cfg _ hc').1, upd_ne _ _ (Ne.symm e)] at q2
      simp only [q1] at q2; simp at q2
    subst er
    rw [ee, farewell_append, ← List.append_assoc [_], byeOf_onclose, if_pos rfl]
    simp [sent, ho, farewell, byeOf]
  · unfold disconnectNs; rw [if_neg hc]; exact .refl r w

theorem tells_loop (cfg : Cfg) (r c : Nat) (l : List Sid) (w : W) : Tells r w (l.foldl (eachSocket c (disconnectNs cfg)) w) := by
  induction l generalizing w with
  | nil => exact .refl r w
  | cons a l ih =>
    rw [List.foldl_cons]
    refine .trans ?_ (ih _)
    unfold eachSocket; split
    · exact tells_disc cfg r w _
    · exact .refl r w

theorem quiet_parts (cfg : Cfg) (r : Nat) : Quiet cfg (· ≠ "server namespace disconnect") (Parts r) where
  refl := .refl r
  trans := .trans
  disc := parts_disc cfg r
  ns w n f hf := .silent (calm_setNs _ _ _ (hf _).1 (hf _).2.1) (fun _ h => h) rfl rfl
  client w c f hf := .silent (calm_setClient _ _ _ (hf _).1) (fun c' h => by
    simp only [setClient, upd_apply] at h
    split at h
    · rename_i e; subst e; exact (hf _).2.2.2 h
    · exact h) rfl rfl
  onclose w ref reason hq := parts_onclose cfg r w ref reason hq

theorem parts_broadcast (r : Nat) (w : W) (cfg : Cfg) (n : Nat) (p : Pkt) (opts : Option Opts) (hp : p.type = .event) :
    Parts r w (broadcast cfg w n p opts) := by
  have ha (w : W) (p : Pkt) (hp : p.type = .event) : Parts r w (apply (view n) opts (fun w ref => sockPacket w ref p) w).1 :=
    apply_rel (Parts r) (.refl r) .trans (fun s id ref _ => parts_packet r s ref p (fun h => by rw [hp] at h; simp at h)) opts w
  unfold broadcast; split
  · refine Parts.trans (.silent (calm_setNs _ _ _ rfl rfl) (fun _ h => h) rfl rfl) (ha _ _ ?_)
    rw [session_broadcast_type]; exact hp
  · exact ha _ _ hp

theorem parts_emit (r : Nat) (w : W) (cfg : Cfg) (ref : Nat) (args : List Val) (flags : Flags) :
    Parts r w (emit cfg w ref args flags) := by
  unfold emit; split
  · exact parts_broadcast r w cfg _ _ _ rfl
  · exact parts_packet r w ref _ fun h => by simp at h

theorem parts_step (r : Nat) {cfg : Cfg} (hr : Reasons cfg (· ≠ "server namespace disconnect")) (w : W) (e : Ev)
    (he : e.calm = true) (h0 : ∀ c reason, e = .transportClose c reason → reason ≠ "server namespace disconnect") :
    Parts r w (step cfg w e) :=
  (quiet_parts cfg r).step hr w e h0
    (fun _ _ _ => .silent (calm_setClient _ _ _ rfl) (fun c' h => by
      simp only [setClient, upd_apply] at h
      split at h
      · rename_i e; subst e; exact h
      · exact h) rfl rfl)
    (fun _ _ _ => .silent (calm_setNs _ _ _ rfl rfl) (fun _ h => h) rfl rfl)
    (fun _ _ => .silent (calm_nsps _ _) (fun _ h => h) rfl rfl)
    (fun _ _ _ _ _ _ _ => parts_broadcast r _ _ _ _ _ rfl) (fun _ _ _ _ _ => parts_emit r _ _ _ _ _)
    (fun _ _ _ _ _ => .silent (calm_setNs _ _ _ rfl rfl) (fun _ h => h) rfl rfl) he

/-! ## The invariant -/

structure ByeOk (r : Nat) (w : W) : Prop where
  fresh : w.nSock ≤ r → farewell r w.log = []
  on : (w.socks r).connected = true ∨ (w.socks r).canJoin = true → farewell r w.log = []
  off : farewell r w.log = [] ∨ Fair r w (farewell r w.log)

theorem ByeOk.parts {r : Nat} {w w' : W} (h : ByeOk r w) (hf : w.nSock ≤ r → (w.socks r).connected = false) (p : Parts r w w') :
    ByeOk r w' := by
  obtain ⟨c, d, ext, el, hx⟩ := p
  have hj : (w'.socks r).connected = (w.socks r).connected → (w'.socks r).connected = true ∨ (w'.socks r).canJoin = true →
      (w.socks r).connected = true ∨ (w.socks r).canJoin = true := by
    intro e h
    rcases c.socks r with e' | ⟨e1, e2⟩
    · rw [e'] at h; exact h
    · exact .inl e1
  rcases hx with ⟨q, f⟩ | ⟨q1, q2, f⟩
  · have e : farewell r w'.log = farewell r w.log := by rw [el, farewell_append, f, List.append_nil]
    refine ⟨fun hn => by rw [e]; exact h.fresh (by rw [← c.nSock]; exact hn), fun hc => by rw [e]; exact h.on (hj q hc), ?_⟩
    rw [e]; exact h.off.imp_right fun h => h.calm c d
  · have e : farewell r w'.log = farewell r ext := by rw [el, farewell_append, h.on (.inl q1), List.nil_append]
    refine ⟨fun hn => ?_, fun hc => ?_, ?_⟩
    · rw [c.nSock] at hn; rw [hf hn] at q1; simp at q1
    · rcases c.socks r with e' | ⟨e1, e2⟩
      · rw [e', q1] at q2; simp at q2
      · rw [e2] at hc; simp [closed] at hc
    · rw [e]; exact .inr f

/-- Nothing is said of the end of `r`, and its fields that matter stay. -/
theorem ByeOk.frame {r : Nat} {w w' : W} (h : ByeOk r w) (hn : w.nSock ≤ w'.nSock)
    (h1 : (w'.socks r).connected = true ∨ (w'.socks r).canJoin = true → farewell r w.log = [])
    (ext : List Obs) (hl : w'.log = w.log ++ ext) (hf : farewell r ext = [])
    (hfair : ∀ l, Fair r w l → farewell r w.log = l → Fair r w' l) : ByeOk r w' := by
  have e : farewell r w'.log = farewell r w.log := by rw [hl, farewell_append, hf, List.append_nil]
  exact ⟨fun h' => by rw [e]; exact h.fresh (Nat.le_trans hn h'), fun h' => by rw [e]; exact h1 h',
    by rw [e]; exact h.off.imp_right fun h => hfair _ h rfl⟩

theorem byeOk_create {r : Nat} {w : W} (h : ByeOk r w) (cfg : Cfg) (n c : Nat) (auth : Option (Session.Pid × String)) (hs : InvS w) :
    ByeOk r (createSocket cfg w n c auth) := by
  have key : ∃ ext, (createSocket cfg w n c auth).log = w.log ++ ext ∧ farewell r ext = [] ∧
      (createSocket cfg w n c auth).clients = w.clients ∧
      ∀ m, ((createSocket cfg w n c auth).nss m).name = (w.nss m).name := by
    have hrec (w : W) (s : Session.Sess) (missed : List (List Val)) : ∃ ext, (recoverSocket w n c s missed).log = w.log ++ ext ∧
        farewell r ext = [] ∧ (recoverSocket w n c s missed).clients = w.clients ∧
        ∀ m, ((recoverSocket w n c s missed).nss m).name = (w.nss m).name := by
      have hj (ref : Nat) (l : List Room) (w : W) : ∃ ext, (l.foldl (fun w x => join w ref [x]) w).log = w.log ++ ext ∧
          farewell r ext = [] ∧ (l.foldl (fun w x => join w ref [x]) w).clients = w.clients ∧
          ∀ m, ((l.foldl (fun w x => join w ref [x]) w).nss m).name = (w.nss m).name := by
        induction l generalizing w with
        | nil => exact ⟨[], by simp, rfl, rfl, fun _ => rfl⟩
        | cons a l ih =>
          obtain ⟨x, x1, x2, x3, x4⟩ := ih (join w ref [a])
          have e : (join w ref [a]).log = w.log ∧ (join w ref [a]).clients = w.clients ∧
              ∀ m, ((join w ref [a]).nss m).name = (w.nss m).name := by
            unfold join; split
            · exact ⟨rfl, rfl, fun m => upd_proj _ _ _ _ Ns.name rfl⟩
            · exact ⟨rfl, rfl, fun _ => rfl⟩
          exact ⟨x, by rw [List.foldl_cons, x1, e.1], x2, by rw [List.foldl_cons, x3, e.2.1], fun m => by rw [List.foldl_cons, x4, e.2.2]⟩
      have hp (ref : Nat) (l : List (List Val)) (w : W) :
          ∃ ext, (l.foldl (fun w a => sockPacket w ref { type := .event, data := .args a }) w).log = w.log ++ ext ∧
          farewell r ext = [] ∧ (l.foldl (fun w a => sockPacket w ref { type := .event, data := .args a }) w).clients = w.clients ∧
          (l.foldl (fun w a => sockPacket w ref { type := .event, data := .args a }) w).nss = w.nss := by
        induction l generalizing w with
        | nil => exact ⟨[], by simp, rfl, rfl, rfl⟩
        | cons a l ih =>
          obtain ⟨x, x1, x2, x3, x4⟩ := ih (sockPacket w ref { type := .event, data := .args a })
          have e := sockPacket_eq w ref { type := .event, data := .args a }
          refine ⟨sent w { type := .event, data := .args a } ref ++ x, ?_, ?_, ?_, ?_⟩
          · rw [List.foldl_cons, x1, e, List.append_assoc]
          · rw [farewell_append, x2, farewell_sent _ _ _ _ fun h => by simp at h]; rfl
          · rw [List.foldl_cons, x3, e]
          · rw [List.foldl_cons, x4, e]
      unfold recoverSocket
      obtain ⟨x, x1, x2, x3, x4⟩ := hj w.nSock s.rooms
        (alloc w { ns := n, client := c, sid := s.sid, pid := s.pid, data := s.data, recovered := true })
      obtain ⟨y, y1, y2, y3, y4⟩ := hp w.nSock missed (s.rooms.foldl (fun w' x => join w' w.nSock [x])
        (alloc w { ns := n, client := c, sid := s.sid, pid := s.pid, data := s.data, recovered := true }))
      refine ⟨x ++ y, ?_, by rw [farewell_append, x2, y2]; rfl, ?_, fun m => ?_⟩
      · rw [y1, x1, List.append_assoc]; rfl
      · rw [y3, x3]; rfl
      · rw [y4, x4]; rfl
    unfold createSocket; split
    · dsimp only; split
      · obtain ⟨x, x1, x2, x3, x4⟩ := hrec (setNs w n fun k => { k with sess := _ }) _ _
        refine ⟨x, x1, x2, x3, fun m => ?_⟩
        rw [x4]; exact upd_proj _ _ _ _ Ns.name rfl
      · exact ⟨[], by simp [newSocket, alloc, setNs], rfl, rfl, fun m => upd_proj _ _ _ _ Ns.name rfl⟩
    · exact ⟨[], by simp [newSocket, alloc], rfl, rfl, fun _ => rfl⟩
  obtain ⟨ext, k1, k2, k3, k4⟩ := key
  obtain ⟨s1, s2, s3, s4, s5⟩ := createSocket_self cfg w n c auth
  refine h.frame (by rw [createSocket_nSock]; omega) (fun hc => ?_) ext k1 k2 fun l hl e => ?_
  · by_cases hr : w.nSock ≤ r
    · exact h.fresh hr
    · rw [s5 r (by omega)] at hc; exact h.on hc
  · by_cases hr : w.nSock ≤ r
    · rw [h.fresh hr] at e; subst e
      rcases hl with hl | ⟨_, hl, -⟩ <;> simp at hl
    · unfold Fair; rw [s5 r (by omega), k3, k4]; exact hl

theorem grow_bye (cfg : Cfg) (r : Nat) : GrowR cfg r (ByeOk r) where
  inert w t ch now h := ⟨h.fresh, h.on, h.off⟩
  use w n h := h.frame (Nat.le_refl _) h.on [] (by simp [setNs]) rfl fun l hl _ => by
    unfold Fair at hl ⊢
    rw [show ∀ m, ((setNs w n fun k => { k with fns := k.fns + 1 }).nss m).name = (w.nss m).name from
      fun m => upd_proj _ _ _ _ Ns.name rfl]
    exact hl
  data w ref v h := by
    have hp {β : Type} (p : Sock → β) (hp : p { w.socks ref with data := some v } = p (w.socks ref)) (r : Nat) :
        p ((setSock w ref fun s => { s with data := some v }).socks r) = p (w.socks r) := upd_proj _ _ _ _ p hp
    refine h.frame (Nat.le_refl _) (fun hc => h.on ?_) [] (by simp [setSock]) rfl fun l hl _ => ?_
    · rw [hp Sock.connected rfl, hp Sock.canJoin rfl] at hc; exact hc
    · unfold Fair; rw [hp Sock.client rfl, hp Sock.ns rfl]; exact hl
  newNs w s _ _ _ _ hs h := by
    refine h.frame (Nat.le_refl _) h.on [] (by simp [newNs]) rfl fun l hl e => ?_
    by_cases hr : w.nSock ≤ r
    · rw [h.fresh hr] at e; subst e
      rcases hl with hl | ⟨_, hl, -⟩ <;> simp at hl
    · have hlt := (hs.sock r (by omega)).1
      unfold Fair newNs; dsimp only
      rw [upd_ne _ _ (by omega)]; exact hl
  newClient w p hs h := by
    refine h.frame (Nat.le_refl _) h.on [] (by simp) rfl fun l hl e => ?_
    by_cases hr : w.nSock ≤ r
    · rw [h.fresh hr] at e; subst e
      rcases hl with hl | ⟨_, hl, -⟩ <;> simp at hl
    · have hlt := (hs.sock r (by omega)).2
      unfold Fair; dsimp only
      rw [upd_ne _ _ (by omega)]; exact hl
  create w n c auth _ _ hs h := byeOk_create h cfg n c auth hs
  doConnect w ref hlt ho hw hs h := by
    obtain ⟨d1, d2, d3, -, d5, -, -, -, -, -, d11⟩ := doConnect_fields w ref
    refine h.frame (by rw [d5]; exact Nat.le_refl _) (fun h' => ?_) _ (d11 ho) ?_ fun l hl _ => ?_
    · rw [d2, upd_apply] at h'; split at h'
      · rename_i e; subst e; exact h.on (.inr (hw rfl).2)
      · exact h.on h'
    · refine farewell_nil fun o ho => ?_
      simp only [List.mem_cons, List.not_mem_nil, or_false] at ho
      rcases ho with rfl | rfl <;> simp [byeOf, connectPkt]
    · unfold Fair
      rw [d2, d3, d1]
      have e1 : (upd w.socks ref { w.socks ref with connected := true } r).client = (w.socks r).client := upd_proj _ _ _ _ Sock.client rfl
      have e2 : (upd w.socks ref { w.socks ref with connected := true } r).ns = (w.socks r).ns := upd_proj _ _ _ _ Sock.ns rfl
      have e3 : ∀ m, (upd w.nss (w.socks ref).ns (nsConnected w ref) m).name = (w.nss m).name :=
        fun m => upd_proj _ _ _ _ Ns.name rfl
      have e4 : ∀ m, (upd w.clients (w.socks ref).client { w.clients (w.socks ref).client with
          sockets := (w.clients (w.socks ref).client).sockets.insert (w.socks ref).sid ref
          nsps := (w.clients (w.socks ref).client).nsps.insert (w.nss (w.socks ref).ns).name ref
          timer := false } m).conn = (w.clients m).conn := fun m => upd_proj _ _ _ _ Client.conn rfl
      rw [e1, e2, e3, e4]; exact hl
  cleanup w ref _ _ _ h := by
    obtain ⟨d1, d2, d3, -, d5, -, -, -, -, d10, -⟩ := cleanup_fields cfg w ref
    refine h.frame (by rw [d5]; exact Nat.le_refl _) (fun h' => h.on ?_) [] (by simp [d10]) rfl fun l hl _ => ?_
    · rw [d2, upd_apply] at h'; split at h'
      · rename_i e; subst e; exact .inl (h'.resolve_right (by simp))
      · exact h'
    · unfold Fair
      rw [d2, d3, d1]
      rw [show (upd w.socks ref { w.socks ref with canJoin := false } r).client = (w.socks r).client from upd_proj _ _ _ _ Sock.client rfl,
        show (upd w.socks ref { w.socks ref with canJoin := false } r).ns = (w.socks r).ns from upd_proj _ _ _ _ Sock.ns rfl,
        show ∀ m, (upd w.nss (w.socks ref).ns (nsCleaned cfg w ref) m).name = (w.nss m).name from
          fun m => upd_proj _ _ _ _ Ns.name rfl]
      exact hl
  packet w c ref x hx _ h := by
    unfold clientPacket; split
    · exact h.frame (Nat.le_refl _) h.on [.packet c ref x] rfl (farewell_nil fun o ho => by
        simp at ho; subst ho; simp [byeOf, hx]) fun l hl _ => hl
    · exact h
  received w ref type h := h.frame (Nat.le_refl _) h.on [.received ref type] rfl rfl fun l hl _ => hl

theorem bye_step {r : Nat} {cfg : Cfg} {h : List Ev} {e : Ev} (hn : NextOnceFor cfg h r) (hr : Reasons cfg (· ≠ "server namespace disconnect"))
    (h0 : ∀ c reason, e = .transportClose c reason → reason ≠ "server namespace disconnect") (ho : ByeOk r (run cfg h)) :
    ByeOk r (step cfg (run cfg h) e) := by
  obtain ⟨i1, i2⟩ := inv_run cfg h
  have it := invR_run cfg h r hn
  have hf (hge : (run cfg h).nSock ≤ r) : ((run cfg h).socks r).connected = false := (it.fresh hge).1
  by_cases he : e.calm = true
  · exact ho.parts hf (parts_step r hr _ e he h0)
  · refine (grow_bye cfg r).step i1 i2 it e he
      (fun c hP => hP.parts hf ((quiet_parts cfg r).clientClose hr _ _)) (fun v ref reason hq hv hP => ?_) ho
    have hsk : v.socks = (run cfg h).socks ∧ v.nSock = (run cfg h).nSock := by rw [← hv]; exact ⟨rfl, rfl⟩
    exact hP.parts (by rw [hsk.1, hsk.2]; exact hf) (parts_onclose cfg r v ref reason (by rw [hq.2]; decide))

theorem bye_run {cfg : Cfg} {h : List Ev} {r : Nat} (hn : NextOnceFor cfg h r) (hr : EngineReasons cfg h) : ByeOk r (run cfg h) := by
  induction h using snocRec with
  | nil =>
    have e : farewell r (run cfg []).log = [] := rfl
    exact ⟨fun _ => e, fun _ => e, .inl e⟩
  | append_singleton h e ih =>
    rw [run_snoc]
    refine bye_step (nextOnceFor_snoc hn).1 ⟨fun c reason he hc => hr.1 c (by rw [he, hc]), by decide, by decide⟩
      (fun c reason he hc => hr.2 c (by rw [he, hc]; simp)) (ih (nextOnceFor_snoc hn).1 ⟨hr.1, fun c hm => hr.2 c (by simp [hm])⟩)

/-- `Client._disconnect` on an open connection: every socket of the client is told. -/
theorem clientDisconnect_tells {w : W} (g : Good w) {cfg : Cfg} (hr : Reasons cfg (· ≠ "server namespace disconnect")) (c : Nat)
    (ho : (w.clients c).conn = .opened) :
    (∀ r, (w.socks r).client = c → (w.socks r).connected = true → ∃ ext, (clientDisconnect cfg w c).log = w.log ++ ext ∧
      farewell r ext = [.told c (w.nss (w.socks r).ns).name, .ended "server namespace disconnect"]) ∧
    ((clientDisconnect cfg w c).clients c).conn ≠ .opened ∧
    ∀ r, (w.socks r).client ≠ c → (clientDisconnect cfg w c).socks r = w.socks r := by
  obtain ⟨h1, h2, h3, h4⟩ := loop_empties c (disconnectNs cfg) (fun w r h => good_disconnectNs h _ _)
    (fun w r => allLesser_disconnectNs _ _ _) (fun w sid r h hg => disconnectNs_removes h cfg c sid r hg) w g
  have g2 := good_drop g cfg c
  refine ⟨fun r hc hcn => ?_, ?_, ?_⟩
  · obtain ⟨t1, t2, x, t3, t4⟩ := tells_loop cfg r c (w.clients c).sockets.keys w
    have hoff : (((w.clients c).sockets.keys.foldl (eachSocket c (disconnectNs cfg)) w).socks r).connected = false :=
      h4 r (by rw [(t1.client_ns r).1]; exact hc)
    unfold clientDisconnect; dsimp only
    obtain ⟨-, -, y, q3, q4⟩ := (quiet_parts cfg r).clientClose hr
      (setClient ((w.clients c).sockets.keys.foldl (eachSocket c (disconnectNs cfg)) w) c fun k => { k with sockets := [] }) c
    refine ⟨x ++ y, by rw [q3]; simp only [setClient]; rw [t3, List.append_assoc], ?_⟩
    rw [farewell_append]
    have hy : farewell r y = [] := by
      rcases q4 with ⟨-, e⟩ | ⟨e, -⟩
      · exact e
      · simp only [setClient] at e; rw [hoff] at e; simp at e
    rw [hy, List.append_nil]
    rcases t4 with ⟨e, -⟩ | ⟨-, -, e⟩
    · rw [hoff, hcn] at e; simp at e
    · rw [e (by rw [hc]; exact ho), hc]
  · unfold clientDisconnect clientClose; dsimp only
    have hcl : ((setClient ((w.clients c).sockets.keys.foldl (eachSocket c (disconnectNs cfg)) w) c
        fun k => { k with sockets := [] }).clients c).conn = .opened := by
      simp only [setClient, upd_same]; rw [(tells_loop cfg 0 c _ w).2.1]; exact ho
    rw [if_pos hcl, clientOnclose_conn]
    unfold connClose; rw [if_pos hcl]; dsimp only
    split
    · split
      · rw [clientOnclose_conn]; simp [setClient]
      · simp [setClient]
    · simp [setClient]
  · intro r hr
    unfold clientDisconnect; dsimp only
    have ho2 : OthersKept c w ((w.clients c).sockets.keys.foldl (eachSocket c (disconnectNs cfg)) w) := by
      have key : ∀ (l : List Sid) (v : W), InvS v → Calm w v → OthersKept c w v →
          OthersKept c w (l.foldl (eachSocket c (disconnectNs cfg)) v) := by
        intro l; induction l with
        | nil => exact fun v _ _ h => h
        | cons a l ih =>
          intro v hv hc h
          rw [List.foldl_cons]
          refine ih _ ?_ ?_ ?_
          · unfold eachSocket; split
            · exact invS_disconnectNs hv _ _
            · exact hv
          · unfold eachSocket; split
            · exact hc.trans (calm_disconnectNs _ _ _)
            · exact hc
          · unfold eachSocket; split
            · rename_i ref hg
              rw [disconnectNs_pos cfg (hv.cl c a ref hg).2.2]
              refine others_onclose (invS_sockPacket hv _ _) (hc.trans (calm_sockPacket _ _ _)) ?_ cfg a ref ?_ _
              · rw [sockPacket_eq]; exact h
              · rw [sockPacket_eq]; exact hg
            · exact h
      exact key _ _ g.s (.refl w) fun _ _ => rfl
    have hcalm := (tells_loop cfg r c (w.clients c).sockets.keys w).1
    have hc2 : ∀ v, InvS v → (v.socks r).client ≠ c → (clientClose cfg v c).socks r = v.socks r := by
      intro v hv hne
      unfold clientClose; split
      · rename_i hop
        have hcc : InvS (connClose cfg v c) ∧ (connClose cfg v c).socks r = v.socks r := by
          refine ⟨invS_connClose hv _ _, ?_⟩
          unfold connClose; rw [if_pos hop]; dsimp only
          cases cfg.syncClose c with
          | some reason =>
            dsimp only
            by_cases hl : ((setClient v c fun k => { k with conn := .closing }).clients c).listening = true
            · rw [if_pos hl, others_clientOnclose (w := setClient v c fun k => { k with conn := .closing })
                (invS_client hv c _ (.inl rfl) rfl fun h => ⟨rfl, h⟩) cfg c _ r hne]; rfl
            · rw [if_neg hl]; rfl
          | none => rfl
        rw [others_clientOnclose hcc.1 cfg c _ r (by rw [hcc.2]; exact hne), hcc.2]
      · rfl
    rw [hc2 _ g2.s (by simp only [setClient]; rw [(hcalm.client_ns r).1]; exact hr)]
    exact ho2 r hr

end Verif.World
