import Verif.Proof.WorldReject
import Verif.Proof.Session

/-! # The server: the session stores -/

namespace Verif.World
open Verif Verif.Adapter Verif.Spec

theorem storeOps_snoc (cfg : Cfg) (n : Nat) (h : List Ev) (e : Ev) :
    storeOps cfg n (h ++ [e]) = storeOps cfg n h ++ storedBy cfg n (run cfg h) e := by
  have hf (l : List Ev) (x : W × List (Int × Session.Op)) :
      (l.foldl (fun (x : W × List (Int × Session.Op)) e => (step cfg x.1 e, x.2 ++ storedBy cfg n x.1 e)) x).1 = l.foldl (step cfg) x.1 := by
    induction l generalizing x with
    | nil => rfl
    | cons a l ih => rw [List.foldl_cons, List.foldl_cons, ih]
  unfold storeOps
  rw [List.foldl_append, List.foldl_cons, List.foldl_nil, hf]
  rfl

/-- The operations at one time. -/
def opsAt (sc : Session.Cfg) (now : Int) (s : Session.St) (ops : List Session.Op) : Session.St :=
  ops.foldl (fun s op => Session.step sc s now op) s

theorem session_run_append (sc : Session.Cfg) (h : List (Int × Session.Op)) (now : Int) (ops : List Session.Op) :
    Session.run sc (h ++ ops.map fun op => (now, op)) = opsAt sc now (Session.run sc h) ops := by
  unfold Session.run opsAt
  rw [List.foldl_append]
  generalize h.foldl (fun s e => Session.step sc s e.1 e.2) ({} : Session.St) = s
  induction ops generalizing s with
  | nil => rfl
  | cons a ops ih => simp only [List.map_cons, List.foldl_cons]; exact ih _

theorem opsAt_append (sc : Session.Cfg) (now : Int) (s : Session.St) (a b : List Session.Op) :
    opsAt sc now s (a ++ b) = opsAt sc now (opsAt sc now s a) b := List.foldl_append

/-- Sessions are saved of connected sockets only. -/
def Owned (w : W) (ext : List Obs) : Prop :=
  ∀ ref s, Obs.saved ref s ∈ ext → (w.socks ref).connected = true ∧ s.sid = (w.socks ref).sid ∧ s.pid = (w.socks ref).pid

/-- The stores change exactly by the sessions saved. -/
def SessRel (sc : Session.Cfg) (w w' : W) : Prop :=
  Calm w w' ∧ ∃ ext, w'.log = w.log ++ ext ∧ Owned w ext ∧
    ∀ n, (w'.nss n).sess = opsAt sc w.now (w.nss n).sess (ext.filterMap (savedIn w n))

theorem savedIn_congr {w w' : W} (h : ∀ r, (w'.socks r).ns = (w.socks r).ns) (n : Nat) : savedIn w' n = savedIn w n := by
  funext o; cases o <;> simp only [savedIn, h]

theorem SessRel.refl (sc : Session.Cfg) (w : W) : SessRel sc w w := ⟨.refl w, [], by simp, by simp [Owned], fun _ => rfl⟩

theorem SessRel.trans {sc : Session.Cfg} {a b c : W} (h1 : SessRel sc a b) (h2 : SessRel sc b c) : SessRel sc a c := by
  obtain ⟨c1, x, e1, o1, s1⟩ := h1
  obtain ⟨c2, y, e2, o2, s2⟩ := h2
  refine ⟨c1.trans c2, x ++ y, by rw [e2, e1, List.append_assoc], fun ref s hm => ?_, fun n => ?_⟩
  · rcases List.mem_append.1 hm with hm | hm
    · exact o1 ref s hm
    · obtain ⟨a1, a2, a3⟩ := o2 ref s hm
      exact ⟨c1.connected a1, by rw [a2, c1.sid], by rw [a3, c1.pid]⟩
  rw [s2, s1, List.filterMap_append, opsAt_append, c1.now, savedIn_congr c1.ns]

theorem SessRel.silent {sc : Session.Cfg} {w w' : W} (c : Calm w w') (ext : List Obs) (hl : w'.log = w.log ++ ext)
    (he : ∀ o ∈ ext, ∀ ref s, o ≠ .saved ref s) (hs : ∀ n, (w'.nss n).sess = (w.nss n).sess) : SessRel sc w w' := by
  refine ⟨c, ext, hl, fun ref s hm => absurd rfl (he _ hm ref s), fun n => ?_⟩
  have : ext.filterMap (savedIn w n) = [] := by
    rw [List.filterMap_eq_nil_iff]
    intro o ho
    cases o <;> simp only [savedIn]
    exact absurd rfl (he _ ho _ _)
  rw [hs, this]; rfl

theorem sessRel_packet (sc : Session.Cfg) (w : W) (c : Nat) (ref : Option Nat) (p : Pkt) : SessRel sc w (clientPacket w c ref p) := by
  have hc := calm_clientPacket w c ref p
  unfold clientPacket at hc ⊢; split at hc <;> rename_i h
  · rw [if_pos h]; exact .silent hc [_] rfl (by simp) fun _ => rfl
  · rw [if_neg h]; exact .refl sc w

theorem act_sess (cfg : Cfg) (w : W) (a : Act) (n : Nat) : ((act cfg w a).nss n).sess = (w.nss n).sess := by
  have hj (ref : Nat) (rooms : List Room) : ((join w ref rooms).nss n).sess = (w.nss n).sess := by
    unfold join; split
    · exact upd_proj _ _ _ _ Ns.sess rfl
    · rfl
  have hl (ref : Nat) (room : Room) : ((leave cfg w ref room).nss n).sess = (w.nss n).sess := upd_proj _ _ _ _ Ns.sess rfl
  cases a <;> simp only [act] <;> split
  · exact hj _ _
  · rfl
  · exact hl _ _
  · rfl

theorem acts_sess (cfg : Cfg) (l : List Act) (w : W) (n : Nat) : ((l.foldl (act cfg) w).nss n).sess = (w.nss n).sess := by
  induction l generalizing w with
  | nil => rfl
  | cons a l ih => rw [List.foldl_cons, ih, act_sess]

theorem acts_now (cfg : Cfg) (l : List Act) (w : W) : (l.foldl (act cfg) w).now = w.now := by
  induction l generalizing w with
  | nil => rfl
  | cons a l ih => rw [List.foldl_cons, ih, (calm_act cfg w a).now]

theorem sessRel_onclose (cfg : Cfg) (sc : Session.Cfg) (w : W) (ref : Nat) (reason : String) : SessRel sc w (onclose cfg w ref reason) := by
  by_cases hc : (w.socks ref).connected = true
  · refine ⟨calm_onclose _ _ _ _, _, by rw [onclose_log cfg reason hc, List.append_assoc, List.append_assoc], ?_, fun n => ?_⟩
    · have hsock : (heard cfg w ref reason).socks = w.socks := (acts_socks cfg (cfg.hook ref) (obs w (.disconnecting ref reason))).1
      intro r s hm
      have : r = ref ∧ s = session (heard cfg w ref reason) ref := by
        simp only [List.mem_append, List.mem_singleton, reduceCtorEq, false_or, or_false] at hm
        split at hm <;> simp at hm
        exact hm
      obtain ⟨rfl, rfl⟩ := this
      exact ⟨hc, by simp [session, hsock], by simp [session, hsock]⟩
    rw [onclose_pos cfg reason hc]
    obtain ⟨f1, -⟩ := shut_fields cfg (closing cfg w ref reason) ref
    have e1 : ((obs (shut cfg (closing cfg w ref reason) ref) (.disconnect ref reason)).nss n).sess = ((closing cfg w ref reason).nss n).sess := by
      show ((shut cfg (closing cfg w ref reason) ref).nss n).sess = _
      rw [f1]; exact upd_proj _ _ _ _ Ns.sess rfl
    rw [e1]
    have hh : ((heard cfg w ref reason).nss n).sess = (w.nss n).sess := acts_sess _ _ _ _
    have hnow : (heard cfg w ref reason).now = w.now := acts_now _ _ _
    have hsock : (heard cfg w ref reason).socks = w.socks := (acts_socks cfg (cfg.hook ref) (obs w (.disconnecting ref reason))).1
    show ((persist cfg (heard cfg w ref reason) ref reason).nss n).sess = _
    unfold persist; split
    · simp only [obs, setNs, upd_apply, hsock]
      by_cases e : n = (w.socks ref).ns
      · subst e
        simp only [if_true, List.filterMap_append, List.filterMap_cons, savedIn, List.filterMap_nil, List.nil_append, List.append_nil]
        rw [hh, hnow]; rfl
      · rw [if_neg e]
        have e' : ¬ (w.socks ref).ns = n := fun h => e h.symm
        simp only [List.filterMap_append, List.filterMap_cons, savedIn, List.filterMap_nil, if_neg e', List.append_nil]
        exact hh
    · simp only [List.filterMap_append, List.filterMap_cons, savedIn, List.filterMap_nil, List.append_nil]
      exact hh
  · rw [onclose_neg cfg reason hc]; exact .refl sc w

theorem quiet_sess (cfg : Cfg) (sc : Session.Cfg) : Quiet cfg (fun _ => True) (SessRel sc) where
  refl := .refl sc
  trans := .trans
  disc w ref hc := by rw [disconnectNs_pos cfg hc]; exact .trans (sessRel_packet _ _ _ _ _) (sessRel_onclose _ _ _ _ _)
  ns w n f hf := .silent (calm_setNs _ _ _ (hf _).1 (hf _).2.1) [] (by simp [setNs]) (by simp) fun m => upd_proj _ _ _ _ Ns.sess (hf _).2.2.2.2
  client w c f hf := .silent (calm_setClient _ _ _ (hf _).1) [] (by simp [setClient]) (by simp) fun m => rfl
  onclose w ref reason _ := sessRel_onclose cfg sc w ref reason

/-- The step's effect on every store is what the specification says. -/
def StoreOk (cfg : Cfg) (sc : Session.Cfg) (w : W) (e : Ev) : Prop :=
  w.log <+: (step cfg w e).log ∧ Owned w ((step cfg w e).log.drop w.log.length) ∧ ∀ n, ((step cfg w e).nss n).sess =
    opsAt sc w.now (w.nss n).sess (asked w n e ++ ((step cfg w e).log.drop w.log.length).filterMap (savedIn w n))

theorem storeOk_rel {cfg : Cfg} {sc : Session.Cfg} {w : W} {e : Ev} (ha : ∀ n, asked w n e = []) (h : SessRel sc w (step cfg w e)) :
    StoreOk cfg sc w e := by
  obtain ⟨-, ext, e1, e3, e2⟩ := h
  refine ⟨⟨ext, e1.symm⟩, by rw [e1]; simpa using e3, fun n => ?_⟩
  rw [ha, e2, e1]; simp

theorem storeOk_mute {cfg : Cfg} {sc : Session.Cfg} {w : W} {e : Ev} (ext : List Obs) (hl : (step cfg w e).log = w.log ++ ext)
    (he : ∀ o ∈ ext, ∀ ref s, o ≠ .saved ref s) (hs : ∀ n, ((step cfg w e).nss n).sess = opsAt sc w.now (w.nss n).sess (asked w n e)) :
    StoreOk cfg sc w e := by
  refine ⟨⟨ext, hl.symm⟩, fun ref s hm => absurd rfl (he _ (by rw [hl] at hm; simpa using hm) ref s), fun n => ?_⟩
  have : ext.filterMap (savedIn w n) = [] := by
    rw [List.filterMap_eq_nil_iff]
    intro o ho
    cases o <;> simp only [savedIn]
    exact absurd rfl (he _ ho _ _)
  rw [hs, hl]; simp [this]

/-- Nothing is saved. -/
def NoSave (ext : List Obs) : Prop := ∀ o ∈ ext, ∀ ref s, o ≠ .saved ref s

/-- Nothing is saved and no store changes. -/
def Mute (w w' : W) : Prop := (∃ ext, w'.log = w.log ++ ext ∧ NoSave ext) ∧ ∀ n, (w'.nss n).sess = (w.nss n).sess

theorem Mute.refl (w : W) : Mute w w := ⟨⟨[], by simp, by simp [NoSave]⟩, fun _ => rfl⟩

theorem noSave_append {a b : List Obs} (h1 : NoSave a) (h2 : NoSave b) : NoSave (a ++ b) := fun o h =>
  (List.mem_append.1 h).elim (h1 o) (h2 o)

theorem Mute.trans {a b c : W} (h1 : Mute a b) (h2 : Mute b c) : Mute a c := by
  obtain ⟨⟨x, e1, n1⟩, s1⟩ := h1
  obtain ⟨⟨y, e2, n2⟩, s2⟩ := h2
  exact ⟨⟨x ++ y, by rw [e2, e1, List.append_assoc], noSave_append n1 n2⟩, fun n => (s2 n).trans (s1 n)⟩

theorem mute_packet (w : W) (c : Nat) (ref : Option Nat) (p : Pkt) : Mute w (clientPacket w c ref p) := by
  unfold clientPacket; split
  · exact ⟨⟨_, rfl, by simp [NoSave]⟩, fun _ => rfl⟩
  · exact .refl w

theorem broadcast_store {cfg : Cfg} {sc : Session.Cfg} {b : Bool} (hr : cfg.recovery = some (sc, b)) (w : W) (n : Nat) (p : Pkt)
    (opts : Option Opts) :
    (∃ ext, (broadcast cfg w n p opts).log = w.log ++ ext ∧ NoSave ext) ∧
    ∀ m, ((broadcast cfg w n p opts).nss m).sess = if m = n then (Session.broadcast sc w.now p opts (w.nss n).sess).1 else (w.nss m).sess := by
  unfold broadcast; rw [hr]; dsimp only
  have h := apply_rel (V := view n) (cb := fun w' ref => sockPacket w' ref (Session.broadcast sc w.now p opts (w.nss n).sess).2)
    Mute Mute.refl Mute.trans (fun s id r _ => mute_packet _ _ _ _)
    opts (setNs w n fun k => { k with sess := (Session.broadcast sc w.now p opts (w.nss n).sess).1 })
  refine ⟨h.1, fun m => ?_⟩
  rw [h.2]
  simp only [setNs, upd_apply]
  split <;> rfl

theorem create_store (cfg : Cfg) {sc : Session.Cfg} {b : Bool} (hr : cfg.recovery = some (sc, b)) (w : W) (n c : Nat)
    (auth : Option (Session.Pid × String)) :
    ∀ m, ((createSocket cfg w n c auth).nss m).sess =
      opsAt sc w.now (w.nss m).sess (if m = n then auth.toList.map fun a => .restore a.1 a.2 else []) := by
  intro m
  unfold createSocket; rw [hr]
  cases auth with
  | none => simp [newSocket, alloc, opsAt]
  | some a =>
    obtain ⟨pid, offset⟩ := a
    dsimp only
    have key : ((setNs w n fun k => { k with sess := (Session.restore sc w.now pid offset (w.nss n).sess).1 }).nss m).sess =
        opsAt sc w.now (w.nss m).sess (if m = n then [.restore pid offset] else []) := by
      simp only [setNs, upd_apply]
      split
      · rename_i e; subst e; rfl
      · rfl
    simp only [Option.toList_some, List.map_cons, List.map_nil]
    rw [← key]
    split
    · rw [recover_eq]; exact upd_proj _ _ _ _ Ns.sess rfl
    · rfl

theorem add_store (cfg : Cfg) {sc : Session.Cfg} {b : Bool} (hr : cfg.recovery = some (sc, b)) (w : W) (n c : Nat)
    (auth : Option (Session.Pid × String)) :
    (∃ ext, (add cfg w n c auth).log = w.log ++ ext ∧ NoSave ext) ∧ ∀ m, ((add cfg w n c auth).nss m).sess =
      opsAt sc w.now (w.nss m).sess (if m = n then auth.toList.map fun a => .restore a.1 a.2 else []) := by
  obtain ⟨ext, e1, e2, -, -⟩ := create_packets cfg w n c auth
  have hs := create_store cfg hr w n c auth
  have hno : NoSave ext := fun o ho ref s he => by obtain ⟨p, hp, -⟩ := e2 o ho; rw [hp] at he; simp at he
  obtain ⟨-, s2, -⟩ := createSocket_self cfg w n c auth
  unfold add; dsimp only; split
  · rename_i hsk
    obtain ⟨d1, -, -, -, -, -, -, -, -, -, d11⟩ := doConnect_fields (createSocket cfg w n c auth) w.nSock
    refine ⟨⟨_, by rw [d11 (by rw [s2]; exact hsk.2.2), e1, List.append_assoc], noSave_append hno (by simp [NoSave])⟩, fun m => ?_⟩
    rw [← hs, d1]; exact upd_proj _ _ _ _ Ns.sess rfl
  · split
    · exact ⟨⟨ext, e1, hno⟩, hs⟩
    · exact ⟨⟨ext, e1, hno⟩, hs⟩

theorem opsAt_fresh_restore (sc : Session.Cfg) (now : Int) (auth : Option (Session.Pid × String)) :
    opsAt sc now {} (auth.toList.map fun a => .restore a.1 a.2) = {} := by
  cases auth with
  | none => rfl
  | some a => rfl

theorem connect_store (cfg : Cfg) {sc : Session.Cfg} {b : Bool} (hr : cfg.recovery = some (sc, b)) (w : W) (c : Nat) (name : String)
    (auth : Option (Session.Pid × String)) (hn : ∀ m, w.nNs ≤ m → (w.nss m).sess = {}) :
    (∃ ext, (connect cfg w c name auth).log = w.log ++ ext ∧ NoSave ext) ∧ ∀ m, ((connect cfg w c name auth).nss m).sess =
      opsAt sc w.now (w.nss m).sess (if w.nsps.get? name = some m then auth.toList.map fun a => .restore a.1 a.2 else []) := by
  unfold connect; split
  · rename_i n hg
    obtain ⟨h1, h2⟩ := add_store cfg hr w n c auth
    refine ⟨h1, fun m => ?_⟩
    rw [h2]
    by_cases e : m = n
    · subst e; simp [hg]
    · simp [hg, e, Ne.symm e]
  · rename_i hg
    split
    · obtain ⟨h1, h2⟩ := add_store cfg hr (newNs w { name := name, fns := cfg.childFns, auto := cfg.autoClean }) w.nNs c auth
      refine ⟨h1, fun m => ?_⟩
      rw [h2]; simp only [newNs, upd_apply, hg, reduceCtorEq, if_false]
      split
      · rename_i e; subst e
        rw [hn _ (Nat.le_refl _)]
        exact opsAt_fresh_restore _ _ _
      · rfl
    · obtain ⟨h1, h2⟩ := mute_packet w c none { type := .connectError, nsp := name, data := .error "Invalid namespace" none }
      refine ⟨h1, fun m => ?_⟩
      rw [h2]; simp [hg, opsAt]

theorem storeOk_step (cfg : Cfg) {sc : Session.Cfg} {b : Bool} (hr : cfg.recovery = some (sc, b)) {w : W}
    (hn : ∀ m, w.nNs ≤ m → (w.nss m).sess = {}) (e : Ev) : StoreOk cfg sc w e := by
  have hid (he : step cfg w e = w) (ha : ∀ n, asked w n e = []) : StoreOk cfg sc w e :=
    storeOk_mute [] (by rw [he]; simp) (by simp) fun n => by rw [he, ha]; rfl
  have hfield (ha : ∀ n, asked w n e = []) (hl : (step cfg w e).log = w.log) (hss : ∀ n, ((step cfg w e).nss n).sess = (w.nss n).sess) :
      StoreOk cfg sc w e := storeOk_mute [] (by rw [hl]; simp) (by simp) fun n => by rw [hss, ha]; rfl
  by_cases he : e.calm = true
  · cases e <;> simp only [Ev.calm, Bool.false_eq_true] at he
    case tick m =>
      refine storeOk_mute [] (by simp [step, hr, setNs]) (by simp) fun n => ?_
      simp only [step, hr, asked, setNs, upd_apply]
      by_cases e : n = m
      · subst e; simp [opsAt, Session.step]
      · simp [e, Ne.symm e, opsAt]
    case broadcast m args id rooms except flags =>
      by_cases hm : m < w.nNs
      · obtain ⟨⟨ext, h1, h2⟩, h3⟩ := broadcast_store hr w m { type := .event, data := .args args, id := id } (options rooms except flags)
        refine storeOk_mute ext (by simp only [step]; rw [if_pos hm]; exact h1) h2 fun n => ?_
        simp only [step]; rw [if_pos hm, h3]
        by_cases e : n = m
        · subst e; simp [asked, hm, opsAt, Session.step, options]
        · simp [asked, e, Ne.symm e, opsAt]
      · exact hid (by simp only [step]; rw [if_neg hm]) fun n => by simp [asked, hm]
    case emit ref args flags =>
      by_cases hm : ref < w.nSock
      · obtain ⟨⟨ext, h1, h2⟩, h3⟩ := broadcast_store hr w (w.socks ref).ns { type := .event, data := .args args }
          (options [(w.socks ref).sid] [] flags)
        have e0 : step cfg w (.emit ref args flags) = broadcast cfg w (w.socks ref).ns { type := .event, data := .args args }
            (options [(w.socks ref).sid] [] flags) := by
          simp only [step]; rw [if_pos hm]; unfold emit; rw [hr]
        refine storeOk_mute ext (by rw [e0]; exact h1) h2 fun n => ?_
        rw [e0, h3]
        by_cases e : n = (w.socks ref).ns
        · subst e; simp [asked, hm, opsAt, Session.step, options]
        · simp [asked, e, Ne.symm e, opsAt]
      · exact hid (by simp only [step]; rw [if_neg hm]) fun n => by simp [asked, hm]
    all_goals
      refine storeOk_rel (fun _ => rfl) ((quiet_sess cfg sc).step (reasons_true cfg) w _ (fun _ _ _ => trivial) (fun c l _ => ?_) (fun n l _ => ?_) (fun l _ => ?_)
        (fun n args id rooms except flags h => ?_) (fun ref args flags h => ?_) (fun n sc' b' h => ?_) rfl)
      · exact .silent (calm_setClient _ _ _ rfl) [] (by simp [setClient]) (by simp) fun m => rfl
      · exact .silent (calm_setNs _ _ _ rfl rfl) [] (by simp [setNs]) (by simp) fun m => upd_proj _ _ _ _ Ns.sess rfl
      · exact .silent (calm_nsps _ _) [] (by simp) (by simp) fun m => rfl
      all_goals simp at h
  · have hconn {w0 : W} (c : Nat) (name : String) (auth : Option (Session.Pid × String)) (q : step cfg w e = connect cfg w0 c name auth)
        (q1 : w0.nss = w.nss) (q2 : w0.nNs = w.nNs) (q3 : w0.log = w.log) (q4 : w0.now = w.now) (q5 : w0.nsps = w.nsps)
        (ha : ∀ n, asked w n e = if w.nsps.get? name = some n then auth.toList.map fun a => .restore a.1 a.2 else []) :
        StoreOk cfg sc w e := by
      obtain ⟨⟨ext, h1, h2⟩, h3⟩ := connect_store cfg hr w0 c name auth (by rw [q1, q2]; exact hn)
      refine storeOk_mute ext (by rw [q, h1, q3]) h2 fun n => ?_
      rw [q, h3, q1, q4, q5, ha]
    have hclose (c : Nat) (q : step cfg w e = clientClose cfg w c) (ha : ∀ n, asked w n e = []) : StoreOk cfg sc w e :=
      storeOk_rel ha (by rw [q]; exact (quiet_sess cfg sc).clientClose (reasons_true cfg) w c)
    cases e <;> simp only [Ev.calm, not_true_eq_false] at he
    case accept p =>
      by_cases hp : p = true
      · subst hp
        exact hconn (w0 := { w with
          clients := upd w.clients w.nClient { proto3 := true, conn := .opened, timer := true, listening := true }
          nClient := w.nClient + 1 }) w.nClient "/" none rfl rfl rfl rfl rfl rfl fun n => by simp [asked]
      · refine hfield (fun _ => rfl) ?_ fun n => ?_ <;> simp only [step, accept] <;> rw [if_neg hp]
    case recv c type name auth =>
      have has (h : ¬ (type = .connect ∧ c < w.nClient ∧ (w.clients c).listening = true ∧ (w.clients c).nsps.get? name = none)) (n : Nat) :
          asked w n (.recv c type name auth) = [] := by
        unfold asked
        split <;> first | rfl | skip
        all_goals (rename_i heq; injection heq)
        all_goals (subst_vars; exact if_neg fun hh => h ⟨hh.1, hh.2.1, hh.2.2.1, hh.2.2.2.1⟩)
      by_cases hl : c < w.nClient ∧ (w.clients c).listening = true
      · cases hg : (w.clients c).nsps.get? name with
        | none =>
          by_cases ht : type = .connect
          · subst ht
            refine hconn (w0 := w) c name auth ?_ rfl rfl rfl rfl rfl fun n => ?_
            · simp only [step]; rw [if_pos hl]; unfold ondecoded; rw [hg]; simp
            · cases auth with
              | none => simp [asked]
              | some a => obtain ⟨pid, off⟩ := a; simp [asked, hl, hg]
          · refine hclose c ?_ (has fun h => ht h.1)
            simp only [step]; rw [if_pos hl]; unfold ondecoded; rw [hg]; simp [ht]
        | some ref =>
          have has' := has fun h => by rw [hg] at h; simp at h
          by_cases ht : type ≠ .connect ∧ type ≠ .connectError
          · refine hfield has' ?_ fun n => ?_ <;>
              (simp only [step]; rw [if_pos hl]; unfold ondecoded; rw [hg]; simp [ht])
          · refine hclose c ?_ has'
            simp only [step]; rw [if_pos hl]; unfold ondecoded; rw [hg]; dsimp only; rw [if_neg ht]
      · exact hid (by simp only [step]; rw [if_neg hl]) (has fun h => hl ⟨h.2.1, h.2.2.1⟩)
    case task k =>
      cases hk : w.tasks[k]? with
      | none => exact hid (by simp only [step]; rw [hk]) fun _ => rfl
      | some t =>
        have q : step cfg w (.task k) = runTask cfg { w with tasks := w.tasks.eraseIdx k } t := by simp only [step]; rw [hk]
        have hmute (m : Mute w (step cfg w (.task k))) : StoreOk cfg sc w (.task k) := by
          obtain ⟨⟨ext, h1, h2⟩, h3⟩ := m
          exact storeOk_mute ext h1 h2 fun n => by rw [h3]; rfl
        cases t with
        | result ref err =>
          refine hmute ?_
          rw [q]; simp only [runTask, result]
          have hcl : Mute w (cleanup cfg { w with tasks := w.tasks.eraseIdx k } ref) := by
            obtain ⟨d1, -, -, -, -, -, -, -, -, d10, -⟩ := cleanup_fields cfg { w with tasks := w.tasks.eraseIdx k } ref
            exact ⟨⟨[], by rw [d10]; simp, by simp [NoSave]⟩, fun n => by rw [d1]; exact upd_proj _ _ _ _ Ns.sess rfl⟩
          split
          · exact hcl
          · rename_i ho
            split
            · exact hcl.trans (mute_packet _ _ _ _)
            · obtain ⟨d1, -, -, -, -, -, -, -, -, -, d11⟩ := doConnect_fields { w with tasks := w.tasks.eraseIdx k } ref
              exact ⟨⟨_, d11 (by simpa using ho), by simp [NoSave]⟩, fun n => by rw [d1]; exact upd_proj _ _ _ _ Ns.sess rfl⟩
        | packet ref type =>
          by_cases ht : type = .disconnect
          · have h0 := sessRel_onclose cfg sc { w with tasks := w.tasks.eraseIdx k } ref "client namespace disconnect"
            obtain ⟨-, ext, e1, e3, e2⟩ := h0
            have q' : step cfg w (.task k) = onclose cfg { w with tasks := w.tasks.eraseIdx k } ref "client namespace disconnect" := by
              rw [q]; simp [runTask, onpacket, ht]
            refine ⟨⟨ext, by rw [q', e1]⟩, by rw [q', e1, List.drop_left]; exact e3, fun n => ?_⟩
            rw [q']
            rw [e2, e1]
            simp only [asked, List.nil_append, List.drop_left]
            rfl
          · refine hmute ?_
            rw [q]; simp only [runTask, onpacket, ht, if_false]
            exact ⟨⟨_, rfl, by simp [NoSave]⟩, fun _ => rfl⟩
    case next k i err =>
      have : (next w k i err).log = w.log ∧ (next w k i err).nss = w.nss := by
        unfold next; split
        · exact ⟨rfl, rfl⟩
        · split
          · dsimp only; split <;> exact ⟨rfl, rfl⟩
          · exact ⟨rfl, rfl⟩
      exact hfield (fun _ => rfl) this.1 fun n => by simp only [step]; rw [this.2]
    case «of» name =>
      cases hg : w.nsps.get? name with
      | some x => exact hid (by simp only [step]; rw [hg]) fun _ => rfl
      | none =>
        refine hfield (fun _ => rfl) ?_ fun n => ?_ <;> simp only [step] <;> rw [hg]
        · rfl
        · simp only [newNs, upd_apply]; split
          · rename_i e; subst e; rw [hn _ (Nat.le_refl _)]
          · rfl
    case use m =>
      by_cases hm : m < w.nNs
      · refine hfield (fun _ => rfl) ?_ fun n => ?_ <;> simp only [step] <;> rw [if_pos hm]
        · rfl
        · exact upd_proj _ _ _ _ Ns.sess rfl
      · exact hid (by simp only [step]; rw [if_neg hm]) fun _ => rfl
    case setData ref v =>
      by_cases hm : ref < w.nSock
      · refine hfield (fun _ => rfl) ?_ fun n => ?_ <;> simp only [step] <;> rw [if_pos hm] <;> rfl
      · exact hid (by simp only [step]; rw [if_neg hm]) fun _ => rfl
    case clock t => exact hfield (fun _ => rfl) rfl fun _ => rfl

/-- What holds of the stores and of the sessions saved so far. -/
structure Stores (cfg : Cfg) (sc : Session.Cfg) (h : List Ev) : Prop where
  store : ∀ n, ((run cfg h).nss n).sess = Session.run sc (storeOps cfg n h)
  fresh : ∀ n, (run cfg h).nNs ≤ n → ((run cfg h).nss n).sess = {}
  owned : ∀ ref s, Obs.saved ref s ∈ (run cfg h).log → ref < (run cfg h).nSock ∧ s.sid = ((run cfg h).socks ref).sid ∧
    s.pid = ((run cfg h).socks ref).pid

theorem stores_run (cfg : Cfg) {sc : Session.Cfg} {b : Bool} (hr : cfg.recovery = some (sc, b)) (h : List Ev) : Stores cfg sc h := by
  induction h using snocRec with
  | nil =>
    refine ⟨fun n => ?_, fun n _ => ?_, fun ref s hm => by simp [run, init, newNs] at hm⟩
    · simp only [run, List.foldl_nil, init, newNs, upd_apply]; split <;> rfl
    · simp only [run, List.foldl_nil, init, newNs, upd_apply]; split <;> rfl
  | append_singleton h e ih =>
    have hs := (inv_run cfg h).1
    have hk := kept_step cfg (run cfg h) e
    obtain ⟨⟨ext, e1⟩, s1, s2⟩ := storeOk_step cfg hr ih.fresh e
    refine ⟨fun n => ?_, fun n hn => ?_, fun ref s hm => ?_⟩
    · rw [run_snoc, storeOps_snoc, storedBy, session_run_append, ← ih.store, s2]
    · rw [run_snoc] at hn ⊢
      have hn0 := Nat.le_trans hk.nNs hn
      rw [s2, ih.fresh n hn0]
      have h1 : ((step cfg (run cfg h) e).log.drop (run cfg h).log.length).filterMap (savedIn (run cfg h) n) = [] := by
        rw [List.filterMap_eq_nil_iff]
        intro o ho
        cases o <;> simp only [savedIn]
        rename_i ref s
        have := (hs.sock _ (hs.conn _ (s1 ref s ho).1)).1
        rw [if_neg (by omega)]
      rw [h1, List.append_nil]
      have h2 : asked (run cfg h) n e = [] ∨ asked (run cfg h) n e = [.tick] := by
        unfold asked; split <;> first | exact .inl rfl | skip
        · rw [if_neg (by omega)]; exact .inl rfl
        · rw [if_neg]
          · exact .inl rfl
          · rintro ⟨a1, a2⟩; have := (hs.sock _ a1).1; omega
        · split
          · exact .inr rfl
          · exact .inl rfl
        · rw [if_neg]
          · exact .inl rfl
          · rintro ⟨-, -, -, -, a5⟩; have := (hs.names _ _ a5).1; omega
      rcases h2 with e | e <;> rw [e] <;> rfl
    · rw [run_snoc] at hm ⊢
      rw [← e1, List.mem_append] at hm
      rcases hm with hm | hm
      · obtain ⟨a1, a2, a3⟩ := ih.owned ref s hm
        exact ⟨Nat.lt_of_lt_of_le a1 hk.nSock, by rw [a2, hk.sid _ a1], by rw [a3, hk.pid _ a1]⟩
      · obtain ⟨a1, a2, a3⟩ := s1 ref s (by rw [← e1, List.drop_left]; exact hm)
        have a0 := hs.conn _ a1
        exact ⟨Nat.lt_of_lt_of_le a0 hk.nSock, by rw [a2, hk.sid _ a0], by rw [a3, hk.pid _ a0]⟩

end Verif.World
