import Verif.Proof.WorldConn
import Verif.Proof.WorldFirst
import Verif.Spec.Data

/-! # The server: the data of a socket -/

namespace Verif.World
open Verif Verif.Adapter Verif.Spec

/-- No data changes, and the sessions saved have the data of their sockets. -/
def DataRel (w w' : W) : Prop :=
  (∀ r, (w'.socks r).data = (w.socks r).data) ∧
    ∃ ext, w'.log = w.log ++ ext ∧ ∀ r s, Obs.saved r s ∈ ext → s.data = (w.socks r).data

theorem DataRel.of {w w' : W} (h1 : w'.socks = w.socks) (h2 : w'.log = w.log) : DataRel w w' :=
  ⟨fun r => by rw [h1], [], by simp [h2], by simp⟩

theorem DataRel.refl (w : W) : DataRel w w := .of rfl rfl

theorem DataRel.trans {a b c : W} (h1 : DataRel a b) (h2 : DataRel b c) : DataRel a c := by
  obtain ⟨d1, x, e1, s1⟩ := h1
  obtain ⟨d2, y, e2, s2⟩ := h2
  refine ⟨fun r => (d2 r).trans (d1 r), x ++ y, by rw [e2, e1, List.append_assoc], fun r s hm => ?_⟩
  rcases List.mem_append.1 hm with hm | hm
  · exact s1 r s hm
  · rw [s2 r s hm, d1]

theorem dataRel_packet (w : W) (c : Nat) (ref : Option Nat) (p : Pkt) : DataRel w (clientPacket w c ref p) := by
  unfold clientPacket; split
  · exact ⟨fun _ => rfl, _, rfl, by simp⟩
  · exact .refl w

theorem dataRel_onclose (cfg : Cfg) (w : W) (ref : Nat) (reason : String) : DataRel w (onclose cfg w ref reason) := by
  refine ⟨fun r => ?_, ?_⟩
  · rcases (calm_onclose cfg w ref reason).socks r with e | ⟨-, e⟩ <;> rw [e]; rfl
  · by_cases hc : (w.socks ref).connected = true
    · refine ⟨_, by rw [onclose_log cfg reason hc, List.append_assoc, List.append_assoc], fun r s hm => ?_⟩
      have hd : (session (heard cfg w ref reason) ref).data = (w.socks ref).data := by
        show ((heard cfg w ref reason).socks ref).data = _
        rw [show (heard cfg w ref reason).socks = w.socks from (acts_socks cfg (cfg.hook ref) (obs w (.disconnecting ref reason))).1]
      split at hm
      · simp only [List.cons_append, List.nil_append, List.mem_cons, List.not_mem_nil, or_false, reduceCtorEq, false_or,
          Obs.saved.injEq] at hm
        rw [hm.2, hm.1]; exact hd
      · simp at hm
    · rw [onclose_neg cfg reason hc]; exact ⟨[], by simp, by simp⟩

theorem prim_data (cfg : Cfg) (Q : String → Prop) : Prim cfg Q DataRel where
  refl := .refl
  trans := .trans
  packet := dataRel_packet
  ns _ _ _ _ := .of rfl rfl
  client _ _ _ _ := .of rfl rfl
  onclose w ref reason _ := dataRel_onclose cfg w ref reason

theorem dataRel_doConnect (w : W) (ref : Nat) (ho : (w.clients (w.socks ref).client).conn = .opened) : DataRel w (doConnect w ref) := by
  obtain ⟨-, d2, -, -, -, -, -, -, -, -, d11⟩ := doConnect_fields w ref
  exact ⟨fun r => by rw [d2]; exact upd_proj _ _ _ _ Sock.data rfl, _, d11 ho, by simp⟩

theorem dataRel_cleanup (cfg : Cfg) (w : W) (ref : Nat) : DataRel w (cleanup cfg w ref) := by
  obtain ⟨-, d2, -, -, -, -, -, -, -, d10, -⟩ := cleanup_fields cfg w ref
  exact ⟨fun r => by rw [d2]; exact upd_proj _ _ _ _ Sock.data rfl, [], by simp [d10], by simp⟩

/-- What the data of a new socket is. -/
def Born (cfg : Cfg) (w : W) (s : Sock) : Prop :=
  (s.recovered = false → s.data = none) ∧
  (s.recovered = true → ∃ sc b pid off x missed, cfg.recovery = some (sc, b) ∧
    (Session.restore sc w.now pid off (w.nss s.ns).sess).2 = .ok x missed ∧ s.data = x.data ∧ s.pid = x.pid ∧ s.sid = x.sid)

/-- At most one socket is created, with this data. -/
def DataGrow (cfg : Cfg) (w w' : W) : Prop :=
  (∀ r, r < w.nSock → (w'.socks r).data = (w.socks r).data) ∧
  (∃ ext, w'.log = w.log ++ ext ∧ ∀ r s, Obs.saved r s ∈ ext → s.data = (w.socks r).data) ∧
  (∀ r, w.nSock ≤ r → r < w'.nSock → Born cfg w (w'.socks r))

theorem DataRel.grow {w w' : W} (h : DataRel w w') (hn : w'.nSock = w.nSock) (cfg : Cfg) : DataGrow cfg w w' :=
  ⟨fun r _ => h.1 r, h.2, fun r h1 h2 => by omega⟩

theorem born_create (cfg : Cfg) (w : W) (n c : Nat) (auth : Option (Session.Pid × String)) :
    Born cfg w ((createSocket cfg w n c auth).socks w.nSock) := by
  unfold createSocket; split
  · rename_i sc b pid off hr
    dsimp only; split
    · rename_i s missed he
      rw [recover_eq]
      refine ⟨fun h => ?_, fun _ => ⟨sc, b, pid, off, s, missed, hr, ?_, ?_, ?_, ?_⟩⟩
      · simp [setNs] at h
      · simpa [setNs] using he
      all_goals simp [setNs]
    · exact ⟨fun _ => by simp [newSocket, alloc, setNs], fun h => by simp [newSocket, alloc, setNs] at h⟩
  · exact ⟨fun _ => by simp [newSocket, alloc], fun h => by simp [newSocket, alloc] at h⟩

theorem grow_add (cfg : Cfg) (w : W) (n c : Nat) (auth : Option (Session.Pid × String)) : DataGrow cfg w (add cfg w n c auth) := by
  obtain ⟨ext, e1, e2, -, -⟩ := create_packets cfg w n c auth
  obtain ⟨-, s2, -, -, s5⟩ := createSocket_self cfg w n c auth
  have hb := born_create cfg w n c auth
  have hn := createSocket_nSock cfg w n c auth
  have hno : ∀ r s, Obs.saved r s ∈ ext → s.data = (w.socks r).data := fun r s hm => by
    obtain ⟨p, hp, -⟩ := e2 _ hm; cases hp
  have g0 : DataGrow cfg w (createSocket cfg w n c auth) :=
    ⟨fun r hr => by rw [s5 r hr], ⟨ext, e1, hno⟩, fun r h1 h2 => by
      have : r = w.nSock := by omega
      subst this; exact hb⟩
  unfold add; dsimp only; split
  · rename_i hsk
    obtain ⟨d1, d2, -, -, d5, -, -, -, -, -, d11⟩ := doConnect_fields (createSocket cfg w n c auth) w.nSock
    have hp {β : Type} (p : Sock → β) (hp : ∀ s : Sock, p { s with connected := true } = p s) (r : Nat) :
        p ((doConnect (createSocket cfg w n c auth) w.nSock).socks r) = p ((createSocket cfg w n c auth).socks r) := by
      rw [d2]; exact upd_proj _ _ _ _ p (hp _)
    refine ⟨fun r hr => by rw [hp Sock.data fun _ => rfl]; exact g0.1 r hr, ?_, fun r h1 h2 => ?_⟩
    · refine ⟨_, by rw [d11 (by rw [s2]; exact hsk.2.2), e1, List.append_assoc], fun r s hm => ?_⟩
      rcases List.mem_append.1 hm with hm | hm
      · exact hno r s hm
      · simp at hm
    · have := g0.2.2 r h1 (by rw [d5] at h2; exact h2)
      unfold Born at this ⊢
      rw [hp Sock.data fun _ => rfl, hp Sock.recovered fun _ => rfl, hp Sock.pid fun _ => rfl, hp Sock.sid fun _ => rfl,
        hp Sock.ns fun _ => rfl]
      exact this
  · split
    · exact ⟨g0.1, g0.2.1, g0.2.2⟩
    · exact ⟨g0.1, g0.2.1, g0.2.2⟩

theorem born_congr {cfg : Cfg} {w w' : W} {s : Sock} (h : Born cfg w' s) (ht : w'.now = w.now)
    (hs : ∀ n, (w'.nss n).sess = (w.nss n).sess) : Born cfg w s := by
  refine ⟨h.1, fun hr => ?_⟩
  obtain ⟨sc, b, pid, off, x, missed, h1, h2, h3⟩ := h.2 hr
  exact ⟨sc, b, pid, off, x, missed, h1, by rw [← ht, ← hs]; exact h2, h3⟩

theorem born_newNs {cfg : Cfg} {w : W} {k : Ns} (hk : k.sess = {}) {s : Sock} (h : Born cfg (newNs w k) s) : Born cfg w s := by
  refine ⟨h.1, fun hr => ?_⟩
  obtain ⟨sc, b, pid, off, x, missed, h1, h2, h3⟩ := h.2 hr
  by_cases e : s.ns = w.nNs
  · simp only [newNs, e, upd_same, hk] at h2
    simp [Session.restore] at h2
  · simp only [newNs] at h2
    rw [upd_ne _ _ e] at h2
    exact ⟨sc, b, pid, off, x, missed, h1, h2, h3⟩

theorem grow_connect (cfg : Cfg) (w : W) (c : Nat) (name : String)
    (auth : Option (Session.Pid × String)) : DataGrow cfg w (connect cfg w c name auth) := by
  unfold connect; split
  · exact grow_add _ _ _ _ _
  · split
    · have g := grow_add cfg (newNs w { name := name, fns := cfg.childFns, auto := cfg.autoClean }) w.nNs c auth
      refine ⟨g.1, g.2.1, fun r h1 h2 => born_newNs rfl (g.2.2 r h1 h2)⟩
    · exact (dataRel_packet _ _ _ _).grow (by unfold clientPacket; split <;> rfl) _

/-- What an event does to the data. -/
def DataStep (cfg : Cfg) (w : W) (e : Ev) : Prop :=
  (∀ r, r < w.nSock → (∀ v, e ≠ .setData r v) → ((step cfg w e).socks r).data = (w.socks r).data) ∧
  (∃ ext, (step cfg w e).log = w.log ++ ext ∧ ∀ r s, Obs.saved r s ∈ ext → s.data = (w.socks r).data) ∧
  (∀ r, w.nSock ≤ r → r < (step cfg w e).nSock → Born cfg w ((step cfg w e).socks r))

theorem data_step (cfg : Cfg) (w : W) (e : Ev) : DataStep cfg w e := by
  have of : DataGrow cfg w (step cfg w e) → DataStep cfg w e := fun g => ⟨fun r hr _ => g.1 r hr, g.2.1, g.2.2⟩
  have p := prim_data cfg fun _ => True
  have t : ∀ (c : Nat) (r : String), cfg.syncClose c = some r → True := fun _ _ _ => trivial
  by_cases he : e.calm = true
  · exact of ((p.step w e (fun _ _ _ => .of rfl rfl) (fun _ _ _ => .of rfl rfl) (fun _ _ => .of rfl rfl) he).grow
      (calm_step cfg w e he).nSock cfg)
  · cases e <;> simp only [Ev.calm, not_true_eq_false] at he
    case accept b =>
      refine of ?_
      simp only [step, accept]; split
      · have g := grow_connect cfg { w with
          clients := upd w.clients w.nClient { proto3 := b, conn := .opened, timer := true, listening := true }
          nClient := w.nClient + 1 } w.nClient "/" none
        exact ⟨g.1, g.2.1, fun r h1 h2 => born_congr (g.2.2 r h1 h2) rfl fun _ => rfl⟩
      · exact (DataRel.of rfl rfl).grow rfl cfg
    case recv c type name auth =>
      refine of ?_
      simp only [step]; split
      · unfold ondecoded; split
        · split
          · exact grow_connect cfg w _ _ _
          · exact (p.clientClose _ _ (t _) trivial).grow (calm_clientClose _ _ _).nSock cfg
        · split
          · exact (DataRel.of rfl rfl).grow rfl cfg
          · exact (p.clientClose _ _ (t _) trivial).grow (calm_clientClose _ _ _).nSock cfg
      · exact (DataRel.refl w).grow rfl cfg
    case task k =>
      refine of ?_
      simp only [step]; split
      · rename_i tk hk
        have h0 : DataRel w { w with tasks := w.tasks.eraseIdx k } := .of rfl rfl
        cases tk with
        | result ref err =>
          simp only [runTask, result]; split
          · exact (h0.trans (dataRel_cleanup cfg _ ref)).grow (cleanup_fields cfg _ ref).2.2.2.2.1 cfg
          · rename_i ho
            split
            · exact ((h0.trans (dataRel_cleanup cfg _ ref)).trans (p.sockPacket _ _ _)).grow
                ((calm_sockPacket _ _ _).nSock.trans (cleanup_fields cfg _ ref).2.2.2.2.1) cfg
            · exact (h0.trans (dataRel_doConnect _ ref (by simpa using ho))).grow (doConnect_fields _ ref).2.2.2.2.1 cfg
        | packet ref type =>
          simp only [runTask, onpacket]; split
          · exact (h0.trans (dataRel_onclose cfg _ ref _)).grow (calm_onclose cfg { w with tasks := w.tasks.eraseIdx k } ref _).nSock cfg
          · have h1 : DataRel w (obs { w with tasks := w.tasks.eraseIdx k } (.received ref type)) :=
              ⟨fun _ => rfl, [.received ref type], rfl, by simp⟩
            exact h1.grow rfl cfg
      · exact (DataRel.refl w).grow rfl cfg
    case next k i err =>
      refine of ?_
      simp only [step]; unfold next; split
      · exact (DataRel.refl w).grow rfl cfg
      · split
        · dsimp only; split <;> exact (DataRel.of rfl rfl).grow rfl cfg
        · exact (DataRel.refl w).grow rfl cfg
    case «of» name =>
      refine of ?_
      simp only [step]; split
      · exact (DataRel.refl w).grow rfl cfg
      · exact (DataRel.of rfl rfl).grow rfl cfg
    case use n =>
      refine of ?_
      simp only [step]; split
      · exact (DataRel.of rfl rfl).grow rfl cfg
      · exact (DataRel.refl w).grow rfl cfg
    case setData ref v =>
      simp only [DataStep, step]; split
      · refine ⟨fun r hr hne => ?_, ⟨[], by simp [setSock], by simp⟩, fun r h1 h2 => by simp [setSock] at h2; omega⟩
        have : r ≠ ref := fun e => hne v (by rw [e])
        simp only [setSock]; rw [upd_ne _ _ this]
      · exact ⟨fun _ _ _ => rfl, ⟨[], by simp, by simp⟩, fun r h1 h2 => by omega⟩
    case clock now => exact of ((DataRel.of rfl rfl).grow rfl cfg)

/-- The data of a socket stays until it is set. -/
theorem data_kept (cfg : Cfg) (h t : List Ev) (r : Nat) (hlt : r < (run cfg h).nSock) (ht : ∀ v, Ev.setData r v ∉ t) :
    ((run cfg (h ++ t)).socks r).data = ((run cfg h).socks r).data := by
  induction t using snocRec with
  | nil => simp
  | append_singleton t e ih =>
    have ih := ih fun v hv => ht v (List.mem_append_left _ hv)
    rw [← List.append_assoc, run_snoc, (data_step cfg _ e).1 r (Nat.lt_of_lt_of_le hlt (kept_run cfg h t).nSock) fun v e' => ht v (by simp [e'])]
    exact ih

theorem filterMap_same {α β : Type} {f g : α → Option β} {l : List α} (h : ∀ a ∈ l, f a = g a) : l.filterMap f = l.filterMap g := by
  induction l with
  | nil => rfl
  | cons a l ih =>
    simp only [List.filterMap_cons, h a (by simp), ih fun b hb => h b (by simp [hb])]

theorem log_step (cfg : Cfg) (w : W) (e : Ev) : ∃ ext, (step cfg w e).log = w.log ++ ext ∧ ∀ r s, Obs.saved r s ∈ ext → s.data = (w.socks r).data :=
  (data_step cfg w e).2.1

/-- The sessions saved in a namespace, in order. -/
theorem saves_snoc (cfg : Cfg) {sc : Session.Cfg} {b : Bool} (hr : cfg.recovery = some (sc, b)) (n : Nat) (h : List Ev) (e : Ev) (ext : List Obs)
    (hl : (step cfg (run cfg h) e).log = (run cfg h).log ++ ext) :
    savesIn cfg n (h ++ [e]) = savesIn cfg n h ++ ext.filterMap (saveIn (run cfg h) n) := by
  have st := stores_run cfg hr h
  have hk := kept_step cfg (run cfg h) e
  obtain ⟨-, so, -⟩ := storeOk_step cfg hr st.fresh e
  have same : ∀ o ∈ (step cfg (run cfg h) e).log, saveIn (step cfg (run cfg h) e) n o = saveIn (run cfg h) n o := by
    intro o ho
    cases o <;> simp only [saveIn]
    rename_i ref s
    have hlt : ref < (run cfg h).nSock := by
      rw [hl] at ho
      rcases List.mem_append.1 ho with ho | ho
      · exact (st.owned ref s ho).1
      · exact (inv_run cfg h).1.conn ref (so ref s (by rw [hl]; simpa using ho)).1
    rw [hk.ns ref hlt]
  unfold savesIn
  rw [run_snoc, ← List.filterMap_append, ← hl]
  exact filterMap_same same

theorem persists_eq (cfg : Cfg) {sc : Session.Cfg} {b : Bool} (hr : cfg.recovery = some (sc, b)) (n : Nat) (h : List Ev) :
    (storeOps cfg n h).filterMap (fun x => match x.2 with | .persist s => some s | _ => none) = (savesIn cfg n h).map (·.2) := by
  induction h using snocRec with
  | nil => rfl
  | append_singleton h e ih =>
    obtain ⟨ext, hl, -⟩ := log_step cfg (run cfg h) e
    rw [storeOps_snoc, List.filterMap_append, ih, saves_snoc cfg hr n h e ext hl, List.map_append]
    congr 1
    unfold storedBy
    rw [hl, List.drop_left, List.map_append, List.filterMap_append]
    have h0 : ((asked (run cfg h) n e).map fun op => ((run cfg h).now, op)).filterMap
        (fun x : Int × Session.Op => match x.2 with | .persist s => some s | _ => none) = [] := by
      unfold asked
      (repeat' split) <;> first | rfl | (rename_i o; cases o <;> rfl) | simp
    rw [h0, List.nil_append]
    clear hl h0 ih
    induction ext with
    | nil => rfl
    | cons o ext ih2 =>
      cases o
      case saved ref s =>
        simp only [List.filterMap_cons, savedIn, saveIn]
        by_cases e : ((run cfg h).socks ref).ns = n
        · simp only [e, if_true, List.map_cons, List.filterMap_cons, ih2]
        · simp only [e, if_false, ih2]
      all_goals simp only [List.filterMap_cons, savedIn, saveIn, ih2]

/-- Where a session was saved. -/
theorem save_at (cfg : Cfg) {sc : Session.Cfg} {b : Bool} (hr : cfg.recovery = some (sc, b)) (n : Nat) (h : List Ev)
    (before after : List (Nat × Session.Sess)) (r : Nat) (s : Session.Sess) (hs : savesIn cfg n h = before ++ (r, s) :: after) :
    ∃ h₀ e t, h = h₀ ++ e :: t ∧ (savesIn cfg n h₀).length ≤ before.length ∧ before.length < (savesIn cfg n (h₀ ++ [e])).length ∧
      s.data = ((run cfg h₀).socks r).data ∧ r < (run cfg h₀).nSock ∧ s.sid = ((run cfg h₀).socks r).sid ∧
      s.pid = ((run cfg h₀).socks r).pid ∧ ((run cfg h₀).socks r).ns = n := by
  induction h using snocRec generalizing after with
  | nil => simp [savesIn, run, init, newNs] at hs
  | append_singleton h e ih =>
    obtain ⟨ext, hl, hd⟩ := log_step cfg (run cfg h) e
    have hsn := saves_snoc cfg hr n h e ext hl
    by_cases hlt : before.length < (savesIn cfg n h).length
    · have : ∃ a', savesIn cfg n h = before ++ (r, s) :: a' := by
        rw [hsn] at hs
        rcases List.append_eq_append_iff.1 hs with ⟨y, h1, h2⟩ | ⟨y, h1, h2⟩
        · rw [h1] at hlt; simp at hlt; omega
        · cases y with
          | nil => rw [h1] at hlt; simp at hlt
          | cons z y => simp only [List.cons_append, List.cons.injEq] at h2; exact ⟨y, by rw [h1, h2.1]⟩
      obtain ⟨a', ha⟩ := this
      obtain ⟨h₀, e', t, q1, q2⟩ := ih a' ha
      exact ⟨h₀, e', t ++ [e], by rw [q1]; simp, q2⟩
    · refine ⟨h, e, [], rfl, by omega, by rw [hs]; simp, ?_⟩
      have hm : (r, s) ∈ ext.filterMap (saveIn (run cfg h) n) := by
        rw [hsn] at hs
        rcases List.append_eq_append_iff.1 hs with ⟨y, h1, h2⟩ | ⟨y, h1, h2⟩
        · rw [h2]; simp
        · cases y with
          | nil => simp only [List.nil_append] at h2; rw [← h2]; simp
          | cons z y => rw [h1] at hlt; simp at hlt
      obtain ⟨o, ho, he⟩ := List.mem_filterMap.1 hm
      cases o <;> simp only [saveIn, reduceCtorEq] at he
      rename_i ref s'
      split at he
      · rename_i hns
        simp only [Option.some.injEq, Prod.mk.injEq] at he
        obtain ⟨rfl, rfl⟩ := he
        have st := stores_run cfg hr h
        obtain ⟨-, so, -⟩ := storeOk_step cfg hr st.fresh e
        obtain ⟨c1, c2, c3⟩ := so ref s' (by rw [hl]; simpa using ho)
        exact ⟨hd _ _ ho, (inv_run cfg h).1.conn _ c1, c2, c3, hns⟩
      · cases he

/-- What the last session saved with that private id was. -/
theorem lastSave {cfg : Cfg} {sc : Session.Cfg} {b : Bool} (hr : cfg.recovery = some (sc, b)) (n : Nat) (h : List Ev) (pid : Session.Pid)
    (x : Session.Sess) (t : Int) (hx : LastSaved (storeOps cfg n h) pid x t) :
    ∃ h₀ e r, LastSave cfg n pid h h₀ e r ∧ x.data = ((run cfg h₀).socks r).data ∧ r < (run cfg h₀).nSock ∧
      x.sid = ((run cfg h₀).socks r).sid ∧ x.pid = ((run cfg h₀).socks r).pid ∧ ((run cfg h₀).socks r).ns = n := by
  obtain ⟨pre, post, e1, e2, e3⟩ := hx
  have hp := persists_eq cfg hr n h
  rw [e1, List.filterMap_append, List.filterMap_cons] at hp
  simp only at hp
  obtain ⟨l1, l2, m1, m2, m3⟩ := List.map_eq_append_iff.1 hp.symm
  obtain ⟨⟨r, s⟩, l3, m4, m5, m6⟩ := List.map_eq_cons_iff.1 m3
  simp only at m5; subst m5
  rw [m4] at m1
  obtain ⟨h₀, e, t', q1, q2, q3, q4⟩ := save_at cfg hr n h l1 l3 r s m1
  refine ⟨h₀, e, r, ⟨t', l1, s, l3, q1, m1, e2, fun y hy => ?_, q2, q3⟩, q4⟩
  have hy' : y.2 ∈ l3.map (·.2) := List.mem_map.2 ⟨y, hy, rfl⟩
  rw [m6] at hy'
  obtain ⟨⟨t2, op⟩, ho, hq⟩ := List.mem_filterMap.1 hy'
  cases op <;> simp only [reduceCtorEq, Option.some.injEq] at hq
  subst hq
  exact e3 t2 _ ho

end Verif.World
