import Verif.Proof.WorldSave

/-! # The server: what happens in one namespace -/

namespace Verif.World
open Verif Verif.Adapter Verif.Spec

/-- `OnlyIn`, with what is needed to compose it. -/
structure Within (n : Nat) (w w' : W) : Prop extends OnlyIn n w w' where
  mono : w.nSock ≤ w'.nSock
  stable : ∀ r, r < w.nSock → (w'.socks r).ns = (w.socks r).ns

theorem Within.refl (n : Nat) (w : W) : Within n w w :=
  ⟨⟨fun _ _ => rfl, fun _ _ _ => rfl, fun _ h1 h2 => absurd h2 (Nat.not_lt.2 h1), [], by simp, by simp⟩, Nat.le_refl _, fun _ _ => rfl⟩

theorem Within.trans {n : Nat} {a b c : W} (h1 : Within n a b) (h2 : Within n b c) : Within n a c where
  spaces m hm := (h2.spaces m hm).trans (h1.spaces m hm)
  sockets r hr hn := by
    rw [h2.sockets r (Nat.lt_of_lt_of_le hr h1.mono) (by rw [h1.stable r hr]; exact hn), h1.sockets r hr hn]
  created r hr hr' := by
    rcases Nat.lt_or_ge r b.nSock with h | h
    · rw [h2.stable r h]; exact h1.created r hr h
    · exact h2.created r h hr'
  seen := by
    obtain ⟨x, e1, p1⟩ := h1.seen
    obtain ⟨y, e2, p2⟩ := h2.seen
    refine ⟨x ++ y, by rw [e2, e1, List.append_assoc], fun o ho r hr => ?_⟩
    rcases List.mem_append.1 ho with ho | ho
    · obtain ⟨a, b⟩ := p1 o ho r hr
      exact ⟨Nat.lt_of_lt_of_le a h2.mono, by rw [h2.stable r a]; exact b⟩
    · exact p2 o ho r hr
  mono := Nat.le_trans h1.mono h2.mono
  stable r hr := by rw [h2.stable r (Nat.lt_of_lt_of_le hr h1.mono), h1.stable r hr]

/-- A step that creates nothing, changes the state of one namespace and writes about one of its sockets. -/
theorem Within.step {n : Nat} {w w' : W} (h1 : ∀ m, m ≠ n → w'.nss m = w.nss m) (h2 : w'.nSock = w.nSock)
    (h3 : ∀ r, (w.socks r).ns ≠ n → w'.socks r = w.socks r) (h4 : ∀ r, (w'.socks r).ns = (w.socks r).ns) (ext : List Obs)
    (h5 : w'.log = w.log ++ ext) (h6 : ∀ o ∈ ext, ∀ r, socketOf o = some r → r < w.nSock ∧ (w.socks r).ns = n) : Within n w w' where
  spaces := h1
  sockets r _ hn := h3 r hn
  created r ha hb := absurd (h2 ▸ hb) (Nat.not_lt.2 ha)
  seen := ⟨ext, h5, fun o ho r hr => by rw [h2, h4]; exact h6 o ho r hr⟩
  mono := Nat.le_of_eq h2.symm
  stable r _ := h4 r

theorem within_ns (w : W) (n : Nat) (f : Ns → Ns) : Within n w (setNs w n f) :=
  .step (fun m hm => upd_ne _ _ hm) rfl (fun _ _ => rfl) (fun _ => rfl) [] (by simp [setNs]) (by simp)

theorem within_obs (w : W) {n : Nat} (o : Obs) (h : ∀ r, socketOf o = some r → r < w.nSock ∧ (w.socks r).ns = n) : Within n w (obs w o) :=
  .step (fun _ _ => rfl) rfl (fun _ _ => rfl) (fun _ => rfl) [o] rfl (by simpa using h)

theorem within_packet (w : W) {n : Nat} (c : Nat) (ref : Option Nat) (p : Pkt) (h : ∀ r, ref = some r → r < w.nSock ∧ (w.socks r).ns = n) :
    Within n w (clientPacket w c ref p) := by
  unfold clientPacket; split
  · exact within_obs _ _ h
  · exact .refl _ _

theorem within_sockPacket (w : W) {ref : Nat} (hr : ref < w.nSock) (p : Pkt) : Within (w.socks ref).ns w (sockPacket w ref p) :=
  within_packet _ _ _ _ fun r h => by simp only [Option.some.injEq] at h; subst h; exact ⟨hr, rfl⟩

theorem within_join (w : W) (ref : Nat) (rooms : List Room) : Within (w.socks ref).ns w (join w ref rooms) := by
  unfold join; split
  · exact within_ns _ _ _
  · exact .refl _ _

theorem within_leave (cfg : Cfg) (w : W) (ref : Nat) (room : Room) : Within (w.socks ref).ns w (leave cfg w ref room) := within_ns _ _ _

theorem within_act (cfg : Cfg) (w : W) (a : Act) {ref : Nat} (h : match a with | .join x _ => x = ref | .leave x _ => x = ref) :
    Within (w.socks ref).ns w (act cfg w a) := by
  cases a <;> simp only at h <;> subst h <;> simp only [act] <;> split
  · exact within_join _ _ _
  · exact .refl _ _
  · exact within_leave _ _ _ _
  · exact .refl _ _

theorem within_acts (cfg : Cfg) (l : List Act) (w : W) {ref : Nat} (h : ∀ a ∈ l, match a with | .join x _ => x = ref | .leave x _ => x = ref) :
    Within (w.socks ref).ns w (l.foldl (act cfg) w) := by
  induction l generalizing w with
  | nil => exact .refl _ _
  | cons a l ih =>
    rw [List.foldl_cons]
    have h1 := within_act cfg w a (h a List.mem_cons_self)
    have h2 := ih (act cfg w a) fun b hb => h b (List.mem_cons_of_mem _ hb)
    rw [(act_socks cfg w a).1] at h2
    exact h1.trans h2

theorem within_onclose (cfg : Cfg) (hh : OwnHooks cfg) (w : W) {ref : Nat} (hr : ref < w.nSock) (reason : String) :
    Within (w.socks ref).ns w (onclose cfg w ref reason) := by
  by_cases hc : (w.socks ref).connected = true
  · have h1 : Within (w.socks ref).ns w (obs w (.disconnecting ref reason)) :=
      within_obs _ _ fun r h => by simp only [socketOf, Option.some.injEq] at h; subst h; exact ⟨hr, rfl⟩
    have h2 : Within (w.socks ref).ns w (heard cfg w ref reason) := h1.trans (within_acts cfg (cfg.hook ref) (obs w (.disconnecting ref reason)) (hh ref))
    have hs : (heard cfg w ref reason).socks = w.socks := by unfold heard; rw [(acts_socks _ _ _).1]; rfl
    have h3 : Within (w.socks ref).ns w (closing cfg w ref reason) := by
      refine h2.trans ?_
      show Within _ _ (persist cfg (heard cfg w ref reason) ref reason)
      unfold persist; split
      · rw [hs]
        refine (within_ns (heard cfg w ref reason) (w.socks ref).ns _).trans (within_obs _ _ fun r h => ?_)
        simp only [socketOf, Option.some.injEq] at h; subst h
        exact ⟨Nat.lt_of_lt_of_le hr h2.mono, by show ((heard cfg w ref reason).socks ref).ns = _; rw [hs]⟩
      · exact .refl _ _
    obtain ⟨f1, f2, -, -, f5, -, -, -, -, f10, -⟩ := shut_fields cfg (closing cfg w ref reason) ref
    have cs := (closing_socks cfg w ref reason).1
    rw [onclose_pos cfg reason hc]
    refine h3.trans (.step (fun m hm => ?_) (by simp only [obs]; exact f5) (fun r hn => ?_) (fun r => ?_) [.disconnect ref reason]
      (by simp only [obs, f10]) ?_)
    · simp only [obs]; rw [f1, cs, upd_ne _ _ hm]
    · simp only [obs]; rw [f2, upd_ne _ _ (by rintro rfl; rw [cs] at hn; exact hn rfl)]
    · simp only [obs]; rw [f2]; exact upd_proj _ _ _ _ Sock.ns rfl
    · simp only [List.mem_singleton, forall_eq, socketOf, Option.some.injEq, forall_eq']
      exact ⟨Nat.lt_of_lt_of_le hr h3.mono, by rw [cs]⟩
  · rw [onclose_neg cfg reason hc]; exact .refl _ _

theorem within_disconnectNs (cfg : Cfg) (hh : OwnHooks cfg) (w : W) {ref : Nat} (hr : ref < w.nSock) :
    Within (w.socks ref).ns w (disconnectNs cfg w ref) := by
  unfold disconnectNs; split
  · have h1 := within_sockPacket w hr { type := .disconnect }
    have h2 := within_onclose cfg hh (sockPacket w ref { type := .disconnect }) (ref := ref) (Nat.lt_of_lt_of_le hr h1.mono) "server namespace disconnect"
    rw [h1.stable ref hr] at h2
    exact h1.trans h2
  · exact .refl _ _

/-- What is done for each socket that `apply` selects. -/
theorem within_apply {n : Nat} {w : W} (hs : InvS w) {cb : W → Nat → W} (opts : Option Opts)
    (h : ∀ (v : W) (ref : Nat), InvS v → ref < v.nSock → Within (v.socks ref).ns v (cb v ref) ∧ InvS (cb v ref)) :
    Within n w (apply (view n) opts cb w).1 := by
  have := apply_rel (V := view n) (cb := cb) (fun a b => InvS a → Within n a b ∧ InvS b) (fun a h => ⟨.refl _ _, h⟩)
    (fun f g h => ⟨(f h).1.trans (g (f h).2).1, (g (f h).2).2⟩) (fun v sid ref hg hv => ?_) opts w hs
  · exact this.1
  · have hg' : (v.nss n).sockets.get? sid = some ref := hg
    obtain ⟨a, b, c⟩ := hv.reg n sid ref hg'
    have := h v ref hv (hv.conn ref c)
    rw [a] at this; exact this

theorem within_leaveEach (cfg : Cfg) (rooms : List Room) (w : W) (ref : Nat) (hs : InvS w) :
    Within (w.socks ref).ns w (leaveEach cfg rooms w ref) ∧ InvS (leaveEach cfg rooms w ref) := by
  unfold leaveEach
  induction rooms generalizing w with
  | nil => exact ⟨.refl _ _, hs⟩
  | cons a l ih =>
    rw [List.foldl_cons]
    obtain ⟨h1, h2⟩ := ih (leave cfg w ref a) (invS_leave hs _ _ _)
    exact ⟨(within_leave cfg w ref a).trans h1, h2⟩

theorem within_broadcast (cfg : Cfg) {w : W} (hs : InvS w) (n : Nat) (p : Pkt) (opts : Option Opts) : Within n w (broadcast cfg w n p opts) := by
  have ha (w : W) (hs : InvS w) (x : Pkt) : Within n w (apply (view n) opts (fun w ref => sockPacket w ref x) w).1 :=
    within_apply hs opts fun v ref hv hr => ⟨within_sockPacket v hr x, invS_sockPacket hv _ _⟩
  unfold broadcast; split
  · rename_i sc _ _
    exact (within_ns w n fun k => { k with sess := (Session.broadcast sc w.now p opts (w.nss n).sess).1 }).trans (ha _ (invS_sess hs _ _) _)
  · exact ha _ hs _

theorem within_doConnect {w : W} {ref : Nat} (hr : ref < w.nSock) : Within (w.socks ref).ns w (doConnect w ref) := by
  obtain ⟨d1, d2, -, -, d5, -⟩ := doConnect_fields w ref
  have hl : ∃ ext, (doConnect w ref).log = w.log ++ ext ∧ ∀ o ∈ ext, socketOf o = some ref := by
    simp only [doConnect, obs, setClient]
    unfold sockPacket clientPacket
    have hj (v : W) (rooms : List Room) : (join v ref rooms).log = v.log := by unfold join; split <;> rfl
    split
    · exact ⟨_, by simp only [obs, hj]; rw [List.append_assoc]; rfl, by simp [socketOf]⟩
    · exact ⟨_, by rw [hj]; rfl, by simp [socketOf]⟩
  obtain ⟨ext, e1, e2⟩ := hl
  refine .step (fun m hm => by rw [d1, upd_ne _ _ hm]) d5 (fun r hn => ?_) (fun r => ?_) ext e1 fun o ho r h => ?_
  · rw [d2, upd_ne _ _ (by rintro rfl; exact hn rfl)]
  · rw [d2]; exact upd_proj _ _ _ _ Sock.ns rfl
  · rw [e2 o ho] at h; simp only [Option.some.injEq] at h; subst h; exact ⟨hr, rfl⟩

theorem within_cleanup (cfg : Cfg) (w : W) (ref : Nat) : Within (w.socks ref).ns w (cleanup cfg w ref) := by
  obtain ⟨d1, d2, -, -, d5, -, -, -, -, d10, -⟩ := cleanup_fields cfg w ref
  refine .step (fun m hm => by rw [d1, upd_ne _ _ hm]) d5 (fun r hn => ?_) (fun r => ?_) [] (by simp [d10]) (by simp)
  · rw [d2, upd_ne _ _ (by rintro rfl; exact hn rfl)]
  · rw [d2]; exact upd_proj _ _ _ _ Sock.ns rfl

theorem within_alloc (w : W) (s : Sock) : Within s.ns w (alloc w s) where
  spaces _ _ := rfl
  sockets r hr _ := by simp only [alloc]; rw [upd_ne _ _ (Nat.ne_of_lt hr)]
  created r h1 h2 := by
    simp only [alloc] at h2 ⊢
    have : r = w.nSock := by omega
    subst this; rw [upd_same]
  seen := ⟨[], by simp [alloc], by simp⟩
  mono := Nat.le_succ _
  stable r hr := by simp only [alloc]; rw [upd_ne _ _ (Nat.ne_of_lt hr)]

theorem within_joins (w : W) (ref : Nat) (l : List Room) : Within (w.socks ref).ns w (l.foldl (fun w r => join w ref [r]) w) ∧
    (l.foldl (fun w r => join w ref [r]) w).socks = w.socks := by
  induction l generalizing w with
  | nil => exact ⟨.refl _ _, rfl⟩
  | cons a l ih =>
    rw [List.foldl_cons]
    have hs : (join w ref [a]).socks = w.socks := by unfold join; split <;> rfl
    obtain ⟨h1, h2⟩ := ih (join w ref [a])
    rw [hs] at h1 h2
    exact ⟨(within_join w ref [a]).trans h1, h2⟩

theorem within_writes (w : W) (ref : Nat) (hr : ref < w.nSock) (l : List (List Val)) :
    Within (w.socks ref).ns w (l.foldl (fun w l => sockPacket w ref { type := .event, data := .args l }) w) := by
  induction l generalizing w with
  | nil => exact .refl _ _
  | cons a l ih =>
    rw [List.foldl_cons]
    have h1 := within_sockPacket w hr { type := .event, data := .args a }
    have h2 := ih (sockPacket w ref { type := .event, data := .args a }) (Nat.lt_of_lt_of_le hr h1.mono)
    rw [h1.stable ref hr] at h2
    exact h1.trans h2

theorem within_create (cfg : Cfg) (w : W) (n c : Nat) (auth : Option (Session.Pid × String)) : Within n w (createSocket cfg w n c auth) := by
  have hrec (w : W) (s : Session.Sess) (missed : List (List Val)) : Within n w (recoverSocket w n c s missed) := by
    unfold recoverSocket
    have h0 := within_alloc w { ns := n, client := c, sid := s.sid, pid := s.pid, data := s.data, recovered := true }
    generalize hv : alloc w { ns := n, client := c, sid := s.sid, pid := s.pid, data := s.data, recovered := true } = v at h0
    have hns : (v.socks w.nSock).ns = n := by rw [← hv]; simp [alloc]
    have hlt : w.nSock < v.nSock := by rw [← hv]; simp [alloc]
    obtain ⟨h1, h2⟩ := within_joins v w.nSock s.rooms
    have h3 := within_writes (s.rooms.foldl (fun w' r => join w' w.nSock [r]) v) w.nSock (Nat.lt_of_lt_of_le hlt h1.mono) missed
    rw [h2, hns] at h3
    rw [hns] at h1
    exact h0.trans (h1.trans h3)
  have hnew (w : W) : Within n w (newSocket cfg w n c) :=
    within_alloc w { ns := n, client := c, sid := freshSid cfg w n c, pid := if cfg.recovery.isSome then cfg.newPid w.nSock else "" }
  unfold createSocket; split
  · dsimp only; split
    · exact (within_ns w n _).trans (hrec _ _ _)
    · exact (within_ns w n _).trans (hnew _)
  · exact hnew w

theorem within_inert {n : Nat} {w w' : W} (h : Within n w w') (t : List Task) (c : List Chain) : Within n w { w' with tasks := t, chains := c } :=
  ⟨⟨h.spaces, h.sockets, h.created, h.seen⟩, h.mono, h.stable⟩

theorem within_add (cfg : Cfg) (w : W) (n c : Nat) (auth : Option (Session.Pid × String)) : Within n w (add cfg w n c auth) := by
  have h1 := within_create cfg w n c auth
  have hlt : w.nSock < (createSocket cfg w n c auth).nSock := by rw [createSocket_nSock]; omega
  unfold add; dsimp only; split
  · have h2 := within_doConnect hlt
    rw [h1.created w.nSock (Nat.le_refl _) hlt] at h2
    exact h1.trans h2
  · split
    · exact within_inert h1 _ _
    · exact within_inert h1 _ _

theorem within_newNs (w : W) (s : Ns) : Within w.nNs w (newNs w s) :=
  .step (fun m hm => by simp only [newNs]; rw [upd_ne _ _ hm]) rfl (fun _ _ => rfl) (fun _ => rfl) [] (by simp [newNs]) (by simp)

theorem within_connect (cfg : Cfg) (w : W) (c : Nat) (name : String) (auth : Option (Session.Pid × String)) :
    Within ((w.nsps.get? name).getD w.nNs) w (connect cfg w c name auth) := by
  unfold connect
  cases hg : w.nsps.get? name with
  | some n => exact within_add _ _ _ _ _
  | none =>
    dsimp only; split
    · exact (within_newNs w _).trans (within_add _ _ _ _ _)
    · exact within_packet _ _ _ _ (by simp)

/-- **C23**, one step. -/
theorem within_step (cfg : Cfg) (hh : OwnHooks cfg) {w : W} (hs : InvS w) (hr : Refs w) (e : Ev) (n : Nat) (he : actsIn w e = some n) :
    Within n w (step cfg w e) := by
  have task0 (t : List Task) : Within n w { w with tasks := t } := within_inert (.refl n w) t w.chains
  unfold actsIn at he
  split at he <;> (try simp only [Option.some.injEq, reduceCtorEq] at he) <;> (try subst he) <;> simp only [step]
  · exact within_act cfg w (.join _ _) rfl
  · exact within_act cfg w (.leave _ _) rfl
  · split
    · rename_i ref _ _
      refine .step (fun _ _ => rfl) rfl (fun r hn => ?_) (fun r => ?_) [] (by simp [setSock]) (by simp)
      · simp only [setSock]; rw [upd_ne _ _ (by rintro rfl; exact hn rfl)]
      · exact upd_proj _ _ _ _ Sock.ns rfl
    · exact .refl _ _
  · split
    · rename_i hlt
      unfold emit; split
      · exact within_broadcast cfg hs _ _ _
      · exact within_sockPacket _ hlt _
    · exact .refl _ _
  · split
    · rename_i hlt
      simp only [disconnect]; split
      · simp only [Bool.false_eq_true, if_false]; exact within_disconnectNs cfg hh _ hlt
      · exact .refl _ _
    · exact .refl _ _
  · refine within_apply hs _ fun v ref hv hlt => ⟨?_, invS_disconnect hv _ _ _⟩
    unfold disconnect; split
    · simp only [Bool.false_eq_true, if_false]; exact within_disconnectNs cfg hh _ hlt
    · exact .refl _ _
  · exact within_apply hs _ fun v ref hv hlt => ⟨within_join _ _ _, invS_join hv hlt _⟩
  · exact within_apply hs _ fun v ref hv hlt => within_leaveEach cfg _ _ _ hv
  · split
    · exact within_broadcast cfg hs _ _ _
    · exact .refl _ _
  · split
    · exact within_ns _ _ _
    · exact .refl _ _
  · split
    · exact within_ns _ _ _
    · exact .refl _ _
  · unfold next; split
    · exact .refl _ _
    · split
      · dsimp only; split
        · exact within_inert (.refl n w) _ _
        · exact within_inert (.refl n w) w.tasks _
      · exact .refl _ _
  · rename_i k
    obtain ⟨t, hk, ht⟩ := Option.map_eq_some_iff.1 he
    rw [hk]
    have hlt := hr.tasks t (List.mem_of_getElem? hk)
    refine (task0 (w.tasks.eraseIdx k)).trans ?_
    cases t with
    | result ref err =>
      simp only at ht; subst ht
      have hcl := within_cleanup cfg { w with tasks := w.tasks.eraseIdx k } ref
      simp only [runTask, result]; split
      · exact hcl
      · split
        · have h2 := within_sockPacket (cleanup cfg { w with tasks := w.tasks.eraseIdx k } ref) (ref := ref) (Nat.lt_of_lt_of_le hlt hcl.mono)
            { type := .connectError, data := errorData (w.clients (w.socks ref).client).proto3 (by assumption) }
          rw [hcl.stable ref hlt] at h2
          exact hcl.trans h2
        · exact within_doConnect (w := { w with tasks := w.tasks.eraseIdx k }) hlt
    | packet ref type =>
      simp only at ht; subst ht
      simp only [runTask, onpacket]; split
      · exact within_onclose cfg hh { w with tasks := w.tasks.eraseIdx k } hlt _
      · exact within_obs _ _ fun r h => by simp only [socketOf, Option.some.injEq] at h; subst h; exact ⟨hlt, rfl⟩
  · split at he
    · rename_i hg
      simp only [Option.some.injEq] at he; subst he
      split
      · unfold ondecoded; rw [hg]; simp only [if_true]; exact within_connect _ _ _ _ _
      · exact .refl _ _
    · simp at he

end Verif.World
