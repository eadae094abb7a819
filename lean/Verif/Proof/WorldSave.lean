import Verif.Proof.WorldStore
import Verif.Proof.WorldReject

/-! # The server: what a saved session contains -/

namespace Verif.World
open Verif Verif.Adapter Verif.Spec

/-- All room tables are consistent. -/
def Ads (w : W) : Prop := ∀ n, Inv (w.nss n).ad

/-- Socket `r` is in the room. -/
def In (w : W) (r : Nat) (room : Room) : Prop := (w.nss (w.socks r).ns).ad.inRoom (w.socks r).sid room

theorem ads_set {w : W} (h : Ads w) (n : Nat) (f : Ns → Ns) (hf : Inv (w.nss n).ad → Inv (f (w.nss n)).ad) : Ads (setNs w n f) := by
  intro m; simp only [setNs, upd_apply]; split
  · exact hf (h _)
  · exact h m

theorem join_in {w : W} (h : Ads w) (ref : Nat) (rooms : List Room) (r : Nat) (room : Room) :
    Ads (join w ref rooms) ∧ (In (join w ref rooms) r room ↔ In w r room ∨ ((w.socks r).ns = (w.socks ref).ns ∧
      (w.socks r).sid = (w.socks ref).sid ∧ (w.socks ref).canJoin = true ∧ room ∈ rooms)) := by
  unfold join; split
  · rename_i hc
    refine ⟨ads_set h _ _ fun hi => (addAll_spec hi _ _).1, ?_⟩
    simp only [In, setNs, upd_apply]; split
    · rename_i e; rw [(addAll_spec (h _) _ _).2.1, e]; simp [hc]
    · rename_i e; simp [e]
  · rename_i hc; exact ⟨h, by simp [hc]⟩

theorem leave_in (cfg : Cfg) {w : W} (h : Ads w) (ref : Nat) (x : Room) (r : Nat) (room : Room) :
    Ads (leave cfg w ref x) ∧ (In (leave cfg w ref x) r room ↔ In w r room ∧ ¬ ((w.socks r).ns = (w.socks ref).ns ∧
      (w.socks r).sid = (w.socks ref).sid ∧ room = x)) := by
  unfold leave
  refine ⟨ads_set h _ _ fun hi => (del_spec hi _ _ _).1, ?_⟩
  simp only [In, setNs, upd_apply]; split
  · rename_i e; rw [(del_spec (h _) _ _ _).2.1, e]; simp
  · rename_i e; simp [e]

theorem act_ads (cfg : Cfg) {w : W} (h : Ads w) (a : Act) : Ads (act cfg w a) := by
  cases a <;> simp only [act] <;> split
  · exact (join_in h _ _ 0 "").1
  · exact h
  · exact (leave_in cfg h _ _ 0 "").1
  · exact h

theorem acts_ads (cfg : Cfg) {w : W} (h : Ads w) (l : List Act) : Ads (l.foldl (act cfg) w) := by
  induction l generalizing w with
  | nil => exact h
  | cons a l ih => exact ih (act_ads cfg h a)

/-- The action concerns socket `ref`. -/
def Act.by (a : Act) (ref : Nat) : Prop := match a with | .join x _ => x = ref | .leave x _ => x = ref

/-- Actions of a socket with another id. -/
theorem acts_other (cfg : Cfg) {w : W} (h : Ads w) {r ref : Nat} (hne : (w.socks r).sid ≠ (w.socks ref).sid) (l : List Act)
    (hl : ∀ a ∈ l, a.by ref) (room : Room) : In (l.foldl (act cfg) w) r room ↔ In w r room := by
  induction l generalizing w with
  | nil => exact Iff.rfl
  | cons a l ih =>
    rw [List.foldl_cons, ih (act_ads cfg h a) (by rw [(act_socks cfg w a).1]; exact hne) fun b hb => hl b (List.mem_cons_of_mem _ hb)]
    have := hl a List.mem_cons_self
    cases a <;> simp only [act] <;> simp only [Act.by] at this <;> subst this <;> split
    · rw [(join_in h _ _ r room).2]; simp [hne]
    · exact Iff.rfl
    · rw [(leave_in cfg h _ _ r room).2]; simp [hne]
    · exact Iff.rfl

/-- The same actions of socket `r` in two states that agree about it. -/
theorem acts_same (cfg : Cfg) {w v : W} (h : Ads w) (h' : Ads v) {r : Nat} (hn : w.nSock = v.nSock) (hs : w.socks r = v.socks r)
    (hi : ∀ room, In w r room ↔ In v r room) (l : List Act) (hl : ∀ a ∈ l, a.by r) (room : Room) :
    In (l.foldl (act cfg) w) r room ↔ In (l.foldl (act cfg) v) r room := by
  induction l generalizing w v with
  | nil => exact hi room
  | cons a l ih =>
    rw [List.foldl_cons, List.foldl_cons]
    refine ih (act_ads cfg h a) (act_ads cfg h' a) (by rw [(calm_act cfg w a).nSock, (calm_act cfg v a).nSock, hn])
      (by rw [(act_socks cfg w a).1, (act_socks cfg v a).1, hs]) (fun x => ?_) fun b hb => hl b (List.mem_cons_of_mem _ hb)
    have := hl a List.mem_cons_self
    cases a <;> simp only [act] <;> simp only [Act.by] at this <;> subst this <;> rw [hn] <;> split
    · rw [(join_in h _ _ _ x).2, (join_in h' _ _ _ x).2, hi, hs]
    · exact hi x
    · rw [(leave_in cfg h _ _ _ x).2, (leave_in cfg h' _ _ _ x).2, hi]; simp
    · exact hi x

/-- The session holds what socket `r` had in state `w0`, after its "disconnecting" listeners have run. -/
def Holds (cfg : Cfg) (w0 : W) (r : Nat) (s : Session.Sess) : Prop :=
  s.sid = (w0.socks r).sid ∧ s.pid = (w0.socks r).pid ∧ s.data = (w0.socks r).data ∧
  ∀ room, room ∈ s.rooms ↔ In ((cfg.hook r).foldl (act cfg) w0) r room

/-- The state `w` is reached from `w0` by closing sockets. -/
structure Closes (cfg : Cfg) (w0 : W) (r : Nat) (w : W) : Prop where
  calm : Calm w0 w
  ads : Ads w
  rooms : r < w0.nSock → (w.socks r).canJoin = true → ∀ room, In w r room ↔ In w0 r room
  saved : ∀ s, Obs.saved r s ∈ w.log → Obs.saved r s ∈ w0.log ∨ Holds cfg w0 r s

theorem Closes.set {cfg : Cfg} {w0 w w' : W} {r : Nat} (h : Closes cfg w0 r w) (c : Calm w w') (h1 : w'.nss = w.nss)
    (h2 : w'.socks = w.socks) (h3 : ∀ s, Obs.saved r s ∈ w'.log → Obs.saved r s ∈ w.log) : Closes cfg w0 r w' where
  calm := h.calm.trans c
  ads := by unfold Ads; rw [h1]; exact h.ads
  rooms := by unfold In; rw [h1, h2]; exact h.rooms
  saved s hs := h.saved s (h3 s hs)

theorem closes_onclose {cfg : Cfg} {w0 : W} (hg0 : InvS w0) (ht : NoTwins w0) (hj : Joined w0) (hh : OwnHooks cfg) {r : Nat}
    {w : W} (h : Closes cfg w0 r w) (ref : Nat) (reason : String) : Closes cfg w0 r (onclose cfg w ref reason) := by
  by_cases hc : (w.socks ref).connected = true
  · have cm := calm_onclose cfg w ref reason
    have heff := (onclose_effect cfg reason hc).1
    have hlog := onclose_log cfg reason hc
    have hown : ∀ a ∈ cfg.hook ref, a.by ref := fun a ha => by have := hh ref a ha; cases a <;> exact this
    have aob : Ads (obs w (.disconnecting ref reason)) := h.ads
    have ahe : Ads (heard cfg w ref reason) := acts_ads cfg aob _
    have acl : Ads (closing cfg w ref reason) := by
      show Ads (persist cfg (heard cfg w ref reason) ref reason)
      unfold persist; split
      · exact ads_set ahe _ (fun n => { n with sess := Session.persist _ _ n.sess }) fun hi => hi
      · exact ahe
    have hsocks : (closing cfg w ref reason).socks = w.socks := (closing_socks cfg w ref reason).1
    have hcl (x : Nat) (room : Room) : In (closing cfg w ref reason) x room ↔ In (heard cfg w ref reason) x room := by
      show In (persist cfg (heard cfg w ref reason) ref reason) x room ↔ _
      unfold persist; split
      · simp only [In, obs, setNs]
        rw [upd_apply]; split
        · rename_i e; rw [e]
        · exact Iff.rfl
      · exact Iff.rfl
    have hshut : (onclose cfg w ref reason).nss = (shut cfg (closing cfg w ref reason) ref).nss := by
      rw [onclose_pos cfg reason hc]; rfl
    have hads : Ads (onclose cfg w ref reason) := by
      unfold Ads; rw [hshut, (shut_fields _ _ _).1]
      intro n; rw [upd_apply]; split
      · exact (delAll_spec (acl _) _ _).1
      · exact acl n
    by_cases e : r = ref
    · subst e
      refine ⟨h.calm.trans cm, hads, by rw [heff]; simp [closed], fun s hs => ?_⟩
      rw [hlog] at hs
      have hs' : Obs.saved r s ∈ w.log ∨ s = session (heard cfg w r reason) r := by
        revert hs
        split <;> simp only [List.mem_append, List.mem_singleton, List.not_mem_nil, reduceCtorEq, or_false, Obs.saved.injEq, true_and]
        · exact id
        · exact .inl
      rcases hs' with hs' | rfl
      · exact h.saved s hs'
      · have hsk : (heard cfg w r reason).socks r = w.socks r := by unfold heard; rw [(acts_socks _ _ _).1]; rfl
        have hw0 : w.socks r = w0.socks r := by
          rcases h.calm.socks r with e | ⟨-, e⟩
          · exact e
          · rw [e] at hc; simp [closed] at hc
        refine .inr ⟨?_, ?_, ?_, fun room => ?_⟩
        · simp only [session, hsk, hw0]
        · simp only [session, hsk, hw0]
        · simp only [session, hsk, hw0]
        · have h1 : room ∈ (session (heard cfg w r reason) r).rooms ↔ In (heard cfg w r reason) r room := by
            simp only [session]; exact Delivery.mem_roomsOf (ahe _) _ _
          rw [h1]
          have hcj : (w.socks r).canJoin = true := (joined_calm hj h.calm) r hc
          have a0 : Ads w0 := hg0.ad
          exact acts_same cfg aob a0 (r := r) h.calm.nSock hw0 (fun x => h.rooms (hg0.conn r (by rw [← hw0]; exact hc)) hcj x) _ hown room
    · refine ⟨h.calm.trans cm, hads, ?_, fun s hs => ?_⟩
      · rw [heff, upd_ne _ _ e]
        intro hlt hcj room
        have ho : ∀ x, (w.socks x).canJoin = true → (w0.socks x).canJoin = true ∧ (w.socks x).sid = (w0.socks x).sid := fun x hx => by
          rcases h.calm.socks x with e | ⟨-, e⟩
          · rw [e] at hx ⊢; exact ⟨hx, rfl⟩
          · rw [e] at hx; simp [closed] at hx
        have hne : (w.socks r).sid ≠ (w.socks ref).sid := fun es => by
          have hcr := (joined_calm hj h.calm) ref hc
          have hc0 : (w0.socks ref).connected = true := by
            rcases h.calm.socks ref with e | ⟨e, -⟩
            · rw [← e]; exact hc
            · exact e
          exact e (ht r ref ⟨hlt, (ho r hcj).1⟩ ⟨hg0.conn ref hc0, (ho ref hcr).1⟩ (by rw [← (ho r hcj).2, ← (ho ref hcr).2]; exact es))
        have hao := acts_other cfg aob (r := r) (ref := ref) hne (cfg.hook ref) hown room
        rw [← h.rooms hlt hcj room]
        refine Iff.trans ?_ hao
        have hcl' := hcl r room
        have hhs : (heard cfg w ref reason).socks = w.socks := by unfold heard; rw [(acts_socks _ _ _).1]; rfl
        show _ ↔ In (heard cfg w ref reason) r room
        rw [← hcl']
        simp only [In, hshut, heff, upd_ne _ _ e, (shut_fields _ _ _).1, hsocks]
        rw [upd_apply]; split
        · rename_i en
          show ((delAll _ _ _).1).inRoom _ _ ↔ _
          rw [(delAll_spec (acl _) _ _).2.1, en, hsocks]
          simp [hne]
        · exact Iff.rfl
      · rw [hlog] at hs
        refine h.saved s ?_
        revert hs
        split <;> simp [e]
  · rw [onclose_neg cfg reason hc]; exact h

theorem closer_closes (cfg : Cfg) {w0 : W} (hg0 : InvS w0) (ht : NoTwins w0) (hj : Joined w0) (hh : OwnHooks cfg) (r : Nat) :
    Closer cfg (fun _ => True) (fun w w' => Closes cfg w0 r w → Closes cfg w0 r w') where
  refl _ := id
  trans f g h := g (f h)
  packet w c ref p h := by
    refine h.set (calm_clientPacket _ _ _ _) ?_ ?_ ?_ <;> unfold clientPacket <;> split <;> simp [obs]
  client w c f hf h := h.set (calm_setClient _ _ _ (hf _).1) rfl rfl fun _ => id
  onclose w ref reason _ h := closes_onclose hg0 ht hj hh h ref reason

/-- No session of `r` was saved. -/
def Unsaved (r : Nat) (w w' : W) : Prop := ∀ s, Obs.saved r s ∈ w'.log → Obs.saved r s ∈ w.log

theorem Unsaved.of_eq {r : Nat} {w w' : W} (h : w'.log = w.log) : Unsaved r w w' := fun s hs => h ▸ hs

theorem unsaved_packet (r : Nat) (w : W) (c : Nat) (ref : Option Nat) (p : Pkt) : Unsaved r w (clientPacket w c ref p) := by
  intro s; unfold clientPacket; split <;> simp [obs]

theorem prim0_unsaved (r : Nat) : Prim0 (Unsaved r) where
  refl _ _ := id
  trans f g s hs := f s (g s hs)
  packet := unsaved_packet r
  ns _ _ _ _ _ := id

theorem unsaved_doConnect (r : Nat) (w : W) (ref : Nat) : Unsaved r w (doConnect w ref) := by
  intro s hs
  simp only [doConnect, obs, setClient, List.mem_append, List.mem_singleton, reduceCtorEq, or_false] at hs
  refine unsaved_packet r _ _ _ _ s hs |> fun h => ?_
  revert h
  unfold join; split <;> exact id

theorem unsaved_cleanup (cfg : Cfg) (r : Nat) (w : W) (ref : Nat) : Unsaved r w (cleanup cfg w ref) := .of_eq (by
  obtain ⟨d1, -, -, -, -, -, -, -, -, d10, -⟩ := cleanup_fields cfg w ref
  exact d10)

theorem unsaved_add (cfg : Cfg) (r : Nat) (w : W) (n c : Nat) (auth : Option (Session.Pid × String)) :
    Unsaved r w (add cfg w n c auth) := by
  obtain ⟨s0, h0, -⟩ := createSocket_rel cfg (prim0_unsaved r) w n c auth
  have h1 : Unsaved r w (createSocket cfg w n c auth) := h0
  unfold add; dsimp only; split
  · exact (prim0_unsaved r).trans h1 (unsaved_doConnect r _ _)
  · split <;> exact h1

theorem unsaved_connect (cfg : Cfg) (r : Nat) (w : W) (c : Nat) (name : String) (auth : Option (Session.Pid × String)) :
    Unsaved r w (connect cfg w c name auth) := by
  unfold connect; split
  · exact unsaved_add _ _ _ _ _ _
  · split
    · exact (prim0_unsaved r).trans (b := newNs w { name := name, fns := cfg.childFns, auto := cfg.autoClean })
        (.of_eq rfl) (unsaved_add _ _ _ _ _ _)
    · exact unsaved_packet _ _ _ _ _

/-- What one event saves. -/
theorem saved_step (cfg : Cfg) {w : W} (hg : InvS w) (ht : NoTwins w) (hj : Joined w) (hh : OwnHooks cfg) (r : Nat) (e : Ev) :
    ∀ s, Obs.saved r s ∈ (step cfg w e).log → Obs.saved r s ∈ w.log ∨ Holds cfg w r s := by
  have self : Closes cfg w r w := ⟨.refl w, hg.ad, fun _ _ _ => .rfl, fun _ h => .inl h⟩
  have p := closer_closes cfg hg ht hj hh r
  have q := prim0_unsaved r
  have un (h : Unsaved r w (step cfg w e)) : ∀ s, Obs.saved r s ∈ (step cfg w e).log → Obs.saved r s ∈ w.log ∨ Holds cfg w r s :=
    fun s hs => .inl (h s hs)
  have cl (h : Closes cfg w r w → Closes cfg w r (step cfg w e)) := (h self).saved
  have t : ∀ (c : Nat) (r : String), cfg.syncClose c = some r → True := fun _ _ _ => trivial
  cases e
  case accept b =>
    refine un ?_
    simp only [step, accept]; split
    · exact unsaved_connect cfg r { w with
        clients := upd w.clients w.nClient { proto3 := b, conn := .opened, timer := true, listening := true }
        nClient := w.nClient + 1 } _ _ _
    · exact .of_eq rfl
  case recv c type name auth =>
    by_cases hl : c < w.nClient ∧ (w.clients c).listening = true
    · cases hn : (w.clients c).nsps.get? name with
      | none =>
        by_cases ht : type = .connect
        · refine un ?_
          simp only [step, ondecoded]; rw [if_pos hl, hn]; simp only [ht, if_true]
          exact unsaved_connect _ _ _ _ _ _
        · refine cl ?_
          simp only [step, ondecoded]; rw [if_pos hl, hn]; simp only [ht, if_false]
          exact p.clientClose _ _ (t _) trivial
      | some ref =>
        by_cases ht : type ≠ .connect ∧ type ≠ .connectError
        · refine un ?_
          simp only [step, ondecoded]; rw [if_pos hl, hn]; dsimp only; rw [if_pos ht]; exact .of_eq rfl
        · refine cl ?_
          simp only [step, ondecoded]; rw [if_pos hl, hn]; dsimp only; rw [if_neg ht]
          exact p.clientClose _ _ (t _) trivial
    · exact un (by simp only [step]; rw [if_neg hl]; exact .of_eq rfl)
  case task k =>
    cases hk : w.tasks[k]? with
    | none => exact un (by simp only [step]; rw [hk]; exact .of_eq rfl)
    | some tk =>
      have qq : step cfg w (.task k) = runTask cfg { w with tasks := w.tasks.eraseIdx k } tk := by simp only [step]; rw [hk]
      cases tk with
      | result ref err =>
        refine un ?_
        rw [qq]; simp only [runTask, result]; split
        · exact unsaved_cleanup cfg r { w with tasks := w.tasks.eraseIdx k } ref
        · split
          · exact q.trans (unsaved_cleanup cfg r { w with tasks := w.tasks.eraseIdx k } ref) (q.sockPacket _ _ _)
          · exact unsaved_doConnect r { w with tasks := w.tasks.eraseIdx k } ref
      | packet ref type =>
        by_cases ht' : type = .disconnect
        · intro s hs
          rw [qq] at hs; simp only [runTask, onpacket, ht', if_true] at hs
          rcases (traced_onclose cfg { w with tasks := w.tasks.eraseIdx k } ref "client namespace disconnect") with ⟨ext, he, hx⟩
          rw [he] at hs
          rcases List.mem_append.1 hs with hs | hs
          · exact .inl hs
          · have hm : Life.saved ∈ life r ext := List.mem_filterMap.2 ⟨_, hs, by simp [lifeOf]⟩
            rcases hx r with ⟨-, e⟩ | ⟨-, -, reason, e1, e2⟩
            · rw [e] at hm; simp at hm
            · rw [e2, e1] at hm; simp [ending, recoverableReasons] at hm
        · refine un ?_
          rw [qq]; simp only [runTask, onpacket, ht', if_false]
          intro s; simp [obs]
  case next k i err =>
    refine un (.of_eq ?_)
    simp only [step]; unfold next; split
    · rfl
    · split
      · dsimp only; split <;> rfl
      · rfl
  case transportClose c reason =>
    refine cl ?_
    simp only [step]; split
    · split
      · exact p.trans (b := setClient w c fun k => { k with conn := .closed })
          (p.client w c _ fun _ => ⟨rfl, rfl, .inl rfl⟩) (p.clientOnclose _ _ _ trivial)
      · exact p.client _ _ _ fun _ => ⟨rfl, rfl, .inl rfl⟩
    · exact id
  case connError c => refine cl ?_; simp only [step]; split; exact p.connClose _ _ (t _); exact id
  case timer c => refine cl ?_; simp only [step]; split; exact p.timerFires _ _ (t _) trivial; exact id
  case «of» name => refine un (.of_eq ?_); simp only [step]; split <;> rfl
  case use n => refine un (.of_eq ?_); simp only [step]; split <;> rfl
  case join => exact un (q.act _ _ _)
  case leave => exact un (q.act _ _ _)
  case setData => refine un (.of_eq ?_); simp only [step]; split <;> rfl
  case disconnect => refine cl ?_; simp only [step]; split; exact p.disconnect _ _ _ t trivial trivial; exact id
  case disconnectSockets n rooms except flags status =>
    refine cl ?_
    exact apply_rel (V := view n) (cb := disconnect cfg status) (fun w w' => Closes cfg _ r w → Closes cfg _ r w') (fun _ => id) (fun f g h => g (f h))
      (fun _ _ _ _ => p.disconnect _ _ _ t trivial trivial) _ _
  case socketsJoin n rooms except flags target =>
    exact un (apply_rel (V := view n) (cb := fun w ref => join w ref target) (Unsaved r) q.refl q.trans (fun _ _ _ _ => q.join _ _ _) _ _)
  case socketsLeave n rooms except flags target =>
    exact un (apply_rel (V := view n) (cb := leaveEach cfg target) (Unsaved r) q.refl q.trans (fun _ _ _ _ => q.leaveEach _ _ _ _) _ _)
  case broadcast => refine un ?_; simp only [step]; split; exact q.broadcast _ _ _ _ _; exact .of_eq rfl
  case emit => refine un ?_; simp only [step]; split; exact q.emit _ _ _ _ _; exact .of_eq rfl
  case clock => exact un (.of_eq rfl)
  case tick => refine un ?_; simp only [step]; split <;> exact .of_eq rfl
  case serverClose => exact cl (p.serverClose _ trivial)
  case reorderClient => refine un ?_; simp only [step]; split <;> exact .of_eq rfl
  case reorderNs => refine un ?_; simp only [step]; split <;> exact .of_eq rfl
  case reorderNsps => refine un ?_; simp only [step]; split <;> exact .of_eq rfl

/-! ## Leaving on purpose -/

theorem traced_unsaved {rec : Bool} {Q : String → Prop} (hQ : ∀ x, Q x → x ∉ recoverableReasons) {w w' : W} (h : Traced rec Q w w') (r : Nat) :
    Unsaved r w w' := by
  intro s hs
  obtain ⟨ext, he, hx⟩ := h
  rw [he] at hs
  rcases List.mem_append.1 hs with hs | hs
  · exact hs
  · have hm : Life.saved ∈ life r ext := List.mem_filterMap.2 ⟨_, hs, by simp [lifeOf]⟩
    rcases hx r with ⟨-, e⟩ | ⟨-, -, reason, e1, e2⟩
    · rw [e] at hm; simp at hm
    · rw [e2] at hm; simp [ending, hQ _ e1] at hm

theorem clientOnclose_empty (cfg : Cfg) (w : W) (c : Nat) (reason : String) (h : (w.clients c).sockets = []) :
    (clientOnclose cfg w c reason).log = w.log ∧ ((clientOnclose cfg w c reason).clients c).sockets = [] := by
  unfold clientOnclose
  simp [setClient, h, FMap.keys]

theorem clientClose_empty (cfg : Cfg) (w : W) (c : Nat) (h : (w.clients c).sockets = []) : (clientClose cfg w c).log = w.log := by
  unfold clientClose; split
  · have h1 : (connClose cfg w c).log = w.log ∧ ((connClose cfg w c).clients c).sockets = [] := by
      rename_i ho
      have h2 : (((setClient w c fun k => { k with conn := .closing })).clients c).sockets = [] := by simp [setClient, h]
      unfold connClose; rw [if_pos ho]; dsimp only
      cases hs : cfg.syncClose c with
      | none => exact ⟨rfl, h2⟩
      | some reason =>
        dsimp only
        by_cases hl : ((setClient w c fun k => { k with conn := .closing }).clients c).listening = true
        · rw [if_pos hl]; exact clientOnclose_empty cfg _ c _ h2
        · rw [if_neg hl]; exact ⟨rfl, h2⟩
    rw [(clientOnclose_empty cfg _ c _ h1.2).1, h1.1]
  · rfl

theorem unsaved_disconnect (cfg : Cfg) (r : Nat) (status : Bool) (w : W) (ref : Nat) : Unsaved r w (disconnect cfg status w ref) := by
  have p := prim_traced cfg (· = "server namespace disconnect")
  have hQ : ∀ x, x = "server namespace disconnect" → x ∉ recoverableReasons := by rintro _ rfl; decide
  unfold disconnect; split
  · split
    · unfold clientDisconnect
      have h1 := traced_unsaved hQ (p.foldl (eachSocket (w.socks ref).client (disconnectNs cfg))
        (p.toCloser.eachSocket _ _ (p.toCloser.disconnectNs rfl)) ((w.clients (w.socks ref).client).sockets.keys) w) r
      refine (prim0_unsaved r).trans h1 (.of_eq ?_)
      dsimp only
      rw [clientClose_empty cfg _ _ (by simp [setClient])]; rfl
    · exact traced_unsaved hQ (p.toCloser.disconnectNs rfl _ _) r
  · exact fun _ => id

theorem explicit_unsaved (cfg : Cfg) (r : Nat) {w : W} {e : Ev} (he : Explicit w e) : Unsaved r w (step cfg w e) := by
  cases e <;> simp only [Explicit] at he
  case disconnect => simp only [step]; split; exact unsaved_disconnect _ _ _ _ _; exact fun _ => id
  case disconnectSockets n rooms except flags status =>
    exact apply_rel (V := view n) (cb := disconnect cfg status) (Unsaved r) (prim0_unsaved r).refl (prim0_unsaved r).trans
      (fun _ _ _ _ => unsaved_disconnect _ _ _ _ _) _ _
  case task k =>
    obtain ⟨ref, hk⟩ := he
    simp only [step]; rw [hk]; simp only [runTask, onpacket, if_true]
    exact traced_unsaved (Q := (· = "client namespace disconnect")) (by rintro _ rfl; decide)
      (traced_onclose cfg { w with tasks := w.tasks.eraseIdx k } ref _) r

end Verif.World
