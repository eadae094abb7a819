import Verif.Proof.WorldSave

/-! # The server: the removal of empty child namespaces -/

namespace Verif.World
open Verif Verif.Adapter Verif.Spec

theorem cleanup_nsps (cfg : Cfg) (w : W) (ref : Nat) : (cleanup cfg w ref).nsps =
    if (w.nss (w.socks ref).ns).auto = true ∧ ((w.nss (w.socks ref).ns).sockets.erase (w.socks ref).sid).length = 0 then
      w.nsps.erase (w.nss (w.socks ref).ns).name else w.nsps := by
  simp only [cleanup, nsRemove, setSock, autoClean, leaveAll, setNs, upd_same]
  split <;> simp

theorem shut_nsps (cfg : Cfg) (w : W) (ref : Nat) : (shut cfg w ref).nsps = (cleanup cfg w ref).nsps := by
  simp only [shut, setSock, clientRemove]; split <;> rfl

theorem closing_auto (cfg : Cfg) (w : W) (ref : Nat) (reason : String) (n : Nat) :
    ((closing cfg w ref reason).nss n).auto = (w.nss n).auto := by
  have p : Prim0 fun a b : W => (b.nss n).auto = (a.nss n).auto :=
    { refl := fun _ => rfl
      trans := fun h1 h2 => h2.trans h1
      packet := fun w c ref x => by unfold clientPacket; split <;> rfl
      ns := fun w m f hf => upd_proj _ _ _ _ Ns.auto (hf _).2.2.2 }
  have h1 := p.foldl (World.act cfg) (p.act cfg) (cfg.hook ref) (obs w (.disconnecting ref reason))
  have h2 (w : W) : ((persist cfg w ref reason).nss n).auto = (w.nss n).auto := by
    unfold persist; split
    · exact upd_proj _ _ _ _ Ns.auto rfl
    · rfl
  exact p.trans h1 (h2 _)

theorem onclose_drops (cfg : Cfg) {w : W} {ref : Nat} (reason : String) (hc : (w.socks ref).connected = true) :
    (onclose cfg w ref reason).nsps =
      (if (w.nss (w.socks ref).ns).auto = true ∧ ((w.nss (w.socks ref).ns).sockets.erase (w.socks ref).sid).length = 0 then
        w.nsps.erase (w.nss (w.socks ref).ns).name else w.nsps) ∧
    ∀ n, ((onclose cfg w ref reason).nss n).auto = (w.nss n).auto := by
  rw [onclose_pos cfg reason hc]
  have cs := closing_socks cfg w ref reason
  refine ⟨?_, fun n => ?_⟩
  · simp only [obs]
    rw [shut_nsps, cleanup_nsps, cs.1, cs.2.2, closing_auto, (closing_reg cfg w ref reason _).1, (closing_reg cfg w ref reason _).2]
  · simp only [obs]
    rw [(shut_fields cfg _ ref).1, ← closing_auto cfg w ref reason n]
    exact upd_proj _ _ _ _ Ns.auto rfl

/-! ## Removal -/

/-- A child namespace without connected sockets that has lost a socket is not registered. -/
def Gone (w : W) : Prop := ∀ n, (w.nss n).auto = true → (w.nss n).sockets = [] →
  (∃ r, r < w.nSock ∧ (w.socks r).ns = n ∧ (w.socks r).canJoin = false) → ¬ Registered w n

/-- The same lost sockets, namespaces, tables. -/
theorem Gone.of {w w' : W} (h : Gone w) (h1 : ∀ n, (w'.nss n).auto = true → (w'.nss n).sockets = [] →
      (w.nss n).auto = true ∧ (w.nss n).sockets = []) (h2 : ∀ n, (w'.nss n).name = (w.nss n).name)
    (h3 : ∀ r, r < w'.nSock → (w'.socks r).canJoin = false → r < w.nSock ∧ (w'.socks r).ns = (w.socks r).ns ∧ (w.socks r).canJoin = false)
    (h4 : ∀ n, w'.nsps.get? (w.nss n).name = some n → w.nsps.get? (w.nss n).name = some n) : Gone w' := by
  intro n ha hs ⟨r, hr, hn, hj⟩ hreg
  obtain ⟨a, b⟩ := h1 n ha hs
  obtain ⟨c, d, e⟩ := h3 r hr hj
  refine h n a b ⟨r, c, by rw [← d]; exact hn, e⟩ (h4 n ?_)
  unfold Registered at hreg; rw [h2] at hreg; exact hreg

theorem gone_cleaned {w w' : W} (h : Gone w) {ref : Nat}
    (e1 : ∀ n, (w'.nss n).sockets = if n = (w.socks ref).ns then (w.nss n).sockets.erase (w.socks ref).sid else (w.nss n).sockets)
    (e2 : ∀ n, (w'.nss n).name = (w.nss n).name) (e3 : ∀ n, (w'.nss n).auto = (w.nss n).auto)
    (e4 : w'.nsps = if (w.nss (w.socks ref).ns).auto = true ∧ ((w.nss (w.socks ref).ns).sockets.erase (w.socks ref).sid).length = 0 then
      w.nsps.erase (w.nss (w.socks ref).ns).name else w.nsps)
    (e5 : w'.nSock = w.nSock) (e6 : ∀ r, r ≠ ref → w'.socks r = w.socks r) (e7 : (w'.socks ref).ns = (w.socks ref).ns) : Gone w' := by
  intro n ha hs ⟨r, hr, hn, hj⟩ hreg
  unfold Registered at hreg
  rw [e2, e4] at hreg
  rw [e3] at ha; rw [e1] at hs
  by_cases en : n = (w.socks ref).ns
  · subst en
    rw [if_pos rfl] at hs
    rw [if_pos ⟨ha, by rw [hs]; rfl⟩] at hreg
    simp at hreg
  · rw [if_neg en] at hs
    have hne : r ≠ ref := by rintro rfl; rw [e7] at hn; exact en hn.symm
    rw [e6 r hne] at hn hj
    refine h n ha hs ⟨r, by rw [← e5]; exact hr, hn, hj⟩ ?_
    unfold Registered
    split at hreg
    · by_cases ename : (w.nss (w.socks ref).ns).name = (w.nss n).name
      · rw [ename] at hreg; simp at hreg
      · rw [FMap.get?_erase_ne ename] at hreg; exact hreg
    · exact hreg

theorem gone_onclose (cfg : Cfg) {w : W} (h : Gone w) (ref : Nat) (reason : String) : Gone (onclose cfg w ref reason) := by
  by_cases hc : (w.socks ref).connected = true
  · obtain ⟨a, b, -⟩ := onclose_effect cfg reason hc
    obtain ⟨c, d⟩ := onclose_drops cfg reason hc
    refine gone_cleaned h (ref := ref) b (calm_onclose cfg w ref reason).name d c (calm_onclose cfg w ref reason).nSock (fun r hr => ?_) ?_
    · rw [a, upd_ne _ _ hr]
    · rw [a, upd_same]; rfl
  · rw [onclose_neg cfg reason hc]; exact h

theorem gone_packet {w : W} (h : Gone w) (c : Nat) (ref : Option Nat) (p : Pkt) : Gone (clientPacket w c ref p) := by
  unfold clientPacket; split <;> exact h

theorem gone_ns {w : W} (h : Gone w) (n : Nat) (f : Ns → Ns)
    (hf : ∀ k : Ns, (f k).name = k.name ∧ ((f k).sockets = [] → k.sockets = []) ∧ (f k).auto = k.auto) : Gone (setNs w n f) := by
  refine h.of (fun m ha hs => ?_) (fun m => ?_) (fun r hr hj => ⟨hr, rfl, hj⟩) fun m => id
  · simp only [setNs, upd_apply] at ha hs ⊢
    split at ha
    · rename_i e; subst e; rw [if_pos rfl] at hs; exact ⟨by rw [← (hf _).2.2]; exact ha, (hf _).2.1 hs⟩
    · rename_i e; rw [if_neg e] at hs; exact ⟨ha, hs⟩
  · simp only [setNs, upd_apply]; split
    · rename_i e; subst e; exact (hf _).1
    · rfl

theorem prim_gone (cfg : Cfg) : Prim cfg (fun _ => True) fun w w' => (Gone w → Gone w') where
  refl _ := id
  trans f g h := g (f h)
  packet w c ref p h := gone_packet h _ _ _
  ns w n f hf h := gone_ns h _ _ fun k => ⟨(hf k).1, fun e => by rw [← (hf k).2.2.1]; exact e, (hf k).2.2.2⟩
  client w c f hf h := h
  onclose w ref reason _ h := gone_onclose cfg h ref reason

theorem insert_ne_nil {K V : Type} [DecidableEq K] (m : FMap K V) (k : K) (v : V) : m.insert k v ≠ [] := by
  intro h
  have := FMap.get?_insert_self m k v
  rw [h] at this; simp at this

theorem grow_gone (cfg : Cfg) : Grow cfg (fun _ => True) Gone where
  inert w t ch now h := h
  use w n h := gone_ns h _ _ fun k => ⟨rfl, id, rfl⟩
  data w ref v h := by
    refine h.of (fun m ha hs => ⟨ha, hs⟩) (fun _ => rfl) (fun r hr hj => ⟨hr, ?_, ?_⟩) fun m => id
    · exact upd_proj _ _ _ _ Sock.ns rfl
    · rw [← hj]; exact Eq.symm (upd_proj _ _ _ _ Sock.canJoin rfl)
  newNs w s h1 h2 _ hno hs h := by
    intro n ha he ⟨r, hr, hn, hj⟩ hreg
    have hne : n ≠ w.nNs := by rintro rfl; exact absurd (hs.sock r hr).1 (by have : (w.socks r).ns = w.nNs := hn; omega)
    simp only [newNs, upd_ne _ _ hne] at ha he
    refine h n ha he ⟨r, hr, hn, hj⟩ ?_
    unfold Registered at hreg ⊢
    simp only [newNs, upd_ne _ _ hne] at hreg
    by_cases e : s.name = (w.nss n).name
    · rw [e] at hreg; simp only [FMap.get?_insert_self, Option.some.injEq] at hreg; exact absurd hreg.symm hne
    · rw [FMap.get?_insert_ne e] at hreg; exact hreg
  newClient w p _ h := h
  create w n c auth hn hc hs h := by
    have p : Prim0 fun a b : W => b.socks = a.socks ∧ b.nSock = a.nSock ∧ b.nsps = a.nsps ∧
        ∀ n, (b.nss n).name = (a.nss n).name ∧ (b.nss n).sockets = (a.nss n).sockets ∧ (b.nss n).auto = (a.nss n).auto :=
      ⟨fun _ => ⟨rfl, rfl, rfl, fun _ => ⟨rfl, rfl, rfl⟩⟩,
       fun h1 h2 => ⟨h2.1.trans h1.1, h2.2.1.trans h1.2.1, h2.2.2.1.trans h1.2.2.1, fun n =>
         ⟨(h2.2.2.2 n).1.trans (h1.2.2.2 n).1, (h2.2.2.2 n).2.1.trans (h1.2.2.2 n).2.1, (h2.2.2.2 n).2.2.trans (h1.2.2.2 n).2.2⟩⟩,
       fun w c ref x => by unfold clientPacket; split <;> exact ⟨rfl, rfl, rfl, fun _ => ⟨rfl, rfl, rfl⟩⟩,
       fun w m f hf => ⟨rfl, rfl, rfl, fun n => ⟨upd_proj _ _ _ _ Ns.name (hf _).1, upd_proj _ _ _ _ Ns.sockets (hf _).2.2.1,
         upd_proj _ _ _ _ Ns.auto (hf _).2.2.2⟩⟩⟩
    obtain ⟨s, ⟨h1, h2, h3, h4⟩, -, -, -, -, hj⟩ := createSocket_rel cfg p w n c auth
    refine h.of (fun m ha he => ⟨(h4 m).2.2.symm.trans ha, (h4 m).2.1.symm.trans he⟩) (fun m => (h4 m).1) (fun r hr hcj => ?_)
      fun m hm => by rw [h3] at hm; exact hm
    rw [h1] at hcj ⊢; rw [h2] at hr
    simp only [alloc] at hr hcj ⊢
    have hne : r ≠ w.nSock := by rintro rfl; rw [upd_same, hj] at hcj; simp at hcj
    rw [upd_ne _ _ hne] at hcj ⊢
    exact ⟨by omega, rfl, hcj⟩
  doConnect w ref hr ho hc hj hs _ h := by
    obtain ⟨d1, d2, -, -, d5, -⟩ := doConnect_fields w ref
    have d6 : (doConnect w ref).nsps = w.nsps := by
      simp only [doConnect, obs, setClient, sockPacket]
      unfold clientPacket join; split <;> split <;> rfl
    refine h.of (fun m ha he => ?_) (fun m => ?_) (fun r hr hcj => ?_) fun m hm => by rw [d6] at hm; exact hm
    · rw [d1, upd_apply] at ha he
      split at he
      · simp only [nsConnected] at he; exact absurd he (insert_ne_nil _ _ _)
      · rename_i e; rw [if_neg e] at ha; exact ⟨ha, he⟩
    · rw [d1]; exact upd_proj _ _ _ _ Ns.name rfl
    · rw [d2] at hcj ⊢; rw [d5] at hr
      refine ⟨hr, upd_proj _ _ _ _ Sock.ns rfl, ?_⟩
      rw [← hcj]; exact Eq.symm (upd_proj _ _ _ _ Sock.canJoin rfl)
  cleanup w ref hr hc hj hs _ h := by
    obtain ⟨d1, d2, -, -, d5, -⟩ := cleanup_fields cfg w ref
    refine gone_cleaned h (ref := ref) (fun n => ?_) (fun n => ?_) (fun n => ?_) (cleanup_nsps cfg w ref) d5 (fun r hr => ?_) ?_
    · rw [d1, upd_apply]; split
      · rename_i e; subst e; rfl
      · rfl
    · rw [d1]; exact upd_proj _ _ _ _ Ns.name rfl
    · rw [d1]; exact upd_proj _ _ _ _ Ns.auto rfl
    · rw [d2, upd_ne _ _ hr]
    · rw [d2, upd_same]
  packet w c ref x _ _ h := gone_packet h _ _ _
  received w ref type h := h

theorem gone_run (cfg : Cfg) (h : List Ev) (hn : NextOnce h) : Gone (run cfg h) := by
  induction h using snocRec with
  | nil => intro n ha he ⟨r, hr, _⟩; simp [run, init, newNs] at hr
  | append_singleton h e ih =>
    obtain ⟨n1, -⟩ := nextOnce_snoc hn
    have ih := ih n1
    obtain ⟨i1, i2⟩ := inv_run cfg h
    rw [run_snoc]
    by_cases he : e.calm = true
    · refine (prim_gone cfg).step _ e (fun _ _ _ h => h) (fun n l hp h => ?_) (fun l hp h => ?_) he ih
      · refine h.of (fun m ha hs => ?_) (fun m => upd_proj _ _ _ _ Ns.name rfl) (fun r hr hj => ⟨hr, rfl, hj⟩) fun m => id
        simp only [setNs, upd_apply] at ha hs
        split at hs
        · rename_i e; subst e; rw [if_pos rfl] at ha
          refine ⟨ha, ?_⟩
          have hl : l = [] := hs
          rw [hl] at hp; exact List.nil_perm.1 hp
        · rename_i e; rw [if_neg e] at ha; exact ⟨ha, hs⟩
      · refine h.of (fun m ha hs => ⟨ha, hs⟩) (fun m => rfl) (fun r hr hj => ⟨hr, rfl, hj⟩) fun m hm => ?_
        rw [FMap.get?_perm i1.nspsWf hp.symm]; exact hm
    · exact (grow_gone cfg).step i1 i2 (invT_run cfg _ n1) e he trivial trivial
        (fun c h => (prim_gone cfg).toCloser.clientClose _ c (fun _ _ => trivial) trivial h)
        (fun v ref reason _ _ h => gone_onclose cfg h ref reason) ih

/-! ## No removal -/

/-- Every open socket is in a registered namespace. -/
def Found (w : W) : Prop := ∀ r, IsOpen w r → Registered w (w.socks r).ns

/-- In the middle of an event that started in `w0`: the same, but for sockets that are being connected to a namespace
that has just lost a socket. -/
structure Keeps (w0 w : W) : Prop where
  calm : Calm w0 w
  auto : ∀ n, (w.nss n).auto = (w0.nss n).auto
  kept : ∀ r, IsOpen w r → Registered w (w.socks r).ns ∨ ((w.socks r).connected = false ∧
    ∃ r', IsOpen w0 r' ∧ ¬ IsOpen w r' ∧ (w.socks r').ns = (w.socks r).ns)

theorem Keeps.of {w0 w w' : W} (h : Keeps w0 w) (c : Calm w w') (h1 : w'.socks = w.socks) (h2 : ∀ name, w'.nsps.get? name = w.nsps.get? name)
    (h3 : ∀ n, (w'.nss n).auto = (w.nss n).auto) : Keeps w0 w' where
  calm := h.calm.trans c
  auto n := (h3 n).trans (h.auto n)
  kept r hr := by
    unfold IsOpen Registered; rw [h1, h2, c.name, c.nSock]
    exact h.kept r ⟨by rw [← c.nSock]; exact hr.1, by rw [← h1]; exact hr.2⟩

theorem keeps_onclose {cfg : Cfg} {w0 w : W} (hg : Good w) (h : Keeps w0 w) (ref : Nat) (reason : String) : Keeps w0 (onclose cfg w ref reason) := by
  by_cases hc : (w.socks ref).connected = true
  · have cm := calm_onclose cfg w ref reason
    obtain ⟨a, b, -⟩ := onclose_effect cfg reason hc
    obtain ⟨c, d⟩ := onclose_drops cfg reason hc
    refine ⟨h.calm.trans cm, fun n => (d n).trans (h.auto n), fun r hr => ?_⟩
    have hopen : IsOpen w ref := ⟨hg.s.conn ref hc, hg.j ref hc⟩
    have hne : r ≠ ref := by rintro rfl; have := hr.2; rw [a, upd_same] at this; simp [closed] at this
    have hr0 : IsOpen w r := ⟨by rw [← cm.nSock]; exact hr.1, by have := hr.2; rw [a, upd_ne _ _ hne] at this; exact this⟩
    have hreg := (h.kept ref hopen).resolve_right fun e => by rw [hc] at e; simp at e
    have es : (onclose cfg w ref reason).socks r = w.socks r := by rw [a, upd_ne _ _ hne]
    rw [es]
    have hgone : ∀ r', ¬ IsOpen w r' → ¬ IsOpen (onclose cfg w ref reason) r' := fun r' hn ho => by
      refine hn ⟨by rw [← cm.nSock]; exact ho.1, ?_⟩
      have := ho.2; rw [a, upd_apply] at this; split at this
      · simp [closed] at this
      · exact this
    rcases h.kept r hr0 with hk | ⟨h1, r', h2, h3, h4⟩
    · by_cases en : (w.socks r).ns = (w.socks ref).ns
      · cases hcr : (w.socks r).connected with
        | true =>
          left
          unfold Registered
          rw [cm.name, c]
          have hsid : (w.socks ref).sid ≠ (w.socks r).sid := fun e => hne (hg.t r ref hr0 hopen e.symm)
          have hin := hg.f.ns r hcr
          rw [if_neg ?_]
          · exact hk
          · rintro ⟨-, hl⟩
            have hl' := List.eq_nil_of_length_eq_zero hl
            rw [en] at hin
            have := FMap.get?_erase_ne (m := (w.nss (w.socks ref).ns).sockets) hsid
            rw [hl', hin] at this; simp at this
        | false =>
          right
          have ho0 : IsOpen w0 ref := by
            refine ⟨by rw [← h.calm.nSock]; exact hopen.1, ?_⟩
            rcases h.calm.socks ref with e | ⟨e1, e2⟩
            · rw [← e]; exact hopen.2
            · rw [e2] at hc; simp [closed] at hc
          refine ⟨rfl, ref, ho0, fun ho => ?_, ?_⟩
          · have := ho.2; rw [a, upd_same] at this; simp [closed] at this
          · rw [cm.ns, en]
      · left
        unfold Registered at hk hreg ⊢
        rw [cm.name, c]; split
        · rw [FMap.get?_erase_ne]
          · exact hk
          · intro ename; rw [ename, hk] at hreg; simp only [Option.some.injEq] at hreg; exact en hreg
        · exact hk
    · exact .inr ⟨h1, r', h2, hgone r' h3, by rw [cm.ns]; exact h4⟩
  · rw [onclose_neg cfg reason hc]; exact h

theorem blocks_keeps (cfg : Cfg) (w0 : W) :
    Blocks cfg (fun _ _ => True) (fun _ => True) fun w w' => (Good w ∧ Keeps w0 w → Good w' ∧ Keeps w0 w') :=
  blocks_with (blocks_good cfg) (fun _ c h => good_unlisten h c)
    (fun w c ref x _ h => by
      refine h.of (calm_clientPacket _ _ _ _) ?_ (fun _ => ?_) (fun _ => ?_) <;> (unfold clientPacket; split <;> rfl))
    (fun w ref rooms _ hg h => by
      refine h.of (calm_join _ _ _) ?_ (fun _ => ?_) (fun _ => ?_)
      · unfold join; split <;> rfl
      · unfold join; split <;> rfl
      · unfold join; split
        · exact upd_proj _ _ _ _ Ns.auto rfl
        · rfl)
    (fun w ref x hx hg h => h.of (calm_leave _ _ _ _) rfl (fun _ => rfl) fun _ => upd_proj _ _ _ _ Ns.auto rfl)
    (fun w n f _ h => h.of (calm_setNs _ _ _ rfl rfl) rfl (fun _ => rfl) fun _ => upd_proj _ _ _ _ Ns.auto rfl)
    (fun w ref reason hg h => keeps_onclose hg h ref reason)
    (fun w c f hf h => h.of (calm_setClient _ _ _ (hf _).2) rfl (fun _ => rfl) fun _ => rfl)
    (fun w n l _ _ h => h.of (calm_setNs _ _ _ rfl rfl) rfl (fun _ => rfl) fun _ => upd_proj _ _ _ _ Ns.auto rfl)
    (fun w l hp hg h => h.of (calm_nsps _ _) rfl (fun _ => (FMap.get?_perm hg.s.nspsWf hp.symm _).symm) fun _ => rfl)

/-- The condition on one event. -/
def Quietly (w w' : W) : Prop := ∀ r r', IsOpen w r → ¬ IsOpen w' r → IsOpen w' r' → (w.socks r).ns = (w'.socks r').ns →
  (w'.socks r').connected = true

theorem keeps_end {w0 w : W} (h : Keeps w0 w) (hq : Quietly w0 w) : Found w := by
  intro r hr
  rcases h.kept r hr with hk | ⟨h1, r', h2, h3, h4⟩
  · exact hk
  · have := hq r' r h2 h3 hr (by rw [← h4, h.calm.ns])
    rw [h1] at this; simp at this

theorem found_same {w w' : W} (hk : Found w) (h1 : ∀ r, (w'.socks r).ns = (w.socks r).ns) (h2 : ∀ r, (w'.socks r).canJoin = (w.socks r).canJoin)
    (h3 : ∀ n, (w'.nss n).name = (w.nss n).name) (h4 : w'.nsps = w.nsps) (h5 : w'.nSock = w.nSock) : Found w' := by
  intro r ⟨a, b⟩
  unfold Registered; rw [h1, h3, h4]
  exact hk r ⟨by rw [← h5]; exact a, by rw [← h2]; exact b⟩

theorem found_add (cfg : Cfg) {w : W} (hk : Found w) (n c : Nat) (auth : Option (Session.Pid × String)) (hn : Registered w n) :
    Found (add cfg w n c auth) := by
  have p : Prim0 fun a b : W => b.socks = a.socks ∧ b.nSock = a.nSock ∧ b.nsps = a.nsps ∧ ∀ n, (b.nss n).name = (a.nss n).name :=
    ⟨fun _ => ⟨rfl, rfl, rfl, fun _ => rfl⟩,
     fun h1 h2 => ⟨h2.1.trans h1.1, h2.2.1.trans h1.2.1, h2.2.2.1.trans h1.2.2.1, fun n => (h2.2.2.2 n).trans (h1.2.2.2 n)⟩,
     fun w c ref x => by unfold clientPacket; split <;> exact ⟨rfl, rfl, rfl, fun _ => rfl⟩,
     fun w m f hf => ⟨rfl, rfl, rfl, fun n => upd_proj _ _ _ _ Ns.name (hf _).1⟩⟩
  obtain ⟨s, ⟨h1, h2, h3, h4⟩, -, hsn, -⟩ := createSocket_rel cfg p w n c auth
  have hk1 : Found (createSocket cfg w n c auth) := by
    intro r hr
    obtain ⟨a, b⟩ := hr
    unfold Registered; rw [h1, h3, h4]
    rw [h2] at a; rw [h1] at b
    simp only [alloc, upd_apply] at a b ⊢
    split
    · rw [hsn]; exact hn
    · rename_i e; rw [if_neg e] at b; exact hk r ⟨by omega, b⟩
  unfold add; dsimp only; split
  · obtain ⟨d1, d2, -, -, d5, -⟩ := doConnect_fields (createSocket cfg w n c auth) w.nSock
    have d6 : (doConnect (createSocket cfg w n c auth) w.nSock).nsps = (createSocket cfg w n c auth).nsps := by
      simp only [doConnect, obs, setClient, sockPacket]
      unfold clientPacket join; split <;> split <;> rfl
    refine found_same hk1 (fun r => ?_) (fun r => ?_) (fun n => ?_) d6 d5
    · rw [d2]; exact upd_proj _ _ _ _ Sock.ns rfl
    · rw [d2]; exact upd_proj _ _ _ _ Sock.canJoin rfl
    · rw [d1]; exact upd_proj _ _ _ _ Ns.name rfl
  · split <;> exact hk1

theorem found_newNs {w : W} (hs : InvS w) (hk : Found w) (s : Ns) (hn : w.nsps.get? s.name = none) : Found (newNs w s) := by
  intro r ⟨a, b⟩
  have h0 := hk r ⟨a, b⟩
  have hne : (w.socks r).ns ≠ w.nNs := Nat.ne_of_lt (hs.sock r a).1
  unfold Registered at h0 ⊢
  simp only [newNs]; rw [upd_ne _ _ hne, FMap.get?_insert_ne]
  · exact h0
  · intro e; rw [e, h0] at hn; simp at hn

theorem found_connect (cfg : Cfg) {w : W} (hs : InvS w) (hk : Found w) (c : Nat) (name : String) (auth : Option (Session.Pid × String)) :
    Found (connect cfg w c name auth) := by
  unfold connect; split
  · rename_i n hn
    refine found_add cfg hk n c auth ?_
    unfold Registered; rw [(hs.names _ _ hn).2]; exact hn
  · rename_i hn
    split
    · refine found_add cfg (w := newNs w { name := name, fns := cfg.childFns, auto := cfg.autoClean }) (found_newNs hs hk _ hn) _ c auth ?_
      simp [Registered, newNs]
    · unfold clientPacket; split <;> exact hk

theorem found_step {cfg : Cfg} {used : List (Nat × Nat)} {w : W} (hg : Good w) (hr : Refs w) (hi : InvT cfg.recovery.isSome used w) (hk : Found w) (e : Ev)
    (hq : Quietly w (step cfg w e)) : Found (step cfg w e) := by
  have self : Good w ∧ Keeps w w := ⟨hg, .refl w, fun _ => rfl, fun r hr => .inl (hk r hr)⟩
  by_cases he : e.calm = true
  · exact keeps_end ((blocks_keeps cfg w).step w e he (fun _ _ => trivial) (fun _ _ => trivial) self).2 hq
  · cases e <;> simp only [Ev.calm, not_true_eq_false] at he
    case accept b =>
      simp only [step, accept]; split
      · refine found_connect cfg (w := { w with
          clients := upd w.clients w.nClient { proto3 := b, conn := .opened, timer := true, listening := true }
          nClient := w.nClient + 1 }) ?_ hk _ _ _
        have hs := hg.s
        refine ⟨fun r hr => ⟨(hs.sock r hr).1, Nat.lt_succ_of_lt (hs.sock r hr).2⟩, hs.conn, hs.ad, hs.nsWf, hs.reg, hs.live, ?_, ?_, ?_, ?_,
          hs.names, hs.nspsWf⟩
        · intro c; simp only [upd_apply]; split
          · exact FMap.wf_nil
          · exact hs.clWf c
        · intro c sid r; simp only [upd_apply]; split
          · intro h; simp at h
          · exact hs.cl c sid r
        · intro c name r; simp only [upd_apply]; split
          · intro h; simp at h
          · exact hs.clNs c name r
        · intro c; simp only [upd_apply]; split
          · intro _; exact ⟨rfl, rfl⟩
          · exact hs.timer c
      · exact hk
    case recv c type name auth =>
      by_cases hl : c < w.nClient ∧ (w.clients c).listening = true
      · cases hn : (w.clients c).nsps.get? name with
        | none =>
          by_cases ht : type = .connect
          · simp only [step, ondecoded]; rw [if_pos hl, hn]; simp only [ht, if_true]
            exact found_connect cfg hg.s hk _ _ _
          · have q : step cfg w (.recv c type name auth) = clientClose cfg w c := by
              simp only [step, ondecoded]; rw [if_pos hl, hn]; simp only [ht, if_false]
            rw [q] at hq ⊢
            exact keeps_end ((blocks_keeps cfg w).clientClose w c self).2 hq
        | some ref =>
          by_cases ht : type ≠ .connect ∧ type ≠ .connectError
          · simp only [step, ondecoded]; rw [if_pos hl, hn]; dsimp only; rw [if_pos ht]; exact hk
          · have q : step cfg w (.recv c type name auth) = clientClose cfg w c := by
              simp only [step, ondecoded]; rw [if_pos hl, hn]; dsimp only; rw [if_neg ht]
            rw [q] at hq ⊢
            exact keeps_end ((blocks_keeps cfg w).clientClose w c self).2 hq
      · simp only [step]; rw [if_neg hl]; exact hk
    case task k =>
      cases hkk : w.tasks[k]? with
      | none => simp only [step]; rw [hkk]; exact hk
      | some t =>
        have q : step cfg w (.task k) = runTask cfg { w with tasks := w.tasks.eraseIdx k } t := by simp only [step]; rw [hkk]
        have hlt := hr.tasks t (List.mem_of_getElem? hkk)
        rw [q] at hq ⊢
        cases t with
        | result ref err =>
          have hpend : ref ∈ pending w :=
            List.mem_append.2 (.inl (List.mem_filterMap.2 ⟨_, List.mem_of_getElem? hkk, rfl⟩))
          obtain ⟨hcon, hcj⟩ := hi.undecided ref hpend
          have hcl (w' : W) (q' : w'.nss = (cleanup cfg { w with tasks := w.tasks.eraseIdx k } ref).nss)
              (q1 : w'.socks = (cleanup cfg { w with tasks := w.tasks.eraseIdx k } ref).socks)
              (q2 : w'.nsps = (cleanup cfg { w with tasks := w.tasks.eraseIdx k } ref).nsps)
              (q3 : w'.nSock = (cleanup cfg { w with tasks := w.tasks.eraseIdx k } ref).nSock) (hq : Quietly w w') : Found w' := by
            obtain ⟨d1, d2, -, -, d5, -⟩ := cleanup_fields cfg { w with tasks := w.tasks.eraseIdx k } ref
            have dn := cleanup_nsps cfg { w with tasks := w.tasks.eraseIdx k } ref
            intro r hro
            have hro' := hro
            obtain ⟨a, b⟩ := hro
            rw [q3, d5] at a; rw [q1, d2] at b
            have hne : r ≠ ref := by rintro rfl; rw [upd_same] at b; simp at b
            rw [upd_ne _ _ hne] at b
            have hk0 := hk r ⟨a, b⟩
            have hkr := hk ref ⟨hlt, hcj⟩
            have esr : w'.socks r = w.socks r := by rw [q1, d2, upd_ne _ _ hne]
            rw [esr]
            have enm (n : Nat) : (w'.nss n).name = (w.nss n).name := by rw [q', d1]; exact upd_proj _ _ _ _ Ns.name rfl
            unfold Registered at hk0 hkr ⊢
            rw [enm, q2, dn]
            show (if _ then w.nsps.erase (w.nss (w.socks ref).ns).name else w.nsps).get? _ = _
            by_cases en : (w.socks r).ns = (w.socks ref).ns
            · have hcr : (w.socks r).connected = true := by
                have := hq ref r ⟨hlt, hcj⟩ (fun ho => by have := ho.2; rw [q1, d2, upd_same] at this; simp at this) hro' (by rw [esr, en])
                rw [esr] at this; exact this
              have hsid : (w.socks ref).sid ≠ (w.socks r).sid := fun e => hne (hg.t r ref ⟨a, b⟩ ⟨hlt, hcj⟩ e.symm)
              have hin := hg.f.ns r hcr
              rw [if_neg ?_]
              · exact hk0
              · rintro ⟨-, hl⟩
                have hl' : (w.nss (w.socks ref).ns).sockets.erase (w.socks ref).sid = [] := List.eq_nil_of_length_eq_zero hl
                rw [en] at hin
                have := FMap.get?_erase_ne (m := (w.nss (w.socks ref).ns).sockets) hsid
                rw [hl', hin] at this; simp at this
            · split
              · rw [FMap.get?_erase_ne]
                · exact hk0
                · intro ename; rw [ename, hk0] at hkr; simp only [Option.some.injEq] at hkr; exact en hkr
              · exact hk0
          simp only [runTask, result] at hq ⊢
          split
          · rename_i ho
            rw [if_pos ho] at hq
            exact hcl _ rfl rfl rfl rfl hq
          · rename_i ho
            rw [if_neg ho] at hq
            cases err with
            | some er =>
              dsimp only at hq ⊢
              refine hcl _ ?_ ?_ ?_ ?_ hq <;> rw [sockPacket_eq]
            | none =>
              dsimp only
              obtain ⟨d1, d2, -, -, d5, -⟩ := doConnect_fields { w with tasks := w.tasks.eraseIdx k } ref
              have d6 : (doConnect { w with tasks := w.tasks.eraseIdx k } ref).nsps = w.nsps := by
                simp only [doConnect, obs, setClient, sockPacket]
                unfold clientPacket join; split <;> split <;> rfl
              refine found_same hk (fun r => ?_) (fun r => ?_) (fun n => ?_) d6 d5
              · rw [d2]; exact upd_proj _ _ _ _ Sock.ns rfl
              · rw [d2]; exact upd_proj _ _ _ _ Sock.canJoin rfl
              · rw [d1]; exact upd_proj _ _ _ _ Ns.name rfl
        | packet ref type =>
          simp only [runTask, onpacket] at hq ⊢
          split
          · rename_i ht
            rw [if_pos ht] at hq
            have hg' : Good { w with tasks := w.tasks.eraseIdx k } := by
              refine ⟨invS_tasks hg.s _, ⟨hg.f.cl, hg.f.ns, hg.f.cns⟩, hg.t, hg.j⟩
            have h1 := keeps_onclose (cfg := cfg) (w0 := { w with tasks := w.tasks.eraseIdx k }) hg'
              ⟨.refl _, fun _ => rfl, fun r hr => .inl (hk r hr)⟩ ref "client namespace disconnect"
            exact keeps_end h1 hq
          · exact hk
    case next k i err =>
      have : (next w k i err).socks = w.socks ∧ (next w k i err).nss = w.nss ∧ (next w k i err).nsps = w.nsps ∧ (next w k i err).nSock = w.nSock := by
        unfold next; split
        · exact ⟨rfl, rfl, rfl, rfl⟩
        · split
          · dsimp only; split <;> exact ⟨rfl, rfl, rfl, rfl⟩
          · exact ⟨rfl, rfl, rfl, rfl⟩
      obtain ⟨a, b, c, d⟩ := this
      simp only [step, Found, IsOpen, Registered]; rw [a, b, c, d]; exact hk
    case «of» name =>
      cases hn : w.nsps.get? name with
      | some x => simp only [step]; rw [hn]; exact hk
      | none => simp only [step]; rw [hn]; exact found_newNs hg.s hk _ hn
    case use m =>
      simp only [step]; split
      · exact found_same hk (fun _ => rfl) (fun _ => rfl) (fun n => upd_proj _ _ _ _ Ns.name rfl) rfl rfl
      · exact hk
    case setData ref v =>
      simp only [step]; split
      · exact found_same hk (fun _ => upd_proj _ _ _ _ Sock.ns rfl) (fun _ => upd_proj _ _ _ _ Sock.canJoin rfl) (fun _ => rfl) rfl rfl
      · exact hk
    case clock t => exact hk

theorem found_run (cfg : Cfg) (h : List Ev) (hn : NextOnce h) (ht : NeverTwins cfg h) (hq : NobodyWaiting cfg h) : Found (run cfg h) := by
  induction h using snocRec with
  | nil => intro r ⟨a, _⟩; simp [run, init, newNs] at a
  | append_singleton h e ih =>
    obtain ⟨n1, -⟩ := nextOnce_snoc hn
    obtain ⟨t1, -, -⟩ := neverTwins_snoc ht
    have := hq h e (List.prefix_refl _)
    rw [run_snoc] at this ⊢
    exact found_step (good_run cfg h n1 t1) (inv_run cfg h).2 (invT_run cfg h n1)
      (ih n1 t1 fun p e' hp => hq p e' (hp.trans (List.prefix_append _ _))) e this

end Verif.World
