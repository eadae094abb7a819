import Verif.Proof.WorldKeep

/-! # The server: a client's table of namespaces lists its connected sockets -/

namespace Verif.World
open Verif Verif.Adapter Verif.Spec

theorem oneEach_calm {w w' : W} (h : OneEach w) (c : Calm w w') : OneEach w' := by
  have ho : ∀ r, IsOpen w' r → IsOpen w r := by
    intro r ⟨a, b⟩
    refine ⟨by rw [← c.nSock]; exact a, ?_⟩
    rcases c.socks r with e | ⟨_, e⟩
    · rw [← e]; exact b
    · rw [e] at b; simp [closed] at b
  intro r r' h1 h2 e1 e2
  rw [c.client, c.client] at e1
  rw [c.ns, c.ns, c.name, c.name] at e2
  exact h r r' (ho r h1) (ho r' h2) e1 e2

theorem oneEach_doConnect {w : W} {ref : Nat} (h : OneEach (doConnect w ref)) : OneEach w := by
  obtain ⟨d1, d2, -, -, d5, -⟩ := doConnect_fields w ref
  have hp {β : Type} (p : Sock → β) (hp : p { w.socks ref with connected := true } = p (w.socks ref)) (r : Nat) :
      p ((doConnect w ref).socks r) = p (w.socks r) := by rw [d2]; exact upd_proj _ _ _ _ p hp
  have hnm (n : Nat) : ((doConnect w ref).nss n).name = (w.nss n).name := by rw [d1]; exact upd_proj _ _ _ _ Ns.name rfl
  intro r r' h1 h2 e1 e2
  refine h r r' ⟨by rw [d5]; exact h1.1, by rw [hp Sock.canJoin rfl]; exact h1.2⟩
    ⟨by rw [d5]; exact h2.1, by rw [hp Sock.canJoin rfl]; exact h2.2⟩ ?_ ?_
  · rw [hp Sock.client rfl, hp Sock.client rfl]; exact e1
  · rw [hp Sock.ns rfl, hp Sock.ns rfl, hnm, hnm]; exact e2

instance : Stable fun w => NoTwins w ∧ OneEach w :=
  ⟨fun _ _ h => h, fun _ _ h => ⟨noTwins_doConnect h.1, oneEach_doConnect h.2⟩⟩

/-- Every connected socket is what its client's table names for its namespace. -/
def Slot (w : W) : Prop := ∀ r, (w.socks r).connected = true →
  (w.clients (w.socks r).client).nsps.get? (w.nss (w.socks r).ns).name = some r

theorem calm_drop (cfg : Cfg) (w : W) (c : Nat) :
    Calm w (setClient ((w.clients c).sockets.keys.foldl (eachSocket c (disconnectNs cfg)) w) c fun k => { k with sockets := [] }) :=
  (calm_foldl _ (calm_eachSocket c _ (calm_disconnectNs cfg)) _ _).trans (calm_setClient _ _ _ rfl)

theorem blocks_goodOne (cfg : Cfg) :
    Blocks cfg (fun _ _ => True) (fun _ => True) fun w w' => (Good w ∧ OneEach w → Good w' ∧ OneEach w') where
  refl w h := h
  trans h1 h2 h := h2 (h1 h)
  packet w c ref x h := ⟨(blocks_good cfg).packet _ _ _ _ h.1, oneEach_calm h.2 (calm_clientPacket _ _ _ _)⟩
  join w ref rooms hr h := ⟨(blocks_good cfg).join _ _ _ hr h.1, oneEach_calm h.2 (calm_join _ _ _)⟩
  leave w ref room hr h := ⟨(blocks_good cfg).leave _ _ _ hr h.1, oneEach_calm h.2 (calm_leave _ _ _ _)⟩
  sess w n f h := ⟨(blocks_good cfg).sess _ _ _ h.1, oneEach_calm h.2 (calm_setNs _ _ _ rfl rfl)⟩
  onclose w ref reason h := ⟨(blocks_good cfg).onclose _ _ _ h.1, oneEach_calm h.2 (calm_onclose _ _ _ _)⟩
  clientOnclose w c reason hc h := ⟨(blocks_good cfg).clientOnclose _ _ _ hc h.1, oneEach_calm h.2 (calm_clientOnclose _ _ _ _)⟩
  conn w c x hx h := ⟨(blocks_good cfg).conn _ _ _ hx h.1, oneEach_calm h.2 (calm_setClient _ _ _ rfl)⟩
  timer w c hc h := ⟨(blocks_good cfg).timer _ _ hc h.1, oneEach_calm h.2 (calm_setClient _ _ _ rfl)⟩
  drop w c h := ⟨(blocks_good cfg).drop _ _ h.1, oneEach_calm h.2 (calm_drop cfg w c)⟩
  reorderClient w c l hp h := ⟨(blocks_good cfg).reorderClient _ _ _ hp h.1, oneEach_calm h.2 (calm_setClient _ _ _ rfl)⟩
  reorderNs w n l hp h := ⟨(blocks_good cfg).reorderNs _ _ _ hp h.1, oneEach_calm h.2 (calm_setNs _ _ _ rfl rfl)⟩
  reorderNsps w l hp h := ⟨(blocks_good cfg).reorderNsps _ _ hp h.1, oneEach_calm h.2 (calm_nsps _ _)⟩

theorem slot_same {w w' : W} (h : Slot w) (h1 : w'.socks = w.socks) (h2 : ∀ c, (w'.clients c).nsps = (w.clients c).nsps)
    (h3 : ∀ n, (w'.nss n).name = (w.nss n).name) : Slot w' := by
  intro r hr; rw [h1] at hr ⊢; rw [h2, h3]; exact h r hr

theorem slot_onclose {w : W} (hg : Good w) (ho : OneEach w) (h : Slot w) (cfg : Cfg) (ref : Nat) (reason : String) :
    Slot (onclose cfg w ref reason) := by
  by_cases hc : (w.socks ref).connected = true
  · obtain ⟨h1, -, h3⟩ := onclose_effect cfg reason hc
    have hnm := (calm_onclose cfg w ref reason).name
    intro r hr
    have hne : r ≠ ref := by
      rintro rfl; rw [h1, upd_same] at hr; simp [closed] at hr
    rw [h1, upd_ne _ _ hne] at hr ⊢
    rw [hnm, h3, upd_apply]; split
    · rename_i e
      rw [clientCleaned_nsps' (hg.f.cl ref hc), if_neg]
      · rw [← e]; exact h r hr
      · intro e2
        exact hne (ho r ref ⟨hg.s.conn r hr, hg.j r hr⟩ ⟨hg.s.conn ref hc, hg.j ref hc⟩ e e2.symm)
    · exact h r hr
  · rw [onclose_neg cfg reason hc]; exact h

theorem blocks_slot (cfg : Cfg) : Blocks cfg (fun _ _ => True) (fun _ => True) fun w w' =>
    ((Good w ∧ OneEach w) ∧ Slot w → (Good w' ∧ OneEach w') ∧ Slot w') :=
  blocks_with (blocks_goodOne cfg) (fun w c h => ⟨good_unlisten h.1 c, oneEach_calm h.2 (calm_setClient _ _ _ rfl)⟩)
    (fun w c ref x _ h => by unfold clientPacket; split <;> exact h)
    (fun w ref rooms _ _ h => by
      unfold join; split
      · exact slot_same h rfl (fun _ => rfl) fun _ => upd_proj _ _ _ _ Ns.name rfl
      · exact h)
    (fun w ref room _ _ h => slot_same h rfl (fun _ => rfl) fun _ => upd_proj _ _ _ _ Ns.name rfl)
    (fun w n f _ h => slot_same h rfl (fun _ => rfl) fun _ => upd_proj _ _ _ _ Ns.name rfl)
    (fun w ref reason hb h => slot_onclose hb.1 hb.2 h _ _ _)
    (fun w c f hf h => slot_same h rfl (fun _ => upd_proj _ _ _ _ Client.nsps (hf _).1) fun _ => rfl)
    (fun w n l _ _ h => slot_same h rfl (fun _ => rfl) fun _ => upd_proj _ _ _ _ Ns.name rfl)
    (fun w l _ _ h => h)

theorem grow_slot (cfg : Cfg) : Grow cfg (fun w => NoTwins w ∧ OneEach w) fun w => Slot w ∧ Joined w where
  inert w t ch now h := h
  use w n h := ⟨slot_same h.1 rfl (fun _ => rfl) fun _ => upd_proj _ _ _ _ Ns.name rfl, h.2⟩
  data w ref v h := by
    have hp {β : Type} (p : Sock → β) (hp : p { w.socks ref with data := some v } = p (w.socks ref)) (r : Nat) :
        p ((setSock w ref fun s => { s with data := some v }).socks r) = p (w.socks r) := upd_proj _ _ _ _ p hp
    refine ⟨fun r => ?_, fun r => ?_⟩
    · rw [hp Sock.connected rfl, hp Sock.client rfl, hp Sock.ns rfl]; exact h.1 r
    · rw [hp Sock.connected rfl, hp Sock.canJoin rfl]; exact h.2 r
  newNs w s _ _ _ _ hs h := by
    refine ⟨fun r hr => ?_, h.2⟩
    have := (hs.sock r (hs.conn r hr)).1
    simp only [newNs]; rw [upd_ne _ _ (Nat.ne_of_lt this)]; exact h.1 r hr
  newClient w p hs h := by
    refine ⟨fun r hr => ?_, h.2⟩
    have := (hs.sock r (hs.conn r hr)).2
    dsimp only; rw [upd_ne _ _ (Nat.ne_of_lt this)]; exact h.1 r hr
  create w n c auth hn hc hs h := by
    have h1 := (create_clients cfg w n c auth).1
    have h2 := fun m => (create_fns cfg w n c auth m).2
    obtain ⟨-, -, e3, -, e5⟩ := createSocket_self cfg w n c auth
    have hold (r : Nat) (hr : ((createSocket cfg w n c auth).socks r).connected = true) :
        (createSocket cfg w n c auth).socks r = w.socks r := by
      refine e5 r ?_
      have h3 := (invS_createSocket hs cfg n c hn hc auth).conn r hr
      rw [createSocket_nSock] at h3
      rcases Nat.lt_or_eq_of_le (Nat.lt_succ_iff.1 h3) with h4 | rfl
      · exact h4
      · rw [e3] at hr; simp at hr
    refine ⟨fun r hr => ?_, fun r hr => ?_⟩
    · have e := hold r hr; rw [e] at hr ⊢; rw [h1, h2]; exact h.1 r hr
    · have e := hold r hr; rw [e] at hr ⊢; exact h.2 r hr
  doConnect w ref hlt ho hc hj hs ht h := by
    obtain ⟨d1, d2, d3, -, d5, -⟩ := doConnect_fields w ref
    have hp {β : Type} (p : Sock → β) (hp : p { w.socks ref with connected := true } = p (w.socks ref)) (r : Nat) :
        p ((doConnect w ref).socks r) = p (w.socks r) := by rw [d2]; exact upd_proj _ _ _ _ p hp
    have hnm (n : Nat) : ((doConnect w ref).nss n).name = (w.nss n).name := by rw [d1]; exact upd_proj _ _ _ _ Ns.name rfl
    have hcon (r : Nat) (hr : ((doConnect w ref).socks r).connected = true) : r = ref ∨ (w.socks r).connected = true := by
      rw [d2, upd_apply] at hr; split at hr
      · exact .inl (by assumption)
      · exact .inr hr
    refine ⟨fun r hr => ?_, fun r hr => ?_⟩
    · rw [hp Sock.client rfl, hp Sock.ns rfl, hnm, d3, upd_apply]
      by_cases e : r = ref
      · subst e; simp
      · have hr' := (hcon r hr).resolve_left e
        split
        · rename_i e'
          rw [FMap.get?_insert_ne, ← e']
          · exact h.1 r hr'
          · intro e2
            exact e (ht.2 r ref ⟨hs.conn r hr', h.2 r hr'⟩ ⟨hlt, hj⟩ e' e2.symm)
        · exact h.1 r hr'
    · rw [hp Sock.canJoin rfl]
      rcases hcon r hr with rfl | hr'
      · exact hj
      · exact h.2 r hr'
  cleanup w ref hlt hc hj hs ht h := by
    obtain ⟨d1, d2, d3, -⟩ := cleanup_fields cfg w ref
    have hp {β : Type} (p : Sock → β) (hp : p { w.socks ref with canJoin := false } = p (w.socks ref)) (r : Nat) :
        p ((cleanup cfg w ref).socks r) = p (w.socks r) := by rw [d2]; exact upd_proj _ _ _ _ p hp
    have hnm (n : Nat) : ((cleanup cfg w ref).nss n).name = (w.nss n).name := by rw [d1]; exact upd_proj _ _ _ _ Ns.name rfl
    refine ⟨fun r hr => ?_, fun r hr => ?_⟩
    · rw [hp Sock.connected rfl] at hr
      rw [hp Sock.client rfl, hp Sock.ns rfl, hnm, d3]; exact h.1 r hr
    · rw [hp Sock.connected rfl] at hr
      have hn : r ≠ ref := by rintro rfl; rw [hc] at hr; simp at hr
      rw [d2, upd_ne _ _ hn]; exact h.2 r hr
  packet w c ref x _ hs h := by
    unfold clientPacket; split
    · exact h
    · exact h
  received w ref type h := h

theorem slot_run {cfg : Cfg} {h : List Ev} (hn : NextOnce h) (ht : NeverTwins cfg h) (hd : NeverTwice cfg h) : Slot (run cfg h) := by
  induction h using snocRec with
  | nil => intro r hr; simp [run, init, newNs] at hr
  | append_singleton h e ih =>
    obtain ⟨t1, t2, t3⟩ := neverTwins_snoc ht
    obtain ⟨n1, -⟩ := nextOnce_snoc hn
    have o1 : NeverTwice cfg h := fun p hp => hd p (hp.trans (List.prefix_append _ _))
    have o2 : OneEach (run cfg h) := hd h (List.prefix_append _ _)
    have o3 : OneEach (step cfg (run cfg h) e) := by rw [← run_snoc]; exact hd _ (List.prefix_refl _)
    have g := good_run cfg h n1 t1
    have hsl := ih n1 t1 o1
    rw [run_snoc]
    by_cases he : e.calm = true
    · exact ((blocks_slot cfg).step _ e he (fun _ _ => trivial) (fun _ _ => trivial) ⟨⟨g, o2⟩, hsl⟩).2
    · obtain ⟨i1, i2⟩ := inv_run cfg h
      refine ((grow_slot cfg).step i1 i2 (invT_run cfg h n1) e he ⟨t2, o2⟩ ⟨t3, o3⟩
        (fun c hP => ?_) (fun v ref reason _ hv hP => ?_) ⟨hsl, g.j⟩).1
      · have := (blocks_slot cfg).clientClose (run cfg h) c ⟨⟨g, o2⟩, hP.1⟩
        exact ⟨this.2, this.1.1.j⟩
      · have hv' : Good v ∧ OneEach v := by
          have e1 : Good { v with tasks := (run cfg h).tasks } := by rw [hv]; exact g
          have e2 : OneEach { v with tasks := (run cfg h).tasks } := by rw [hv]; exact o2
          exact ⟨⟨invS_tasks e1.s v.tasks, ⟨e1.f.cl, e1.f.ns, e1.f.cns⟩, e1.t, e1.j⟩, e2⟩
        have := (blocks_slot cfg).onclose v ref reason ⟨hv', hP.1⟩
        exact ⟨this.2, this.1.1.j⟩

end Verif.World
