import Verif.Spec.Idle
import Verif.Proof.WorldAnswer

/-! # The server: sockets that are open and not connected are waiting -/

namespace Verif.World
open Verif Verif.Adapter Verif.Spec

/-- Every open socket that is not connected is waiting. -/
def WaitOk (w : W) : Prop := ∀ r, r < w.nSock → (w.socks r).connected = false → (w.socks r).canJoin = true → r ∈ pending w

theorem wait_calm {w w' : W} (h : WaitOk w) (c : Calm w w') : WaitOk w' := by
  intro r hr h1 h2
  have hp : pending w' = pending w := by unfold pending; rw [c.tasks, c.chains]
  rw [hp]
  rw [c.nSock] at hr
  rcases c.socks r with e | ⟨_, e⟩
  · rw [e] at h1 h2; exact h r hr h1 h2
  · rw [e] at h2; simp [closed] at h2

theorem wait_add {cfg : Cfg} {w : W} (h : WaitOk w) (n c : Nat) (auth : Option (Session.Pid × String)) : WaitOk (add cfg w n c auth) := by
  obtain ⟨s1, s2, s3, s4, s5⟩ := createSocket_self cfg w n c auth
  have hns := createSocket_nSock cfg w n c auth
  obtain ⟨s, -, cm, -⟩ := createSocket_rel cfg prim0_justPackets w n c auth
  have hp : pending (createSocket cfg w n c auth) = pending w := by unfold pending; rw [cm.tasks, cm.chains]; rfl
  have old : ∀ r, r ≠ w.nSock → r < (createSocket cfg w n c auth).nSock → ((createSocket cfg w n c auth).socks r).connected = false →
      ((createSocket cfg w n c auth).socks r).canJoin = true → r ∈ pending (createSocket cfg w n c auth) := by
    intro r hne hr h1 h2
    have hlt : r < w.nSock := by omega
    rw [s5 r hlt] at h1 h2; rw [hp]; exact h r hlt h1 h2
  have key : ∀ (v : W), (∀ x, x ∈ pending (createSocket cfg w n c auth) ∨ x = w.nSock → x ∈ pending v) →
      v.nSock = (createSocket cfg w n c auth).nSock → v.socks = (createSocket cfg w n c auth).socks → WaitOk v := by
    intro v v1 v2 v3 r hr h1 h2
    rw [v2] at hr; rw [v3] at h1 h2
    by_cases e : r = w.nSock
    · exact v1 r (.inr e)
    · exact v1 r (.inl (old r e hr h1 h2))
  unfold add; dsimp only; split
  · obtain ⟨d1, d2, d3, -, d5, -, d7, d8, -, -, d11⟩ := doConnect_fields (createSocket cfg w n c auth) w.nSock
    intro r hr h1 h2
    have hpd : pending (doConnect (createSocket cfg w n c auth) w.nSock) = pending (createSocket cfg w n c auth) := by
      unfold pending; rw [d7, d8]
    rw [d2] at h1 h2
    by_cases e : r = w.nSock
    · subst e; simp at h1
    · rw [upd_ne _ _ e] at h1 h2
      rw [hpd]
      rw [d5] at hr
      exact old r e hr h1 h2
  · split
    · refine key _ (fun x hx => ?_) rfl rfl
      rw [mem_pending] at hx
      rw [mem_pending]
      rcases hx with (⟨t, ht, err, rfl⟩ | hch) | rfl
      · exact .inl ⟨_, List.mem_append_left _ ht, _, rfl⟩
      · exact .inr hch
      · exact .inl ⟨_, List.mem_append_right _ (List.mem_singleton.2 rfl), _, rfl⟩
    · refine key _ (fun x hx => ?_) rfl rfl
      rw [mem_pending] at hx
      rw [mem_pending]
      rcases hx with (ht | ⟨ch, hch, e1, e2⟩) | rfl
      · exact .inl ht
      · exact .inr ⟨_, List.mem_append_left _ hch, e1, e2⟩
      · exact .inr ⟨_, List.mem_append_right _ (List.mem_singleton.2 rfl), rfl, by simp⟩

theorem wait_newNs {w : W} (h : WaitOk w) (s : Ns) : WaitOk (newNs w s) := h

theorem wait_connect {cfg : Cfg} {w : W} (h : WaitOk w) (c : Nat) (name : String) (auth : Option (Session.Pid × String)) :
    WaitOk (connect cfg w c name auth) := by
  unfold connect; split
  · exact wait_add h _ _ _
  · split
    · exact wait_add (wait_newNs h _) _ _ _
    · exact wait_calm h (calm_clientPacket _ _ _ _)

theorem wait_next {rec : Bool} {used : List (Nat × Nat)} {w : W} (h : WaitOk w) (ht : InvT rec used w) (k i : Nat) (err : Option Err)
    (hu : (k, i) ∉ used) : WaitOk (next w k i err) := by
  have fr : ∀ v : W, v.nSock = w.nSock → v.socks = w.socks → (∀ r, r ∈ pending w → r ∈ pending v) → WaitOk v := by
    intro v v1 v2 v3 r hr h1 h2
    rw [v1] at hr; rw [v2] at h1 h2; exact v3 r (h r hr h1 h2)
  unfold next; split
  · exact h
  · rename_i ch hk
    obtain ⟨c1, c2, c3⟩ := ht.chain k ch hk
    split
    · rename_i hi
      have hiu : i ∉ ch.used := fun hm => hu ((c3 i hm).2)
      have hir : i = ch.reached := by
        rcases Nat.lt_or_eq_of_le hi with hl | he
        · exact absurd (c2 i hl) hiu
        · exact he
      subst hir
      have hkl : k < w.chains.length := (List.getElem?_eq_some_iff.1 hk).1
      have hkeep (x y : Chain) (hy : y ∈ w.chains) : y = ch ∨ y ∈ w.chains.set k x := by
        obtain ⟨j, hj⟩ := List.getElem?_of_mem hy
        by_cases e : j = k
        · subst e; rw [hk] at hj; injection hj with hj; exact .inl hj.symm
        · refine .inr (List.mem_of_getElem? (i := j) ?_)
          rw [List.getElem?_set, if_neg (Ne.symm e)]; exact hj
      have hin (x : Chain) : x ∈ w.chains.set k x := List.mem_set hkl x
      dsimp only; split
      · refine fr _ rfl rfl fun r => ?_
        rw [mem_pending, mem_pending]
        rintro (⟨t, ht, err', rfl⟩ | ⟨y, hy, e1, e2⟩)
        · exact .inl ⟨_, List.mem_append_left _ ht, _, rfl⟩
        · rcases hkeep { ch with used := ch.reached :: ch.used } y hy with rfl | hy
          · exact .inl ⟨_, List.mem_append_right _ (List.mem_singleton.2 rfl), err, by rw [e1]⟩
          · exact .inr ⟨y, hy, e1, e2⟩
      · have hmax : max ch.reached (ch.reached + 1) = ch.reached + 1 := by omega
        have hnot : ch.reached + 1 ∉ ch.used := fun hm => absurd (c3 _ hm).1 (by omega)
        refine fr _ rfl rfl fun r => ?_
        rw [mem_pending, mem_pending]
        rintro (ht | ⟨y, hy, e1, e2⟩)
        · exact .inl ht
        · rcases hkeep { ch with used := ch.reached :: ch.used, reached := max ch.reached (ch.reached + 1) } y hy with rfl | hy
          · exact .inr ⟨_, hin _, e1, by simp [hmax, hnot]⟩
          · exact .inr ⟨y, hy, e1, e2⟩
    · exact h

theorem wait_task {cfg : Cfg} {w : W} (h : WaitOk w) (k : Nat) (t : Task) (hk : w.tasks[k]? = some t) :
    WaitOk (runTask cfg { w with tasks := w.tasks.eraseIdx k } t) := by
  have hkl : k < w.tasks.length := (List.getElem?_eq_some_iff.1 hk).1
  have hold : w.tasks = w.tasks.take k ++ t :: w.tasks.drop (k + 1) := by
    conv => lhs; rw [← List.take_append_drop k w.tasks]
    rw [List.drop_eq_getElem_cons hkl, (List.getElem?_eq_some_iff.1 hk).2]
  have her : w.tasks.eraseIdx k = w.tasks.take k ++ w.tasks.drop (k + 1) := List.eraseIdx_eq_take_drop_succ _ _
  cases t with
  | result ref err =>
    have hp : (pending w).Perm (ref :: pending { w with tasks := w.tasks.eraseIdx k }) := by
      unfold pending
      simp only [her]
      conv => lhs; rw [hold]
      simp only [List.filterMap_append, List.filterMap_cons, Task.pending, List.append_assoc, List.cons_append]
      exact List.perm_middle
    have fr : ∀ v : W, v.nSock = w.nSock → (∀ r, r ≠ ref → v.socks r = w.socks r) →
        ((v.socks ref).connected = true ∨ (v.socks ref).canJoin = false) →
        pending v = pending { w with tasks := w.tasks.eraseIdx k } → WaitOk v := by
      intro v v1 v2 v3 v4 r hr h1 h2
      rw [v4]
      by_cases e : r = ref
      · subst e; rw [h1, h2] at v3; simp at v3
      · rw [v1] at hr; rw [v2 r e] at h1 h2
        rcases List.mem_cons.1 (hp.mem_iff.1 (h r hr h1 h2)) with e' | e'
        · exact absurd e' e
        · exact e'
    simp only [runTask, result]
    obtain ⟨d1, d2, d3, -, d5, -, d7, d8, -, d10, -⟩ := cleanup_fields cfg { w with tasks := w.tasks.eraseIdx k } ref
    have hcl : WaitOk (cleanup cfg { w with tasks := w.tasks.eraseIdx k } ref) :=
      fr _ d5 (fun r e => by rw [d2, upd_ne _ _ e]) (.inr (by rw [d2]; simp)) (by unfold pending; rw [d7, d8])
    split
    · exact hcl
    · split
      · exact wait_calm hcl (calm_sockPacket _ _ _)
      · obtain ⟨d1, d2, d3, -, d5, -, d7, d8, -, -, d11⟩ := doConnect_fields { w with tasks := w.tasks.eraseIdx k } ref
        exact fr _ d5 (fun r e => by rw [d2, upd_ne _ _ e]) (.inl (by rw [d2]; simp)) (by unfold pending; rw [d7, d8])
  | packet ref type =>
    have hp : pending { w with tasks := w.tasks.eraseIdx k } = pending w := by
      unfold pending
      simp only [her]
      conv => rhs; rw [hold]
      simp only [List.filterMap_append, List.filterMap_cons, Task.pending]
    have h1 : WaitOk { w with tasks := w.tasks.eraseIdx k } := fun r hr a b => by rw [hp]; exact h r hr a b
    simp only [runTask, onpacket]; split
    · exact wait_calm h1 (calm_onclose _ _ _ _)
    · exact wait_calm h1 (calm_obs _ _)

theorem wait_step {cfg : Cfg} {used : List (Nat × Nat)} {w : W} (h : WaitOk w) (ht : InvT cfg.recovery.isSome used w)
    (e : Ev) (hu : ∀ x, nextCall e = some x → x ∉ used) : WaitOk (step cfg w e) := by
  by_cases he : e.calm = true
  · exact wait_calm h (calm_step cfg w e he)
  · cases e <;> simp only [Ev.calm, not_true_eq_false] at he <;> simp only [step]
    case accept p =>
      have h1 : WaitOk { w with
          clients := upd w.clients w.nClient { proto3 := p, conn := .opened, timer := true, listening := true }
          nClient := w.nClient + 1 } := h
      unfold accept; dsimp only; split
      · exact wait_connect h1 _ _ _
      · exact h1
    case recv c type name auth =>
      split
      · unfold ondecoded; split
        · split
          · exact wait_connect h _ _ _
          · exact wait_calm h (calm_clientClose _ _ _)
        · split
          · intro r hr h1 h2
            have := h r hr h1 h2
            rw [mem_pending] at this ⊢
            rcases this with ⟨t, ht, err, rfl⟩ | hch
            · exact .inl ⟨_, List.mem_append_left _ ht, _, rfl⟩
            · exact .inr hch
          · exact wait_calm h (calm_clientClose _ _ _)
      · exact h
    case task k =>
      split
      · rename_i t hk; exact wait_task h k t hk
      · exact h
    case next k i err => exact wait_next h ht k i err (hu _ rfl)
    case «of» name =>
      split
      · exact h
      · exact wait_newNs h _
    case use n =>
      split
      · exact h
      · exact h
    case setData ref v =>
      split
      · intro r hr h1 h2
        simp only [setSock] at h1 h2 hr
        rw [show (upd w.socks ref { w.socks ref with data := some v } r).connected = (w.socks r).connected from upd_proj _ _ _ _ Sock.connected rfl] at h1
        rw [show (upd w.socks ref { w.socks ref with data := some v } r).canJoin = (w.socks r).canJoin from upd_proj _ _ _ _ Sock.canJoin rfl] at h2
        exact h r hr h1 h2
      · exact h
    case clock t => exact h

theorem wait_run (cfg : Cfg) (h : List Ev) (hn : NextOnce h) : WaitOk (run cfg h) := by
  induction h using snocRec with
  | nil => exact fun r hr => absurd hr (Nat.not_lt_zero _)
  | append_singleton h e ih =>
    obtain ⟨h1, h2⟩ := nextOnce_snoc hn
    rw [run_snoc]
    exact wait_step (ih h1) (invT_run cfg h h1) e h2

end Verif.World
