import Verif.Proof.WorldReject

/-! # The life of one socket, whatever the middlewares do with the other ones -/

namespace Verif.World
open Verif Verif.Adapter Verif.Spec

/-- `InvT` for one socket.  `x`: the socket has been rejected. -/
structure InvR (rec : Bool) (r : Nat) (x : Bool) (used : List (Nat × Nat)) (w : W) : Prop where
  once : (pending w).count r ≤ 1
  undecided : r ∈ pending w → (w.socks r).connected = false ∧ (w.socks r).canJoin = true
  chain : ∀ (k : Nat) (ch : Chain), w.chains[k]? = some ch → ch.ref = r → ch.reached < ch.len ∧ (∀ i, i < ch.reached → i ∈ ch.used) ∧
    ∀ i ∈ ch.used, i ≤ ch.reached ∧ (k, i) ∈ used
  life : LifeOk rec (w.socks r) (life r w.log)
  fresh : w.nSock ≤ r → (w.socks r).connected = false ∧ (w.socks r).canJoin = true
  rej : x = true → r < w.nSock ∧ (w.socks r).connected = false ∧ (w.socks r).canJoin = false ∧ Spec.life r w.log = []

variable {rec : Bool} {r : Nat} {x : Bool} {used : List (Nat × Nat)} {w w' : W}

theorem InvR.weaken {used' : List (Nat × Nat)} (h : InvR rec r x used w) (hs : ∀ y ∈ used, y ∈ used') : InvR rec r x used' w :=
  ⟨h.once, h.undecided, fun k ch hk e =>
    ⟨(h.chain k ch hk e).1, (h.chain k ch hk e).2.1, fun i hi => ⟨((h.chain k ch hk e).2.2 i hi).1, hs _ ((h.chain k ch hk e).2.2 i hi).2⟩⟩,
    h.life, h.fresh, h.rej⟩

/-- Changes of what the invariant does not mention. -/
theorem InvR.congr (h : InvR rec r x used w) (ht : w'.tasks = w.tasks) (hc : w'.chains = w.chains) (hn : w'.nSock = w.nSock)
    (h1 : (w'.socks r).connected = (w.socks r).connected) (h2 : (w'.socks r).canJoin = (w.socks r).canJoin)
    (hl : Spec.life r w'.log = Spec.life r w.log) : InvR rec r x used w' := by
  have hp : pending w' = pending w := by unfold pending; rw [ht, hc]
  refine ⟨by rw [hp]; exact h.once, by rw [hp, h1, h2]; exact h.undecided, by rw [hc]; exact h.chain, ?_, by rw [hn, h1, h2]; exact h.fresh,
    by rw [hn, h1, h2, hl]; exact h.rej⟩
  have := h.life
  unfold LifeOk at this ⊢
  rw [h1, h2, hl]; exact this

theorem InvR.calm {Q : String → Prop} (h : InvR rec r x used w)
    (ht : w'.tasks = w.tasks) (hc : w'.chains = w.chains) (hn : w'.nSock = w.nSock) (tr : Traced rec Q w w') :
    InvR rec r x used w' := by
  obtain ⟨ext, e, p⟩ := tr
  have hp : pending w' = pending w := by unfold pending; rw [ht, hc]
  rcases p r with ⟨s, l⟩ | ⟨c, s, reason, _, l⟩
  · exact h.congr ht hc hn (by rw [s]) (by rw [s]) (by rw [e, life_append, l, List.append_nil])
  · refine ⟨by rw [hp]; exact h.once, ?_, by rw [hc]; exact h.chain, ?_, ?_, ?_⟩
    · rw [hp]; intro hr
      rw [(h.undecided hr).1] at c; simp at c
    · rw [e, life_append, s, l, (h.life.1 c).2]
      exact ⟨fun hc => by simp [closed] at hc, fun _ hc => by simp [closed] at hc, fun _ _ => .inr ⟨reason, rfl⟩⟩
    · intro hr; rw [hn] at hr
      rw [(h.fresh hr).1] at c; simp at c
    · intro hx
      rw [(h.rej hx).2.1] at c; simp at c

theorem invR_alloc (h : InvR rec r x used w) (hr : Refs w) (s : Sock) (h1 : s.connected = false) (h2 : s.canJoin = true) :
    InvR rec r x used (alloc w s) := by
  by_cases e : r = w.nSock
  · subst e
    have hf := h.fresh (Nat.le_refl _)
    have hs : (alloc w s).socks w.nSock = s := by simp [alloc]
    refine ⟨h.once, fun hm => ⟨by rw [hs, h1], by rw [hs, h2]⟩, h.chain, ?_, ?_, ?_⟩
    · rw [hs]
      show LifeOk rec s (Spec.life w.nSock w.log)
      rw [h.life.2.1 hf.1 hf.2]
      exact ⟨fun h => by rw [h1] at h; simp at h, fun _ _ => rfl, fun _ h => by rw [h2] at h; simp at h⟩
    · intro h'; exact absurd h' (by simp [alloc])
    · intro hx; exact absurd (h.rej hx).1 (Nat.lt_irrefl _)
  · have hs : (alloc w s).socks r = w.socks r := by simp only [alloc]; rw [upd_ne _ _ e]
    refine ⟨h.once, by rw [hs]; exact h.undecided, h.chain, by rw [hs]; exact h.life, ?_, ?_⟩
    · rw [hs]; intro h'; simp only [alloc] at h'; exact h.fresh (by omega)
    · rw [hs]; intro hx; obtain ⟨a, b⟩ := h.rej hx; exact ⟨Nat.lt_succ_of_lt a, b⟩

theorem invR_doConnect (h : InvR rec r x used w) {ref : Nat} (hr : ref < w.nSock)
    (hc : (w.clients (w.socks ref).client).conn = .opened)
    (hp : ref = r → r ∉ pending w ∧ (w.socks r).connected = false ∧ (w.socks r).canJoin = true) : InvR rec r x used (doConnect w ref) := by
  obtain ⟨d1, d2, d3, d4, d5, d6, d7, d8, d9, d10, d11⟩ := doConnect_fields w ref
  by_cases e : ref = r
  · subst e
    obtain ⟨p1, p2, p3⟩ := hp rfl
    have hpd : pending (doConnect w ref) = pending w := by unfold pending; rw [d7, d8]
    refine ⟨by rw [hpd]; exact h.once, by rw [hpd]; exact fun hm => absurd hm p1, by rw [d8]; exact h.chain, ?_, ?_, ?_⟩
    · rw [d2, d11 hc, life_append, life_connect, upd_apply, if_pos rfl, if_pos rfl]; exact lifeOk_connect h.life p2 p3
    · intro hn; rw [d5] at hn; omega
    · intro hx; have := (h.rej hx).2.2.1; rw [p3] at this; simp at this
  · exact h.congr d7 d8 d5 (by rw [d2, upd_ne _ _ (Ne.symm e)]) (by rw [d2, upd_ne _ _ (Ne.symm e)])
      (by rw [d11 hc, life_append, life_connect, if_neg e, List.append_nil])

theorem invR_cleanup (h : InvR rec r x used w) (cfg : Cfg) {ref : Nat} (hr : ref < w.nSock)
    (hp : ref = r → r ∉ pending w ∧ (w.socks r).connected = false ∧ (w.socks r).canJoin = true) :
    InvR rec r (x || ref == r) used (cleanup cfg w ref) := by
  obtain ⟨d1, d2, d3, d4, d5, d6, d7, d8, d9, d10, d11⟩ := cleanup_fields cfg w ref
  by_cases e : ref = r
  · subst e
    obtain ⟨p1, p2, p3⟩ := hp rfl
    have hpd : pending (cleanup cfg w ref) = pending w := by unfold pending; rw [d7, d8]
    refine ⟨by rw [hpd]; exact h.once, by rw [hpd]; exact fun hm => absurd hm p1, by rw [d8]; exact h.chain, ?_, ?_, ?_⟩
    · rw [d2, d10, upd_apply, if_pos rfl]; exact lifeOk_reject h.life p2 p3
    · intro hn; rw [d5] at hn; omega
    · intro _; rw [d2, d10, d5, upd_apply, if_pos rfl]; exact ⟨hr, p2, rfl, h.life.2.1 p2 p3⟩
  · have hx : (x || ref == r) = x := by simp [e]
    rw [hx]
    exact h.congr d7 d8 d5 (by rw [d2, upd_ne _ _ (Ne.symm e)]) (by rw [d2, upd_ne _ _ (Ne.symm e)]) (by rw [d10])

theorem invR_add {cfg : Cfg} (h : InvR cfg.recovery.isSome r x used w) (hr : Refs w) (n c : Nat)
    (auth : Option (Session.Pid × String)) : InvR cfg.recovery.isSome r x used (add cfg w n c auth) := by
  obtain ⟨s, tr, cm, s1, s2, s3, s4⟩ := createSocket_rel cfg (prim_traced cfg fun _ => True).toPrim0 w n c auth
  have ha := invR_alloc h hr s s3 s4
  have h1 : InvR cfg.recovery.isSome r x used (createSocket cfg w n c auth) := ha.calm cm.tasks cm.chains cm.nSock tr
  have hself : (createSocket cfg w n c auth).socks w.nSock = s := by
    rcases cm.socks w.nSock with e | ⟨e, _⟩
    · rw [e]; simp [alloc]
    · simp [alloc, s3] at e
  have hlt : ∀ r ∈ pending (createSocket cfg w n c auth), r < w.nSock := by
    have : pending (createSocket cfg w n c auth) = pending w := by
      unfold pending; rw [cm.tasks, cm.chains]; rfl
    rw [this]; exact pending_lt hr
  have hnp : w.nSock ∉ pending (createSocket cfg w n c auth) := fun hm => Nat.lt_irrefl _ (hlt _ hm)
  have hns : (createSocket cfg w n c auth).nSock = w.nSock + 1 := cm.nSock
  have hnew : ∀ w2 : W, (pending w2).Perm (w.nSock :: pending (createSocket cfg w n c auth)) →
      (pending w2).count r ≤ 1 ∧ (r ∈ pending w2 → ((createSocket cfg w n c auth).socks r).connected = false ∧
        ((createSocket cfg w n c auth).socks r).canJoin = true) := by
    intro w2 hp
    rw [hp.count_eq, hp.mem_iff, List.count_cons]
    by_cases e : w.nSock = r
    · subst e
      rw [List.count_eq_zero.2 hnp]
      exact ⟨by simp, fun _ => by rw [hself]; exact ⟨s3, s4⟩⟩
    · refine ⟨by simp [e]; exact h1.once, fun hm => ?_⟩
      rcases List.mem_cons.1 hm with hm | hm
      · exact absurd hm.symm e
      · exact h1.undecided hm
  unfold add; dsimp only; split
  · rename_i hc
    refine invR_doConnect h1 (by omega) ?_ ?_
    · rw [hself, s2]; exact hc.2.2
    · rintro rfl; rw [hself]; exact ⟨hnp, s3, s4⟩
  · split
    · have hp : (pending { createSocket cfg w n c auth with
          tasks := (createSocket cfg w n c auth).tasks ++ [.result w.nSock none] }).Perm
          (w.nSock :: pending (createSocket cfg w n c auth)) := by
        unfold pending; simp only [List.filterMap_append]
        simp only [List.filterMap_cons, Task.pending, List.filterMap_nil, List.append_assoc, List.singleton_append]
        exact List.perm_middle
      obtain ⟨q1, q2⟩ := hnew _ hp
      exact ⟨q1, q2, h1.chain, h1.life, h1.fresh, h1.rej⟩
    · rename_i hf
      have hp : (pending { createSocket cfg w n c auth with
          chains := (createSocket cfg w n c auth).chains ++ [{ ref := w.nSock, len := ((createSocket cfg w n c auth).nss n).fns }] }).Perm
          (w.nSock :: pending (createSocket cfg w n c auth)) := by
        unfold pending; simp only [List.filterMap_append]
        simp only [List.filterMap_cons, Chain.pending, Chain.waiting, List.filterMap_nil, List.not_mem_nil,
          not_false_eq_true, decide_true, if_true]
        rw [← List.append_assoc]
        exact List.perm_append_singleton _ _
      obtain ⟨q1, q2⟩ := hnew _ hp
      refine ⟨q1, q2, ?_, h1.life, h1.fresh, h1.rej⟩
      intro k ch hk hre
      simp only [List.getElem?_append] at hk
      split at hk
      · exact h1.chain k ch hk hre
      · have := List.mem_of_getElem? hk
        rw [List.mem_singleton.1 this]
        exact ⟨by simp; omega, fun i hi => absurd hi (Nat.not_lt_zero _), fun i hi => by simp at hi⟩

theorem invR_connect {cfg : Cfg} (h : InvR cfg.recovery.isSome r x used w) (hr : Refs w) (c : Nat)
    (name : String) (auth : Option (Session.Pid × String)) : InvR cfg.recovery.isSome r x used (connect cfg w c name auth) := by
  unfold connect; split
  · exact invR_add h hr _ _ _
  · split
    · exact invR_add (w := newNs w { name := name, fns := cfg.childFns, auto := cfg.autoClean })
        (h.congr rfl rfl rfl rfl rfl rfl) ⟨hr.tasks, hr.chains⟩ _ _ _
    · have c := calm_clientPacket w c none { type := .connectError, nsp := name, data := .error "Invalid namespace" none }
      exact h.calm c.tasks c.chains c.nSock (traced_clientPacket (Q := fun _ => True) _ _ _ _)

theorem invR_ondecoded {cfg : Cfg} (h : InvR cfg.recovery.isSome r x used w) (hr : Refs w) (c : Nat)
    (type : PType) (name : String) (auth : Option (Session.Pid × String)) :
    InvR cfg.recovery.isSome r x used (ondecoded cfg w c type name auth) := by
  have hcl : InvR cfg.recovery.isSome r x used (clientClose cfg w c) := by
    have cm := calm_clientClose cfg w c
    exact h.calm cm.tasks cm.chains cm.nSock
      ((prim_traced cfg fun _ => True).clientClose w c (fun _ _ => trivial) trivial)
  unfold ondecoded; split
  · split
    · exact invR_connect h hr _ _ _
    · exact hcl
  · split
    · have hp (x : Nat) (t : PType) : pending { w with tasks := w.tasks ++ [.packet x t] } = pending w := by
        unfold pending; simp [Task.pending]
      exact ⟨by rw [hp]; exact h.once, by rw [hp]; exact h.undecided, h.chain, h.life, h.fresh, h.rej⟩
    · exact hcl

/-- A call of `next` that concerns another socket, or was not made before. -/
theorem invR_next (h : InvR rec r x used w) (k i : Nat) (err : Option Err)
    (hu : chainOf w r k = true → (k, i) ∉ used) : InvR rec r x ((k, i) :: used) (next w k i err) := by
  have hweak := h.weaken (used' := (k, i) :: used) fun x hx => List.mem_cons_of_mem _ hx
  unfold next; split
  · exact hweak
  · rename_i ch hk
    have hkl : k < w.chains.length := (List.getElem?_eq_some_iff.1 hk).1
    have hset (x : Chain) : w.chains.set k x = w.chains.take k ++ x :: w.chains.drop (k + 1) := by
      rw [List.set_eq_take_append_cons_drop, if_pos hkl]
    have hold : w.chains = w.chains.take k ++ ch :: w.chains.drop (k + 1) := by
      conv => lhs; rw [← List.take_append_drop k w.chains]
      rw [List.drop_eq_getElem_cons hkl, (List.getElem?_eq_some_iff.1 hk).2]
    split
    · rename_i hi
      by_cases hre : ch.ref = r
      · obtain ⟨c1, c2, c3⟩ := h.chain k ch hk hre
        have hiu : i ∉ ch.used := fun hm => hu (by simp [chainOf, hk, hre]) ((c3 i hm).2)
        have hir : i = ch.reached := by
          rcases Nat.lt_or_eq_of_le hi with hl | he
          · exact absurd (c2 i hl) hiu
          · exact he
        subst hir
        have hchp : ch.pending = some ch.ref := by simp [Chain.pending, Chain.waiting, hiu]
        have hpo : pending w = w.tasks.filterMap Task.pending ++
            ((w.chains.take k).filterMap Chain.pending ++ ch.ref :: (w.chains.drop (k + 1)).filterMap Chain.pending) := by
          unfold pending
          conv => lhs; rw [hold]
          rw [List.filterMap_append, List.filterMap_cons, hchp]
        dsimp only; split
        · have hend : Chain.pending { ch with used := ch.reached :: ch.used } = none := by
            simp [Chain.pending, Chain.waiting]
          have hp : (pending { w with
              chains := w.chains.set k { ch with used := ch.reached :: ch.used }
              tasks := w.tasks ++ [.result ch.ref err] }).Perm (pending w) := by
            rw [hpo]; unfold pending
            simp only [hset, List.filterMap_append, List.filterMap_cons, hend, List.filterMap_nil, Task.pending]
            rw [List.append_assoc]
            refine List.Perm.append_left _ ?_
            rw [List.singleton_append]
            exact (List.perm_middle).symm
          refine ⟨by rw [hp.count_eq]; exact h.once, fun hm => h.undecided (hp.mem_iff.1 hm), ?_, h.life, h.fresh, h.rej⟩
          intro j cj hj hrj
          rw [List.getElem?_set] at hj
          split at hj
          · rename_i e; subst e
            simp only [hkl, if_true, Option.some.injEq] at hj; subst hj
            refine ⟨c1, fun i hi => List.mem_cons_of_mem _ (c2 i hi), fun i hi => ?_⟩
            rcases List.mem_cons.1 hi with rfl | hi
            · exact ⟨Nat.le_refl _, List.mem_cons_self⟩
            · exact ⟨(c3 i hi).1, List.mem_cons_of_mem _ (c3 i hi).2⟩
          · exact hweak.chain j cj hj hrj
        · rename_i hne
          have hlen : ch.reached + 1 < ch.len := by
            simp only [not_or] at hne; omega
          have hmax : max ch.reached (ch.reached + 1) = ch.reached + 1 := by omega
          have hgo : Chain.pending { ch with used := ch.reached :: ch.used, reached := max ch.reached (ch.reached + 1) } = some ch.ref := by
            have : ch.reached + 1 ∉ ch.used := fun hm => absurd (c3 _ hm).1 (by omega)
            simp only [Chain.pending, Chain.waiting, hmax]
            simp [this]
          have hp : pending { w with
              chains := w.chains.set k { ch with used := ch.reached :: ch.used, reached := max ch.reached (ch.reached + 1) } } =
              pending w := by
            rw [hpo]; unfold pending
            simp only [hset, List.filterMap_append, List.filterMap_cons, hgo]
          refine ⟨by rw [hp]; exact h.once, by rw [hp]; exact h.undecided, ?_, h.life, h.fresh, h.rej⟩
          intro j cj hj hrj
          rw [List.getElem?_set] at hj
          split at hj
          · rename_i e; subst e
            simp only [hkl, if_true, Option.some.injEq] at hj; subst hj
            simp only [hmax]
            refine ⟨hlen, fun i hi => ?_, fun i hi => ?_⟩
            · rcases Nat.lt_or_eq_of_le (Nat.lt_succ_iff.1 hi) with hi | rfl
              · exact List.mem_cons_of_mem _ (c2 i hi)
              · exact List.mem_cons_self
            · rcases List.mem_cons.1 hi with rfl | hi
              · exact ⟨by omega, List.mem_cons_self⟩
              · exact ⟨by have := (c3 i hi).1; omega, List.mem_cons_of_mem _ (c3 i hi).2⟩
          · exact hweak.chain j cj hj hrj
      · -- another socket: nothing pending for `r` appears or disappears
        have hcount (c' : Chain) (t : List Task) (hc : c'.ref = ch.ref) (ht : ∀ y ∈ t, y.pending = some ch.ref) :
            (pending { w with chains := w.chains.set k c', tasks := w.tasks ++ t }).count r = (pending w).count r := by
          have hch (c : Chain) (hc : c.ref = ch.ref) (l : List Chain) : ((c :: l).filterMap Chain.pending).count r = (l.filterMap Chain.pending).count r := by
            rw [List.filterMap_cons]
            cases e : c.pending with
            | none => rfl
            | some y =>
              have : y = c.ref := by
                unfold Chain.pending at e; split at e
                · exact (Option.some.inj e).symm
                · cases e
              rw [List.count_cons]; simp [this, hc, hre]
          have htt : (t.filterMap Task.pending).count r = 0 := by
            apply List.count_eq_zero.2
            intro hm
            obtain ⟨y, hy, e⟩ := List.mem_filterMap.1 hm
            rw [ht y hy] at e; exact hre (by simpa using e)
          unfold pending
          conv => rhs; rw [hold]
          simp only [hset, List.filterMap_append, List.count_append, hch c' hc, hch ch rfl, htt]
          omega
        have hmem (w2 : W) (hc : (pending w2).count r = (pending w).count r) : (r ∈ pending w2 → r ∈ pending w) := fun hm => by
          have := List.count_pos_iff.2 hm
          exact List.count_pos_iff.1 (by omega)
        have hchain (c' : Chain) (hc : c'.ref = ch.ref) (j : Nat) (cj : Chain) (hj : (w.chains.set k c')[j]? = some cj) (hrj : cj.ref = r) :
            cj.reached < cj.len ∧ (∀ i, i < cj.reached → i ∈ cj.used) ∧ ∀ i' ∈ cj.used, i' ≤ cj.reached ∧ (j, i') ∈ (k, i) :: used := by
          rw [List.getElem?_set] at hj
          split at hj
          · simp only [hkl, if_true, Option.some.injEq] at hj; subst hj
            exact absurd (hc ▸ hrj) hre
          · exact hweak.chain j cj hj hrj
        dsimp only; split
        · have hc := hcount { ch with used := i :: ch.used } [.result ch.ref err] rfl (by simp [Task.pending])
          exact ⟨by rw [hc]; exact h.once, fun hm => h.undecided (hmem _ hc hm), hchain _ rfl, h.life, h.fresh, h.rej⟩
        · have hc := hcount { ch with used := i :: ch.used, reached := max ch.reached (i + 1) } [] rfl (by simp)
          simp only [List.append_nil] at hc
          exact ⟨by rw [hc]; exact h.once, fun hm => h.undecided (hmem _ hc hm), hchain _ rfl, h.life, h.fresh, h.rej⟩
    · exact hweak

/-- Running the result of the middlewares for socket `r` with an error rejects it. -/
theorem invR_task {cfg : Cfg} (h : InvR cfg.recovery.isSome r x used w) (hr : Refs w) (k : Nat)
    (t : Task) (hk : w.tasks[k]? = some t) :
    InvR cfg.recovery.isSome r x used (runTask cfg { w with tasks := w.tasks.eraseIdx k } t) ∧
    ∀ e, t = .result r (some e) → InvR cfg.recovery.isSome r true used (runTask cfg { w with tasks := w.tasks.eraseIdx k } t) := by
  have hkl : k < w.tasks.length := (List.getElem?_eq_some_iff.1 hk).1
  have hold : w.tasks = w.tasks.take k ++ t :: w.tasks.drop (k + 1) := by
    conv => lhs; rw [← List.take_append_drop k w.tasks]
    rw [List.drop_eq_getElem_cons hkl, (List.getElem?_eq_some_iff.1 hk).2]
  have her : w.tasks.eraseIdx k = w.tasks.take k ++ w.tasks.drop (k + 1) := List.eraseIdx_eq_take_drop_succ _ _
  have unrej {w2 : W} {b : Bool} (h : InvR cfg.recovery.isSome r (x || b) used w2) : InvR cfg.recovery.isSome r x used w2 :=
    ⟨h.once, h.undecided, h.chain, h.life, h.fresh, fun hx => h.rej (by simp [hx])⟩
  cases t with
  | result ref err =>
    have hp : (pending w).Perm (ref :: pending { w with tasks := w.tasks.eraseIdx k }) := by
      unfold pending
      simp only [her]
      conv => lhs; rw [hold]
      simp only [List.filterMap_append, List.filterMap_cons, Task.pending, List.append_assoc, List.cons_append]
      exact List.perm_middle
    have hlt : ref < w.nSock := pending_lt hr ref (hp.mem_iff.2 List.mem_cons_self)
    have hcnt := h.once
    rw [hp.count_eq, List.count_cons] at hcnt
    have h1 : InvR cfg.recovery.isSome r x used { w with tasks := w.tasks.eraseIdx k } :=
      ⟨by omega, fun hm => h.undecided (hp.mem_iff.2 (List.mem_cons_of_mem _ hm)), h.chain, h.life, h.fresh, h.rej⟩
    have hme : ref = r → r ∉ pending { w with tasks := w.tasks.eraseIdx k } ∧ (w.socks r).connected = false ∧ (w.socks r).canJoin = true := by
      rintro rfl
      refine ⟨fun hm => ?_, h.undecided (hp.mem_iff.2 List.mem_cons_self)⟩
      have := List.count_pos_iff.2 hm
      simp at hcnt; omega
    have hcl := invR_cleanup h1 cfg hlt hme
    simp only [runTask, result]; split
    · refine ⟨unrej hcl, ?_⟩
      rintro e ⟨rfl, rfl⟩
      simpa using hcl
    · rename_i ho
      split
      · rename_i e
        have cm (p : Pkt) := calm_sockPacket (cleanup cfg { w with tasks := w.tasks.eraseIdx k } ref) ref p
        have hh (p : Pkt) := hcl.calm (cm p).tasks (cm p).chains (cm p).nSock ((prim_traced cfg fun _ => True).toPrim0.sockPacket _ _ _)
        refine ⟨unrej (hh _), ?_⟩
        intro e' he'
        cases he'
        simpa using hh _
      · exact ⟨invR_doConnect h1 hlt (by simpa using ho) hme, fun e he => by cases he⟩
  | packet ref type =>
    have hp : pending { w with tasks := w.tasks.eraseIdx k } = pending w := by
      unfold pending
      simp only [her]
      conv => rhs; rw [hold]
      simp only [List.filterMap_append, List.filterMap_cons, Task.pending]
    have h1 : InvR cfg.recovery.isSome r x used { w with tasks := w.tasks.eraseIdx k } :=
      ⟨by rw [hp]; exact h.once, by rw [hp]; exact h.undecided, h.chain, h.life, h.fresh, h.rej⟩
    refine ⟨?_, fun e he => by cases he⟩
    simp only [runTask, onpacket]; split
    · have cm := calm_onclose cfg { w with tasks := w.tasks.eraseIdx k } ref "client namespace disconnect"
      exact h1.calm cm.tasks cm.chains cm.nSock (traced_onclose _ _ _ _)
    · refine h1.calm (Q := fun _ => True) rfl rfl rfl ⟨[.received ref type], rfl, fun r => .inl ⟨rfl, ?_⟩⟩
      simp [Spec.life, lifeOf]

theorem invR_step {cfg : Cfg} (h : InvR cfg.recovery.isSome r x used w) (hr : Refs w) (e : Ev)
    (hu : ∀ y, nextCall e = some y → chainOf w r y.1 = true → y ∉ used) :
    InvR cfg.recovery.isSome r x ((nextCall e).toList ++ used) (step cfg w e) := by
  by_cases he : e.calm = true
  · have : (nextCall e).toList = [] := by
      cases e <;> simp only [Ev.calm, Bool.false_eq_true] at he <;> rfl
    rw [this]
    have cm := calm_step cfg w e he
    exact h.calm cm.tasks cm.chains cm.nSock (traced_step cfg w e he)
  · cases e <;> simp only [Ev.calm, not_true_eq_false] at he <;> simp only [step, nextCall, Option.toList, List.nil_append]
    case accept p =>
      have h1 : InvR cfg.recovery.isSome r x used { w with
          clients := upd w.clients w.nClient { proto3 := p, conn := .opened, timer := true, listening := true }
          nClient := w.nClient + 1 } := h.congr rfl rfl rfl rfl rfl rfl
      unfold accept; dsimp only; split
      · exact invR_connect h1 ⟨hr.tasks, hr.chains⟩ _ _ _
      · exact h1
    case recv c type name auth => split; exact invR_ondecoded h hr _ _ _ _; exact h
    case task k =>
      split
      · rename_i t ht; exact (invR_task h hr k t ht).1
      · exact h
    case next k i err => exact invR_next h k i err (hu _ rfl)
    case «of» name =>
      split
      · exact h
      · exact h.congr rfl rfl rfl rfl rfl rfl
    case use n =>
      split
      · exact h.congr rfl rfl rfl rfl rfl rfl
      · exact h
    case setData ref v =>
      split
      · have hp {β : Type} (p : Sock → β) (hp : p { w.socks ref with data := some v } = p (w.socks ref)) (r : Nat) :
            p ((setSock w ref fun s => { s with data := some v }).socks r) = p (w.socks r) :=
          upd_proj _ _ _ _ p hp
        exact h.congr rfl rfl rfl (hp Sock.connected rfl r) (hp Sock.canJoin rfl r) rfl
      · exact h
    case clock t => exact h.congr rfl rfl rfl rfl rfl rfl

/-- The chain of a socket stays its chain. -/
theorem chainOf_step {cfg : Cfg} {w : W} {r k : Nat} (e : Ev) (h : chainOf w r k = true) : chainOf (step cfg w e) r k = true := by
  unfold chainOf at h ⊢
  by_cases hn : ∃ k i err, e = .next k i err
  · obtain ⟨k', i, err, rfl⟩ := hn
    simp only [step, next]
    split
    · exact h
    · rename_i ch hk
      have hs (c' : Chain) (hc : c'.ref = ch.ref) : ((w.chains.set k' c')[k]?.map (·.ref) == some r) = true := by
        rw [List.getElem?_set]
        by_cases e : k' = k
        · subst e
          rw [hk] at h
          have hl := (List.getElem?_eq_some_iff.1 hk).1
          simpa [hl, hc] using h
        · simpa [e] using h
      split
      · split
        · exact hs _ rfl
        · exact hs _ rfl
      · exact h
  · obtain ⟨l, hl⟩ := (tasks_step cfg w e).1 fun k i err he => hn ⟨k, i, err, he⟩
    rw [hl, List.getElem?_append]
    split
    · exact h
    · rename_i hge
      rw [List.getElem?_eq_none (by omega)] at h
      simp at h

theorem nextOnceFor_snoc {cfg : Cfg} {h : List Ev} {e : Ev} {r : Nat} (hn : NextOnceFor cfg (h ++ [e]) r) :
    NextOnceFor cfg h r ∧ ∀ y, nextCall e = some y → chainOf (run cfg h) r y.1 = true → y ∉ h.filterMap nextCall := by
  unfold NextOnceFor at hn ⊢
  have hsub : ∀ y : Nat × Nat, chainOf (run cfg h) r y.1 = true → chainOf (run cfg (h ++ [e])) r y.1 = true := by
    intro y hy; rw [run_snoc]; exact chainOf_step e hy
  rw [List.filterMap_append, List.filter_append] at hn
  obtain ⟨n1, n2, n3⟩ := List.nodup_append.1 hn
  refine ⟨?_, ?_⟩
  · have : (h.filterMap nextCall).filter (fun x => chainOf (run cfg h) r x.1) =
        ((h.filterMap nextCall).filter fun x => chainOf (run cfg (h ++ [e])) r x.1).filter fun x => chainOf (run cfg h) r x.1 := by
      rw [List.filter_filter]
      apply List.filter_congr
      intro y _
      cases hy : chainOf (run cfg h) r y.1 with
      | false => simp
      | true => simp [hsub y hy]
    rw [this]
    exact n1.filter _
  · intro y hy hc hm
    exact n3 y (List.mem_filter.2 ⟨hm, hsub y hc⟩) y (by simp [hy, hsub y hc]) rfl

theorem invR_snoc {cfg : Cfg} {h : List Ev} {e : Ev} (hn : NextOnceFor cfg (h ++ [e]) r)
    (ih : InvR cfg.recovery.isSome r x (h.filterMap nextCall) (run cfg h)) :
    InvR cfg.recovery.isSome r x ((h ++ [e]).filterMap nextCall) (run cfg (h ++ [e])) := by
  obtain ⟨h1, h2⟩ := nextOnceFor_snoc hn
  rw [run_snoc]
  refine (invR_step ih (inv_run cfg h).2 e h2).weaken fun x hx => ?_
  rw [List.filterMap_append]
  rcases List.mem_append.1 hx with hx | hx
  · refine List.mem_append_right _ ?_
    simp only [Option.mem_toList] at hx
    simp [hx]
  · exact List.mem_append_left _ hx

theorem invR_run (cfg : Cfg) (h : List Ev) (r : Nat) (hn : NextOnceFor cfg h r) :
    InvR cfg.recovery.isSome r false (h.filterMap nextCall) (run cfg h) := by
  induction h using snocRec with
  | nil =>
    refine ⟨by simp [pending, run, init, newNs], fun hm => by simp [pending, run, init, newNs] at hm, ?_, lifeOk_fresh _, fun _ => ⟨rfl, rfl⟩, fun h => by cases h⟩
    intro k ch hk; simp [run, init, newNs] at hk
  | append_singleton h e ih => exact invR_snoc hn (ih (nextOnceFor_snoc hn).1)

theorem nextOnceFor_prefix {cfg : Cfg} {h t : List Ev} {r : Nat} (hn : NextOnceFor cfg (h ++ t) r) : NextOnceFor cfg h r := by
  induction t using snocRec with
  | nil => simpa using hn
  | append_singleton t e ih => rw [← List.append_assoc] at hn; exact ih (nextOnceFor_snoc hn).1

theorem invR_after {cfg : Cfg} {h t : List Ev} (hn : NextOnceFor cfg (h ++ t) r)
    (h0 : InvR cfg.recovery.isSome r x (h.filterMap nextCall) (run cfg h)) :
    InvR cfg.recovery.isSome r x ((h ++ t).filterMap nextCall) (run cfg (h ++ t)) := by
  induction t using snocRec with
  | nil => simpa using h0
  | append_singleton t e ih =>
    rw [← List.append_assoc] at hn ⊢
    exact invR_snoc hn (ih (nextOnceFor_snoc hn).1)

end Verif.World
