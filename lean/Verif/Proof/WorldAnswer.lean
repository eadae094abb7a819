import Verif.Spec.Answer
import Verif.Proof.WorldAgree

/-! # The server: every attempt to connect is answered once -/

namespace Verif.World
open Verif Verif.Adapter Verif.Spec

theorem mem_pending {w : W} {r : Nat} : r ∈ pending w ↔ Undecided w r := by
  unfold pending Undecided
  rw [List.mem_append, List.mem_filterMap, List.mem_filterMap]
  constructor
  · rintro (⟨t, ht, e⟩ | ⟨ch, hc, e⟩)
    · cases t with
      | result r' err => simp only [Task.pending, Option.some.injEq] at e; subst e; exact .inl ⟨_, ht, _, rfl⟩
      | packet => simp [Task.pending] at e
    · unfold Chain.pending at e; split at e
      · rename_i hw
        simp only [Option.some.injEq] at e
        exact .inr ⟨ch, hc, e, by simpa [Chain.waiting] using hw⟩
      · simp at e
  · rintro (⟨t, ht, err, rfl⟩ | ⟨ch, hc, e, hw⟩)
    · exact .inl ⟨_, ht, rfl⟩
    · exact .inr ⟨ch, hc, by simp [Chain.pending, Chain.waiting, hw, e]⟩

theorem answers_append (r : Nat) (a b : List Obs) : answers r (a ++ b) = answers r a ++ answers r b := by
  simp [answers, packetsTo_append]

theorem answers_none {r : Nat} {l : List Obs} (h : ∀ p ∈ packetsTo r l, p.type ≠ .connect ∧ p.type ≠ .connectError) : answers r l = [] := by
  rw [answers, List.filter_eq_nil_iff]
  intro p hp
  simpa using h p hp

theorem answers_polite {C : Nat → Prop} {ext : List Obs} (h : Polite C ext) (r : Nat) : answers r ext = [] :=
  answers_none fun p hp => by
    rcases (packetsTo_polite h r).1 p hp with e | e <;> rw [e] <;> exact ⟨by decide, by decide⟩

structure AnsOk (r : Nat) (w : W) : Prop where
  wait : (r ∈ pending w ∨ w.nSock ≤ r) → answers r w.log = []
  one : (answers r w.log).length ≤ 1
  told : r < w.nSock → r ∉ pending w → (w.clients (w.socks r).client).conn = .opened → (answers r w.log).length = 1

/-- Nothing changes for the socket. -/
theorem AnsOk.frame {r : Nat} {w w' : W} (h : AnsOk r w) (hp : r ∈ pending w' ↔ r ∈ pending w) (hn : w'.nSock = w.nSock)
    (ext : List Obs) (hl : w'.log = w.log ++ ext) (ha : answers r ext = [])
    (ho : r < w.nSock → (w'.clients (w'.socks r).client).conn = .opened → (w.clients (w.socks r).client).conn = .opened) : AnsOk r w' := by
  have e : answers r w'.log = answers r w.log := by rw [hl, answers_append, ha, List.append_nil]
  refine ⟨?_, ?_, ?_⟩
  · rw [e, hp, hn]; exact h.wait
  · rw [e]; exact h.one
  · rw [e, hp, hn]; exact fun a b c => h.told a b (ho a c)

theorem ans_calm {r : Nat} {w w' : W} (h : AnsOk r w) (cm : Calm w w') (d : Down w w')
    (ext : List Obs) (hl : w'.log = w.log ++ ext) (ha : answers r ext = []) : AnsOk r w' := by
  have hp : pending w' = pending w := by unfold pending; rw [cm.tasks, cm.chains]
  exact h.frame (by rw [hp]) cm.nSock ext hl ha fun _ ho => d _ (by rw [← (cm.client_ns r).1]; exact ho)

theorem ans_speaks {r : Nat} {w w' : W} (h : AnsOk r w) (d : Down w w') (sp : Speaks w w') : AnsOk r w' := by
  obtain ⟨cm, ext, hl, hp⟩ := sp
  exact ans_calm h cm d ext hl (answers_polite (C := fun r => (w.socks r).connected = true) hp r)

theorem ans_clientClose {r : Nat} {w : W} (h : AnsOk r w) (cfg : Cfg) (c : Nat) : AnsOk r (clientClose cfg w c) :=
  ans_speaks h ((quiet_down cfg).clientClose (reasons_true cfg) _ _) ((quiet_speaks cfg).clientClose (reasons_true cfg) _ _)

theorem answers_other {r ref : Nat} (c : Nat) (p : Pkt) (hr : ref ≠ r) : answers r [.packet c (some ref) p] = [] := by
  simp [answers, packetsTo, packetOf, hr]

theorem answers_self {r c : Nat} {p : Pkt} (hp : p.type = .connect ∨ p.type = .connectError) : answers r [.packet c (some r) p] = [p] := by
  simp [answers, packetsTo, packetOf, hp]

/-- The socket just created has no answer; those of others stay. -/
theorem ans_create {r : Nat} {w : W} (h : AnsOk r w) (cfg : Cfg) (n c : Nat) (auth : Option (Session.Pid × String)) :
    answers r (createSocket cfg w n c auth).log = answers r w.log ∧ (r ≠ w.nSock → AnsOk r (createSocket cfg w n c auth)) ∧
    pending (createSocket cfg w n c auth) = pending w ∧ (createSocket cfg w n c auth).clients = w.clients := by
  obtain ⟨ext, e1, e2, -, e4⟩ := create_packets cfg w n c auth
  obtain ⟨s, ⟨k1, -⟩, cm, -⟩ := createSocket_rel cfg prim0_justPackets w n c auth
  have hp : pending (createSocket cfg w n c auth) = pending w := by unfold pending; rw [cm.tasks, cm.chains]; rfl
  have ha : answers r ext = [] := answers_none fun p hp => by
    obtain ⟨o, ho, e⟩ := List.mem_filterMap.1 hp
    obtain ⟨q, rfl, hq⟩ := e2 o ho
    simp only [packetOf] at e
    split at e
    · injection e with e; subst e; rw [hq]; exact ⟨by decide, by decide⟩
    · cases e
  have el : answers r (createSocket cfg w n c auth).log = answers r w.log := by rw [e1, answers_append, ha, List.append_nil]
  have hns := createSocket_nSock cfg w n c auth
  refine ⟨el, fun hne => ⟨?_, ?_, ?_⟩, hp, k1⟩
  · rw [el, hp]
    rintro (hm | hge)
    · exact h.wait (.inl hm)
    · exact h.wait (.inr (by omega))
  · rw [el]; exact h.one
  · intro hlt hnp ho
    rw [el]
    rw [hp] at hnp
    rw [e4 r hne, k1] at ho
    exact h.told (by omega) hnp ho

theorem ans_doConnect {r : Nat} {w : W} {ref : Nat} (ho : (w.clients (w.socks ref).client).conn = .opened) (hp : r = ref → ref ∉ pending w)
    (hlt : ref < w.nSock) (hw : r = ref → answers r w.log = []) (h : r ≠ ref → AnsOk r w) : AnsOk r (doConnect w ref) := by
  obtain ⟨d1, d2, d3, -, d5, -, d7, d8, -, -, d11⟩ := doConnect_fields w ref
  have hpd : pending (doConnect w ref) = pending w := by unfold pending; rw [d7, d8]
  by_cases e : r = ref
  · subst e
    have el : answers r (doConnect w r).log = [connectPkt w r] := by
      rw [d11 ho, answers_append, hw rfl, List.nil_append]
      simp [answers, packetsTo, packetOf, connectPkt]
    refine ⟨?_, by rw [el]; simp, fun _ _ _ => by rw [el]; simp⟩
    rw [hpd, d5]
    rintro (hm | hge)
    · exact absurd hm (hp rfl)
    · omega
  · refine (h e).frame (by rw [hpd]) d5 _ (d11 ho) (by simp [answers, packetsTo, packetOf, Ne.symm e]) fun _ hop => ?_
    rw [d2, d3] at hop
    rw [show (upd w.socks ref { w.socks ref with connected := true } r).client = (w.socks r).client from upd_proj _ _ _ _ Sock.client rfl,
      show ∀ m, (upd w.clients (w.socks ref).client { w.clients (w.socks ref).client with
        sockets := (w.clients (w.socks ref).client).sockets.insert (w.socks ref).sid ref
        nsps := (w.clients (w.socks ref).client).nsps.insert (w.nss (w.socks ref).ns).name ref
        timer := false } m).conn = (w.clients m).conn from fun m => upd_proj _ _ _ _ Client.conn rfl] at hop
    exact hop

theorem ans_add {cfg : Cfg} {r : Nat} {w : W} (h : AnsOk r w) (hr : Refs w) (n c : Nat)
    (auth : Option (Session.Pid × String)) : AnsOk r (add cfg w n c auth) := by
  obtain ⟨c1, c2, c3, c4⟩ := ans_create h cfg n c auth
  obtain ⟨s1, s2, -⟩ := createSocket_self cfg w n c auth
  have hns := createSocket_nSock cfg w n c auth
  have hnp : w.nSock ∉ pending (createSocket cfg w n c auth) := by
    rw [c3]; exact fun hm => Nat.lt_irrefl _ (pending_lt hr _ hm)
  have hnew : r = w.nSock → answers r (createSocket cfg w n c auth).log = [] := fun e => by rw [c1]; exact h.wait (.inr (by omega))
  have key : ∀ (v : W), (∀ x, x ∈ pending v ↔ x ∈ pending (createSocket cfg w n c auth) ∨ x = w.nSock) →
      v.nSock = (createSocket cfg w n c auth).nSock → v.log = (createSocket cfg w n c auth).log → v.clients = (createSocket cfg w n c auth).clients →
      v.socks = (createSocket cfg w n c auth).socks → AnsOk r v := by
    intro v v1 v2 v3 v4 v5
    by_cases e : r = w.nSock
    · refine ⟨fun _ => by rw [v3]; exact hnew e, by rw [v3, hnew e]; simp, fun _ hn => absurd ((v1 r).2 (.inr e)) hn⟩
    · exact (c2 e).frame (by rw [v1]; simp [e]) v2 [] (by simp [v3]) rfl (fun _ ho => by rw [v4, v5] at ho; exact ho)
  unfold add; dsimp only; split
  · rename_i hc
    exact ans_doConnect (by rw [s2]; exact hc.2.2) (fun _ => hnp) (by omega) (fun e => hnew e) (fun e => c2 e)
  · split
    · refine key _ (fun x => ?_) rfl rfl rfl rfl
      rw [mem_pending, mem_pending]
      constructor
      · rintro (⟨t, ht, err, rfl⟩ | hch)
        · rcases List.mem_append.1 ht with ht | ht
          · exact .inl (.inl ⟨_, ht, _, rfl⟩)
          · simp at ht; exact .inr ht.1
        · exact .inl (.inr hch)
      · rintro ((⟨t, ht, err, rfl⟩ | hch) | rfl)
        · exact .inl ⟨_, List.mem_append_left _ ht, _, rfl⟩
        · exact .inr hch
        · exact .inl ⟨_, List.mem_append_right _ (List.mem_singleton.2 rfl), _, rfl⟩
    · refine key _ (fun x => ?_) rfl rfl rfl rfl
      rw [mem_pending, mem_pending]
      constructor
      · rintro (ht | ⟨ch, hch, e1, e2⟩)
        · exact .inl (.inl ht)
        · rcases List.mem_append.1 hch with hch | hch
          · exact .inl (.inr ⟨_, hch, e1, e2⟩)
          · simp at hch; subst hch; exact .inr e1.symm
      · rintro ((ht | ⟨ch, hch, e1, e2⟩) | rfl)
        · exact .inl ht
        · exact .inr ⟨_, List.mem_append_left _ hch, e1, e2⟩
        · exact .inr ⟨_, List.mem_append_right _ (List.mem_singleton.2 rfl), rfl, by simp⟩

theorem ans_newNs {r : Nat} {w : W} (h : AnsOk r w) (s : Ns) : AnsOk r (newNs w s) := ⟨h.wait, h.one, h.told⟩

theorem ans_connect {cfg : Cfg} {r : Nat} {w : W} (h : AnsOk r w) (hr : Refs w) (c : Nat) (name : String)
    (auth : Option (Session.Pid × String)) : AnsOk r (connect cfg w c name auth) := by
  unfold connect; split
  · exact ans_add h hr _ _ _
  · split
    · exact ans_add (ans_newNs h _) ⟨hr.tasks, hr.chains⟩ _ _ _
    · unfold clientPacket; split
      · exact h.frame Iff.rfl rfl _ rfl (by simp [answers, packetsTo, packetOf]) fun _ ho => ho
      · exact h

theorem ans_next {rec x : Bool} {used : List (Nat × Nat)} {r : Nat} {w : W} (h : AnsOk r w) (ht : InvR rec r x used w) (k i : Nat) (err : Option Err)
    (hu : chainOf w r k = true → (k, i) ∉ used) : AnsOk r (next w k i err) := by
  have fr : ∀ v : W, v.nSock = w.nSock → v.log = w.log → v.clients = w.clients → v.socks = w.socks → (r ∈ pending v ↔ r ∈ pending w) → AnsOk r v :=
    fun v v1 v2 v3 v4 v5 => h.frame v5 v1 [] (by simp [v2]) rfl fun _ ho => by rw [v3, v4] at ho; exact ho
  unfold next; split
  · exact h
  · rename_i ch hk
    by_cases hcr : ch.ref = r
    case neg =>
      have hset (x y : Chain) (hx : x.ref = ch.ref) (hy : y ∈ w.chains.set k x) (e : y.ref = r) : y ∈ w.chains :=
        (List.mem_or_eq_of_mem_set hy).resolve_right fun e' => hcr (by rw [← hx, ← e', e])
      have hkeep (x y : Chain) (hy : y ∈ w.chains) (e : y.ref = r) : y ∈ w.chains.set k x := by
        obtain ⟨j, hj⟩ := List.getElem?_of_mem hy
        refine List.mem_of_getElem? (i := j) ?_
        rw [List.getElem?_set, if_neg]
        · exact hj
        · intro e'; subst e'; rw [hk] at hj; injection hj with hj; exact hcr (by rw [hj, e])
      split
      · dsimp only; split
        · refine fr _ rfl rfl rfl rfl ?_
          rw [mem_pending, mem_pending]
          constructor
          · rintro (⟨t, ht, err', rfl⟩ | ⟨y, hy, e1, e2⟩)
            · rcases List.mem_append.1 ht with ht | ht
              · exact .inl ⟨_, ht, _, rfl⟩
              · simp at ht; exact absurd ht.1.symm hcr
            · exact .inr ⟨y, hset { ch with used := i :: ch.used } y rfl hy e1, e1, e2⟩
          · rintro (⟨t, ht, err', rfl⟩ | ⟨y, hy, e1, e2⟩)
            · exact .inl ⟨_, List.mem_append_left _ ht, _, rfl⟩
            · exact .inr ⟨y, hkeep _ y hy e1, e1, e2⟩
        · refine fr _ rfl rfl rfl rfl ?_
          rw [mem_pending, mem_pending]
          constructor
          · rintro (ht | ⟨y, hy, e1, e2⟩)
            · exact .inl ht
            · exact .inr ⟨y, hset { ch with used := i :: ch.used, reached := max ch.reached (i + 1) } y rfl hy e1, e1, e2⟩
          · rintro (ht | ⟨y, hy, e1, e2⟩)
            · exact .inl ht
            · exact .inr ⟨y, hkeep _ y hy e1, e1, e2⟩
      · exact h
    obtain ⟨c1, c2, c3⟩ := ht.chain k ch hk hcr
    have hu : (k, i) ∉ used := hu (by simp [chainOf, hk, hcr])
    split
    · rename_i hi
      have hiu : i ∉ ch.used := fun hm => hu ((c3 i hm).2)
      have hir : i = ch.reached := by
        rcases Nat.lt_or_eq_of_le hi with hl | he
        · exact absurd (c2 i hl) hiu
        · exact he
      subst hir
      have hkl : k < w.chains.length := (List.getElem?_eq_some_iff.1 hk).1
      have hset (x y : Chain) : y ∈ w.chains.set k x → y = x ∨ y ∈ w.chains := fun h => (List.mem_or_eq_of_mem_set h).symm
      have hkeep (x y : Chain) (hy : y ∈ w.chains) : y = ch ∨ y ∈ w.chains.set k x := by
        obtain ⟨j, hj⟩ := List.getElem?_of_mem hy
        by_cases e : j = k
        · subst e; rw [hk] at hj; injection hj with hj; exact .inl hj.symm
        · refine .inr (List.mem_of_getElem? (i := j) ?_)
          rw [List.getElem?_set, if_neg (Ne.symm e)]; exact hj
      have hin (x : Chain) : x ∈ w.chains.set k x := List.mem_set hkl x
      have hch : ch ∈ w.chains := List.mem_of_getElem? hk
      dsimp only; split
      · refine fr _ rfl rfl rfl rfl ?_
        rw [mem_pending, mem_pending]
        constructor
        · rintro (⟨t, ht, err', rfl⟩ | ⟨y, hy, e1, e2⟩)
          · rcases List.mem_append.1 ht with ht | ht
            · exact .inl ⟨_, ht, _, rfl⟩
            · simp at ht; exact .inr ⟨ch, hch, ht.1.symm, hiu⟩
          · rcases hset _ _ hy with rfl | hy
            · simp at e2
            · exact .inr ⟨y, hy, e1, e2⟩
        · rintro (⟨t, ht, err', rfl⟩ | ⟨y, hy, e1, e2⟩)
          · exact .inl ⟨_, List.mem_append_left _ ht, _, rfl⟩
          · rcases hkeep { ch with used := ch.reached :: ch.used } y hy with rfl | hy
            · exact .inl ⟨_, List.mem_append_right _ (List.mem_singleton.2 rfl), err, by rw [e1]⟩
            · exact .inr ⟨y, hy, e1, e2⟩
      · rename_i hne
        have hmax : max ch.reached (ch.reached + 1) = ch.reached + 1 := by omega
        have hnot : ch.reached + 1 ∉ ch.used := fun hm => absurd (c3 _ hm).1 (by omega)
        refine fr _ rfl rfl rfl rfl ?_
        rw [mem_pending, mem_pending]
        constructor
        · rintro (ht | ⟨y, hy, e1, e2⟩)
          · exact .inl ht
          · rcases hset _ _ hy with rfl | hy
            · exact .inr ⟨ch, hch, e1, hiu⟩
            · exact .inr ⟨y, hy, e1, e2⟩
        · rintro (ht | ⟨y, hy, e1, e2⟩)
          · exact .inl ht
          · rcases hkeep { ch with used := ch.reached :: ch.used, reached := max ch.reached (ch.reached + 1) } y hy with rfl | hy
            · exact .inr ⟨_, hin _, e1, by simp [hmax, hnot]⟩
            · exact .inr ⟨y, hy, e1, e2⟩
    · exact h

theorem ans_task {cfg : Cfg} {x : Bool} {used : List (Nat × Nat)} {r : Nat} {w : W} (h : AnsOk r w) (ht : InvR cfg.recovery.isSome r x used w) (hr : Refs w) (k : Nat)
    (t : Task) (hk : w.tasks[k]? = some t) : AnsOk r (runTask cfg { w with tasks := w.tasks.eraseIdx k } t) := by
  have hkl : k < w.tasks.length := (List.getElem?_eq_some_iff.1 hk).1
  have hold : w.tasks = w.tasks.take k ++ t :: w.tasks.drop (k + 1) := by
    conv => lhs; rw [← List.take_append_drop k w.tasks]
    rw [List.drop_eq_getElem_cons hkl, (List.getElem?_eq_some_iff.1 hk).2]
  have her : w.tasks.eraseIdx k = w.tasks.take k ++ w.tasks.drop (k + 1) := List.eraseIdx_eq_take_drop_succ _ _
  cases t with
  | result ref err =>
    have hp : (pending w).Perm (ref :: pending { w with tasks := w.tasks.eraseIdx k }) := by
      unfold pending
      simp only [her]
      conv => lhs; rw [hold]
      simp only [List.filterMap_append, List.filterMap_cons, Task.pending, List.append_assoc, List.cons_append]
      exact List.perm_middle
    have hnd (e : r = ref) : ref ∉ pending { w with tasks := w.tasks.eraseIdx k } := fun hm => by
      have h1 := ht.once
      rw [hp.count_eq, e, List.count_cons_self] at h1
      exact absurd (List.count_pos_iff.2 hm) (by omega)
    have hmem : ref ∈ pending w := hp.mem_iff.2 List.mem_cons_self
    have hlt : ref < w.nSock := pending_lt hr ref hmem
    have h1 : r ≠ ref → AnsOk r { w with tasks := w.tasks.eraseIdx k } := fun e =>
      h.frame (by rw [hp.mem_iff, List.mem_cons]; simp [e]) rfl [] (by simp) rfl fun _ ho => ho
    have hw : r = ref → answers r w.log = [] := fun e => h.wait (.inl (by rw [e]; exact hmem))
    simp only [runTask, result]
    obtain ⟨d1, d2, d3, -, d5, -, d7, d8, -, d10, -⟩ := cleanup_fields cfg { w with tasks := w.tasks.eraseIdx k } ref
    have hpc : pending (cleanup cfg { w with tasks := w.tasks.eraseIdx k } ref) = pending { w with tasks := w.tasks.eraseIdx k } := by
      unfold pending; rw [d7, d8]
    have hcl (m : Nat) : ((cleanup cfg { w with tasks := w.tasks.eraseIdx k } ref).socks m).client = (w.socks m).client := by
      rw [d2]; exact upd_proj _ _ _ _ Sock.client rfl
    have hcc : r ≠ ref → AnsOk r (cleanup cfg { w with tasks := w.tasks.eraseIdx k } ref) := fun e =>
      (h1 e).frame (by rw [hpc]) d5 [] (by simp [d10]) rfl fun _ ho => by rw [hcl, d3] at ho; exact ho
    split
    · rename_i hcn
      by_cases e : r = ref
      · subst e
        refine ⟨fun _ => by rw [d10]; exact hw rfl, by rw [d10]; show (answers r w.log).length ≤ 1; rw [hw rfl]; simp, fun _ _ ho => ?_⟩
        rw [hcl, d3] at ho; exact absurd ho hcn
      · exact hcc e
    · rename_i hcn
      have hcn : (w.clients (w.socks ref).client).conn = .opened := by simpa using hcn
      split
      · rename_i x
        unfold sockPacket clientPacket
        rw [hcl, d3, if_pos hcn]
        by_cases e : r = ref
        · subst e
          have el (p : Pkt) (hp : p.type = .connectError) : answers r (obs (cleanup cfg { w with tasks := w.tasks.eraseIdx k } r) (.packet (w.socks r).client (some r) p)).log = [p] := by
            show answers r (_ ++ [_]) = _
            rw [d10, answers_append, answers_self (.inr hp)]
            show answers r w.log ++ _ = _
            rw [hw rfl]; rfl
          refine ⟨?_, by rw [el _ rfl]; simp, fun _ _ _ => by rw [el _ rfl]; simp⟩
          rintro (hm | hge)
          · have : r ∈ pending (cleanup cfg { w with tasks := w.tasks.eraseIdx k } r) := hm
            rw [hpc] at this; exact absurd this (hnd rfl)
          · have hge : (cleanup cfg { w with tasks := w.tasks.eraseIdx k } r).nSock ≤ r := hge
            rw [d5] at hge
            exact absurd hlt (Nat.not_lt.2 hge)
        · exact (hcc e).frame Iff.rfl rfl _ rfl (answers_other _ _ (Ne.symm e)) fun _ ho => ho
      · exact ans_doConnect hcn hnd hlt (fun e => hw e) h1
  | packet ref type =>
    have hp : pending { w with tasks := w.tasks.eraseIdx k } = pending w := by
      unfold pending
      simp only [her]
      conv => rhs; rw [hold]
      simp only [List.filterMap_append, List.filterMap_cons, Task.pending]
    have h1 : AnsOk r { w with tasks := w.tasks.eraseIdx k } := h.frame (by rw [hp]) rfl [] (by simp) rfl fun _ ho => ho
    simp only [runTask, onpacket]; split
    · exact ans_speaks h1 (fun c h => by rw [onclose_down] at h; exact h) (speaks_onclose _ _ _ _)
    · exact h1.frame Iff.rfl rfl _ rfl (by simp [answers, packetsTo, packetOf]) fun _ ho => ho

theorem ans_step {cfg : Cfg} {x : Bool} {used : List (Nat × Nat)} {r : Nat} {w : W} (h : AnsOk r w) (hs : InvS w)
    (ht : InvR cfg.recovery.isSome r x used w) (hr : Refs w) (e : Ev) (hu : ∀ y, nextCall e = some y → chainOf w r y.1 = true → y ∉ used) : AnsOk r (step cfg w e) := by
  by_cases he : e.calm = true
  · have hd : Down w (step cfg w e) := (ends_step (S := fun _ => True) (r := r) trivial hs cfg e (fun _ => trivial) he).2.1
    by_cases hem : ∃ ref args flags, e = .emit ref args flags
    · obtain ⟨ref, args, flags, rfl⟩ := hem
      simp only [step] at hd ⊢
      split
      · rename_i hlt
        rw [if_pos hlt] at hd
        unfold emit at hd ⊢; split
        · rename_i hcfg
          simp only [hcfg] at hd
          exact ans_speaks h hd (speaks_broadcast hs _ _ _ _ rfl)
        · rw [sockPacket_eq]
          refine h.frame Iff.rfl rfl _ rfl ?_ fun _ ho => ho
          refine answers_none fun p hp => ?_
          rcases packetsTo_sent w { type := .event, data := .args args } ref r with e | ⟨-, q, hq, e⟩
          · rw [e] at hp; simp at hp
          · rw [e] at hp; simp at hp; subst hp; rw [hq]; exact ⟨by simp, by simp⟩
      · exact h
    · exact ans_speaks h hd (speaks_step hs cfg e he fun ref args flags hh => hem ⟨_, _, _, hh⟩)
  · cases e <;> simp only [Ev.calm, not_true_eq_false] at he <;> simp only [step]
    case accept p =>
      have h1 : AnsOk r { w with
          clients := upd w.clients w.nClient { proto3 := p, conn := .opened, timer := true, listening := true }
          nClient := w.nClient + 1 } := by
        refine h.frame Iff.rfl rfl [] (by simp) rfl fun hlt ho => ?_
        have := (hs.sock r hlt).2
        dsimp only at ho
        rw [upd_ne _ _ (by omega)] at ho
        exact ho
      unfold accept; dsimp only; split
      · exact ans_connect h1 ⟨hr.tasks, hr.chains⟩ _ _ _
      · exact h1
    case recv c type name auth =>
      split
      · unfold ondecoded; split
        · split
          · exact ans_connect h hr _ _ _
          · exact ans_clientClose h _ _
        · split
          · refine h.frame ?_ rfl [] (by simp) rfl fun _ ho => ho
            rw [mem_pending, mem_pending]; simp [Undecided]
          · exact ans_clientClose h _ _
      · exact h
    case task k =>
      split
      · rename_i t hk; exact ans_task h ht hr k t hk
      · exact h
    case next k i err => exact ans_next h ht k i err (hu _ rfl)
    case «of» name =>
      split
      · exact h
      · exact ans_newNs h _
    case use n =>
      split
      · exact ⟨h.wait, h.one, h.told⟩
      · exact h
    case setData ref v =>
      split
      · refine h.frame Iff.rfl rfl [] (by simp [setSock]) rfl fun _ ho => ?_
        rw [show ((setSock w ref fun s => { s with data := some v }).socks r).client = (w.socks r).client from
          upd_proj _ _ _ _ Sock.client rfl] at ho
        exact ho
      · exact h
    case clock t => exact ⟨h.wait, h.one, h.told⟩

theorem ans_run (cfg : Cfg) (h : List Ev) (r : Nat) (hn : NextOnceFor cfg h r) : AnsOk r (run cfg h) := by
  induction h using snocRec with
  | nil => exact ⟨fun _ => rfl, Nat.zero_le _, fun h => absurd h (Nat.not_lt_zero _)⟩
  | append_singleton h e ih =>
    obtain ⟨h1, h2⟩ := nextOnceFor_snoc hn
    rw [run_snoc]
    exact ans_step (ih h1) (inv_run cfg h).1 (invR_run cfg h r h1) (inv_run cfg h).2 e h2

end Verif.World
