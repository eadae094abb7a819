import Verif.Proof.WorldFirst
import Verif.Proof.WorldOnce

/-! # The server: a socket that shows has had its event "connection", however often `next` is called -/

namespace Verif.World
open Verif Verif.Adapter Verif.Spec

/-- A connected socket, and one to which a CONNECT packet was sent, has had its event. -/
def Shown (w : W) : Prop :=
  ∀ r, ((w.socks r).connected = true → Obs.connection r ∈ w.log) ∧ ∀ p ∈ packetsTo r w.log, p.type = .connect → Obs.connection r ∈ w.log

theorem Shown.ext {w w' : W} (h : Shown w) (ext : List Obs) (hl : w'.log = w.log ++ ext)
    (hc : ∀ r, (w'.socks r).connected = true → (w.socks r).connected = true ∨ Obs.connection r ∈ ext)
    (hp : ∀ r, ∀ p ∈ packetsTo r ext, p.type = .connect → Obs.connection r ∈ ext) : Shown w' := by
  intro r
  refine ⟨fun hr => ?_, fun p hm ht => ?_⟩
  · rw [hl]
    rcases hc r hr with hr | hr
    · exact List.mem_append_left _ ((h r).1 hr)
    · exact List.mem_append_right _ hr
  · rw [hl, packetsTo_append] at hm
    rw [hl]
    rcases List.mem_append.1 hm with hm | hm
    · exact List.mem_append_left _ ((h r).2 p hm ht)
    · exact List.mem_append_right _ (hp r p hm ht)

theorem Shown.fields {w w' : W} (h : Shown w) (hs : w'.socks = w.socks) (hl : w'.log = w.log) : Shown w' :=
  h.ext [] (by simp [hl]) (fun r hr => .inl (by rw [← hs]; exact hr)) (fun r p hm => by simp [packetsTo] at hm)

theorem Shown.speaks {w w' : W} (h : Shown w) (sp : Speaks w w') : Shown w' := by
  obtain ⟨cm, ext, hl, hp⟩ := sp
  refine h.ext ext hl (fun r hr => .inl (cm.connected hr)) fun r p hm ht => ?_
  rcases (packetsTo_polite hp r).1 p hm with e | e <;> rw [e] at ht <;> cases ht

theorem shown_create {w : W} (h : Shown w) (cfg : Cfg) (n c : Nat) (auth : Option (Session.Pid × String)) :
    Shown (createSocket cfg w n c auth) := by
  obtain ⟨ext, e1, e2, -, e4⟩ := create_packets cfg w n c auth
  obtain ⟨-, -, s3, -, -⟩ := createSocket_self cfg w n c auth
  refine h.ext ext e1 (fun r hr => .inl ?_) fun r p hm ht => ?_
  · by_cases e : r = w.nSock
    · subst e; rw [s3] at hr; cases hr
    · rw [e4 r e] at hr; exact hr
  · obtain ⟨o, ho, e⟩ := List.mem_filterMap.1 hm
    obtain ⟨q, rfl, hq⟩ := e2 o ho
    simp only [packetOf] at e
    split at e
    · simp only [Option.some.injEq] at e; subst e; rw [hq] at ht; cases ht
    · cases e

theorem shown_doConnect {w : W} (h : Shown w) {ref : Nat} (ho : (w.clients (w.socks ref).client).conn = .opened) :
    Shown (doConnect w ref) := by
  obtain ⟨-, d2, -, -, -, -, -, -, -, -, d11⟩ := doConnect_fields w ref
  refine h.ext _ (d11 ho) (fun r hr => ?_) fun r p hm ht => ?_
  · by_cases e : r = ref
    · subst e; exact .inr (by simp)
    · rw [d2, upd_ne _ _ e] at hr; exact .inl hr
  · by_cases e : ref = r
    · subst e; simp
    · simp [packetsTo, packetOf, e] at hm

theorem shown_cleanup {w : W} (h : Shown w) (cfg : Cfg) (ref : Nat) (p : Pkt) (hp : p.type = .connectError) :
    Shown (cleanup cfg w ref) ∧ Shown (sockPacket (cleanup cfg w ref) ref p) := by
  obtain ⟨-, d2, -, -, -, -, -, -, -, d10, -⟩ := cleanup_fields cfg w ref
  have h1 : Shown (cleanup cfg w ref) := by
    refine h.ext [] (by simp [d10]) (fun r hr => .inl ?_) fun r p hm => by simp [packetsTo] at hm
    rw [d2, upd_apply] at hr
    split at hr
    · rename_i e; subst e; exact hr
    · exact hr
  refine ⟨h1, ?_⟩
  rw [sockPacket_eq]
  refine h1.ext _ rfl (fun r hr => .inl hr) fun r q hm ht => ?_
  rcases packetsTo_sent (cleanup cfg w ref) p ref r with e | ⟨-, x, hx, e⟩
  · rw [e] at hm; cases hm
  · rw [e, List.mem_singleton] at hm; subst hm; rw [hx, hp] at ht; cases ht

theorem shown_add {cfg : Cfg} {w : W} (h : Shown w) (n c : Nat) (auth : Option (Session.Pid × String)) : Shown (add cfg w n c auth) := by
  have h1 := shown_create h cfg n c auth
  obtain ⟨-, s2, -, -, -⟩ := createSocket_self cfg w n c auth
  unfold add; dsimp only; split
  · rename_i hsk
    exact shown_doConnect h1 (by rw [s2]; exact hsk.2.2)
  · split
    · exact h1.fields rfl rfl
    · exact h1.fields rfl rfl

theorem shown_connect {cfg : Cfg} {w : W} (h : Shown w) (c : Nat) (name : String) (auth : Option (Session.Pid × String)) :
    Shown (connect cfg w c name auth) := by
  unfold connect; split
  · exact shown_add h _ _ _
  · split
    · exact shown_add (w := newNs w { name := name, fns := cfg.childFns, auto := cfg.autoClean }) (h.fields rfl rfl) _ _ _
    · unfold clientPacket; split
      · exact h.ext _ rfl (fun r hr => .inl hr) fun r p hm => by simp [packetsTo, packetOf] at hm
      · exact h

theorem shown_step {cfg : Cfg} {w : W} (h : Shown w) (hs : InvS w) (e : Ev) : Shown (step cfg w e) := by
  have hclose (c : Nat) : Shown (clientClose cfg w c) := h.speaks ((quiet_speaks cfg).clientClose (reasons_true cfg) w c)
  by_cases he : e.calm = true
  · by_cases hee : ∃ ref args flags, e = .emit ref args flags
    · obtain ⟨ref, args, flags, rfl⟩ := hee
      simp only [step]; split
      · unfold emit; split
        · exact h.speaks (speaks_broadcast hs _ _ _ _ rfl)
        · rw [sockPacket_eq]
          refine h.ext _ rfl (fun r hr => .inl hr) fun r q hm ht => ?_
          rcases packetsTo_sent w { type := .event, data := .args args } ref r with e | ⟨-, x, hx, e⟩
          · rw [e] at hm; cases hm
          · rw [e, List.mem_singleton] at hm; subst hm; rw [hx] at ht; cases ht
      · exact h
    · exact h.speaks (speaks_step hs cfg e he fun ref args flags heq => hee ⟨ref, args, flags, heq⟩)
  · cases e <;> simp only [Ev.calm, not_true_eq_false] at he <;> simp only [step]
    case accept p =>
      have h0 : Shown { w with
          clients := upd w.clients w.nClient { proto3 := p, conn := .opened, timer := true, listening := true }
          nClient := w.nClient + 1 } := h.fields rfl rfl
      unfold accept; dsimp only; split
      · exact shown_connect h0 _ _ _
      · exact h0
    case recv c type name auth =>
      split
      · unfold ondecoded; split
        · split
          · exact shown_connect h _ _ _
          · exact hclose c
        · split
          · exact h.fields rfl rfl
          · exact hclose c
      · exact h
    case task k =>
      split
      · rename_i t hk
        have h0 : Shown { w with tasks := w.tasks.eraseIdx k } := h.fields rfl rfl
        cases t with
        | result ref err =>
          have hcl := fun p hp => shown_cleanup h0 cfg ref p hp
          simp only [runTask, result]; split
          · exact (hcl { type := .connectError } rfl).1
          · rename_i ho
            split
            · exact (hcl _ rfl).2
            · exact shown_doConnect h0 (by simpa using ho)
        | packet ref type =>
          simp only [runTask, onpacket]; split
          · exact h0.speaks (speaks_onclose cfg _ ref _)
          · exact h0.ext [.received ref type] rfl (fun r hr => .inl hr) fun r p hm => by simp [packetsTo, packetOf] at hm
      · exact h
    case next k i err =>
      unfold next; split
      · exact h
      · split
        · dsimp only; split <;> exact h.fields rfl rfl
        · exact h
    case «of» name =>
      split
      · exact h
      · exact h.fields rfl rfl
    case use n =>
      split
      · exact h.fields rfl rfl
      · exact h
    case setData ref v =>
      split
      · refine h.ext [] (by simp [setSock]) (fun r hr => .inl ?_) fun r p hm => by simp [packetsTo] at hm
        have : ((setSock w ref fun s => { s with data := some v }).socks r).connected = (w.socks r).connected :=
          upd_proj _ _ _ _ Sock.connected rfl
        rw [this] at hr; exact hr
      · exact h
    case clock => exact h.fields rfl rfl

theorem shown_run (cfg : Cfg) (h : List Ev) : Shown (run cfg h) := by
  induction h using snocRec with
  | nil => exact fun r => ⟨fun h => by simp [run, init, newNs] at h, fun p hp => by simp [run, init, newNs, packetsTo] at hp⟩
  | append_singleton h e ih => rw [run_snoc]; exact shown_step ih (inv_run cfg h).1 e

/-! ## What was observed stays observed -/

def Ext (w w' : W) : Prop := ∃ ext, w'.log = w.log ++ ext

theorem Ext.refl (w : W) : Ext w w := ⟨[], by simp⟩
theorem Ext.of {w w' : W} (h : w'.log = w.log) : Ext w w' := ⟨[], by simp [h]⟩
theorem Ext.trans {a b c : W} (h1 : Ext a b) (h2 : Ext b c) : Ext a c := by
  obtain ⟨x, e1⟩ := h1; obtain ⟨y, e2⟩ := h2; exact ⟨x ++ y, by rw [e2, e1, List.append_assoc]⟩

theorem ext_packet (w : W) (ref : Nat) (p : Pkt) : Ext w (sockPacket w ref p) := by rw [sockPacket_eq]; exact ⟨_, rfl⟩

theorem ext_add (cfg : Cfg) (w : W) (n c : Nat) (auth : Option (Session.Pid × String)) : Ext w (add cfg w n c auth) := by
  obtain ⟨ext, e1, -, -, -⟩ := create_packets cfg w n c auth
  obtain ⟨-, s2, -, -, -⟩ := createSocket_self cfg w n c auth
  have h1 : Ext w (createSocket cfg w n c auth) := ⟨ext, e1⟩
  unfold add; dsimp only; split
  · rename_i hsk
    obtain ⟨-, -, -, -, -, -, -, -, -, -, d11⟩ := doConnect_fields (createSocket cfg w n c auth) w.nSock
    exact h1.trans ⟨_, d11 (by rw [s2]; exact hsk.2.2)⟩
  · split
    · exact h1.trans (.of rfl)
    · exact h1.trans (.of rfl)

theorem ext_connect (cfg : Cfg) (w : W) (c : Nat) (name : String) (auth : Option (Session.Pid × String)) :
    Ext w (connect cfg w c name auth) := by
  unfold connect; split
  · exact ext_add cfg w _ _ _
  · split
    · exact Ext.trans (.of rfl) (ext_add cfg (newNs w { name := name, fns := cfg.childFns, auto := cfg.autoClean }) _ _ _)
    · unfold clientPacket; split
      · exact ⟨_, rfl⟩
      · exact .refl w

theorem ext_step (cfg : Cfg) (w : W) (e : Ev) : Ext w (step cfg w e) := by
  have hclose (c : Nat) : Ext w (clientClose cfg w c) := by
    obtain ⟨-, ext, hl, -⟩ := (quiet_speaks cfg).clientClose (reasons_true cfg) w c; exact ⟨ext, hl⟩
  by_cases he : e.calm = true
  · obtain ⟨ext, hl, -⟩ := traced_step cfg w e he; exact ⟨ext, hl⟩
  · cases e <;> simp only [Ev.calm, not_true_eq_false] at he <;> simp only [step]
    case accept p =>
      unfold accept; dsimp only; split
      · exact Ext.trans (.of rfl) (ext_connect cfg _ _ _ _)
      · exact .of rfl
    case recv c type name auth =>
      split
      · unfold ondecoded; split
        · split
          · exact ext_connect _ _ _ _ _
          · exact hclose c
        · split
          · exact .of rfl
          · exact hclose c
      · exact .refl w
    case task k =>
      split
      · rename_i t hk
        have h0 : Ext w { w with tasks := w.tasks.eraseIdx k } := .of rfl
        cases t with
        | result ref err =>
          obtain ⟨-, -, -, -, -, -, -, -, -, d10, -⟩ := cleanup_fields cfg { w with tasks := w.tasks.eraseIdx k } ref
          have hcl := h0.trans (.of d10)
          simp only [runTask, result]; split
          · exact hcl
          · rename_i ho
            split
            · exact hcl.trans (ext_packet _ _ _)
            · obtain ⟨-, -, -, -, -, -, -, -, -, -, d11⟩ := doConnect_fields { w with tasks := w.tasks.eraseIdx k } ref
              exact ⟨_, d11 (by simpa using ho)⟩
        | packet ref type =>
          simp only [runTask, onpacket]; split
          · obtain ⟨-, ext, hl, -⟩ := speaks_onclose cfg { w with tasks := w.tasks.eraseIdx k } ref "client namespace disconnect"
            exact ⟨ext, hl⟩
          · exact ⟨[.received ref type], rfl⟩
      · exact .refl w
    case next k i err =>
      unfold next; split
      · exact .refl w
      · split
        · dsimp only; split <;> exact .of rfl
        · exact .refl w
    case «of» name => split; exact .refl w; exact .of rfl
    case use n => split; exact .of rfl; exact .refl w
    case setData ref v => split; exact .of rfl; exact .refl w
    case clock => exact .of rfl

theorem ext_run (cfg : Cfg) (h t : List Ev) : Ext (run cfg h) (run cfg (h ++ t)) := by
  induction t using snocRec with
  | nil => simpa using Ext.refl _
  | append_singleton t e ih => rw [← List.append_assoc, run_snoc]; exact ih.trans (ext_step _ _ _)

/-! ## One socket whose own `next` functions are called once each -/

/-- As `Grow`, for an invariant about socket `r`. -/
structure GrowR (cfg : Cfg) (r : Nat) (P : W → Prop) : Prop where
  inert : ∀ w t ch now, P w → P { w with tasks := t, chains := ch, now := now }
  use : ∀ w n, P w → P (setNs w n fun k => { k with fns := k.fns + 1 })
  data : ∀ w ref v, P w → P (setSock w ref fun s => { s with data := some v })
  newNs : ∀ w s, s.ad = {} → s.sockets = [] → s.sess = {} → w.nsps.get? s.name = none → InvS w → P w → P (newNs w s)
  newClient : ∀ w p, InvS w → P w → P { w with
    clients := upd w.clients w.nClient { proto3 := p, conn := .opened, timer := true, listening := true }
    nClient := w.nClient + 1 }
  create : ∀ w n c auth, n < w.nNs → c < w.nClient → InvS w → P w → P (createSocket cfg w n c auth)
  doConnect : ∀ w ref, ref < w.nSock → (w.clients (w.socks ref).client).conn = .opened →
    (ref = r → (w.socks r).connected = false ∧ (w.socks r).canJoin = true) → InvS w → P w → P (doConnect w ref)
  cleanup : ∀ w ref, ref < w.nSock → (ref = r → (w.socks r).connected = false ∧ (w.socks r).canJoin = true) → InvS w → P w →
    P (cleanup cfg w ref)
  packet : ∀ w c ref x, x.type = .connectError → InvS w → P w → P (clientPacket w c ref x)
  received : ∀ w ref type, P w → P (obs w (.received ref type))

theorem GrowR.step {cfg : Cfg} {r : Nat} {P : W → Prop} (g : GrowR cfg r P) {x : Bool} {used : List (Nat × Nat)} {w : W} (hs : InvS w) (hr : Refs w)
    (ht : InvR cfg.recovery.isSome r x used w) (e : Ev) (he : ¬ e.calm = true)
    (hclose : ∀ c, P w → P (clientClose cfg w c))
    (honclose : ∀ v ref reason, (v.tasks.Sublist w.tasks ∧ .packet ref .disconnect ∈ w.tasks) ∧ reason = "client namespace disconnect" → { v with tasks := w.tasks } = w → P v → P (onclose cfg v ref reason))
    (hP : P w) : P (step cfg w e) := by
  have g' : Grow cfg (fun _ => True) P := ⟨g.inert, g.use, g.data, g.newNs, g.newClient, g.create,
    fun w ref a b c d s _ h => g.doConnect w ref a b (fun e => by subst e; exact ⟨c, d⟩) s h,
    fun w ref a c d s _ h => g.cleanup w ref a (fun e => by subst e; exact ⟨c, d⟩) s h, g.packet, g.received⟩
  refine g'.step_of hs (fun tasks ref err hm h1 => ?_) e he trivial hclose honclose hP
  have hm : ref ∈ pending w := by
    unfold pending
    exact List.mem_append_left _ (List.mem_filterMap.2 ⟨_, hm, rfl⟩)
  have hlt := pending_lt hr ref hm
  have hw (e : ref = r) : (w.socks r).connected = false ∧ (w.socks r).canJoin = true := ht.undecided (e ▸ hm)
  have s1 : InvS { w with tasks := tasks } := invS_tasks hs _
  have hcl := g.cleanup { w with tasks := tasks } ref hlt hw s1 h1
  unfold result; dsimp only; split
  · exact hcl
  · rename_i ho
    split
    · exact g.packet _ _ _ _ rfl (invS_cleanup s1 cfg ref) hcl
    · exact g.doConnect _ _ hlt (by simpa using ho) hw s1 h1

theorem nextOnce_for {h : List Ev} (hn : NextOnce h) (cfg : Cfg) (r : Nat) : NextOnceFor cfg h r := hn.sublist List.filter_sublist

/-- A socket for which "disconnect" has fired is over. -/
theorem over_for {cfg : Cfg} {h : List Ev} {r : Nat} {reason : String} (hn : NextOnceFor cfg h r)
    (hd : Obs.disconnect r reason ∈ (run cfg h).log) : Over r (run cfg h) := by
  have hi := invR_run cfg h r hn
  have hm : Life.disconnect reason ∈ life r (run cfg h).log := List.mem_filterMap.2 ⟨_, hd, by simp [lifeOf]⟩
  obtain ⟨h1, h2, -⟩ := hi.life
  have hc : ((run cfg h).socks r).connected = false := by
    cases hc : ((run cfg h).socks r).connected with
    | false => rfl
    | true => rw [(h1 hc).2] at hm; simp at hm
  have hj : ((run cfg h).socks r).canJoin = false := by
    cases hj : ((run cfg h).socks r).canJoin with
    | false => rfl
    | true => rw [h2 hc hj] at hm; simp at hm
  refine ⟨?_, hc, hj⟩
  rcases Nat.lt_or_ge r (run cfg h).nSock with hlt | hge
  · exact hlt
  · have := (hi.fresh hge).2; rw [hj] at this; simp at this

/-- Rejected, now or soon. -/
theorem doomed_for {cfg : Cfg} {h t : List Ev} {r : Nat} {err : Err} (hn : NextOnceFor cfg (h ++ t) r)
    (ho : Task.result r (some err) ∈ (run cfg h).tasks) :
    Task.result r (some err) ∈ (run cfg (h ++ t)).tasks ∨
      InvR cfg.recovery.isSome r true ((h ++ t).filterMap nextCall) (run cfg (h ++ t)) := by
  induction t using snocRec with
  | nil => simpa using Or.inl ho
  | append_singleton t e ih =>
    rw [← List.append_assoc] at hn ⊢
    have hn' := (nextOnceFor_snoc hn).1
    rcases ih hn' with h1 | h1
    · rw [run_snoc]
      rcases (tasks_step cfg (run cfg (h ++ t)) e).2 _ h1 with h2 | ⟨k, rfl, hk⟩
      · exact .inl h2
      · refine .inr ?_
        have := (invR_task (invR_run cfg _ r hn') (inv_run cfg _).2 k _ hk).2 err rfl
        simp only [step, hk, List.filterMap_append, List.filterMap_cons, nextCall, List.filterMap_nil, List.append_nil]
        simpa only [List.filterMap_append] using this
    · exact .inr (invR_snoc hn h1)

theorem doomed_notConnected {cfg : Cfg} {h t : List Ev} {r : Nat} {err : Err} (hn : NextOnceFor cfg (h ++ t) r)
    (ho : Task.result r (some err) ∈ (run cfg h).tasks) :
    Obs.connection r ∉ (run cfg (h ++ t)).log ∧ ((run cfg (h ++ t)).socks r).connected = false := by
  rcases doomed_for hn ho with h1 | h1
  · have hi := invR_run cfg _ r hn
    have hp : r ∈ pending (run cfg (h ++ t)) := List.mem_append_left _ (List.mem_filterMap.2 ⟨_, h1, rfl⟩)
    obtain ⟨u1, u2⟩ := hi.undecided hp
    exact ⟨by rw [mem_life, hi.life.2.1 u1 u2]; simp, u1⟩
  · obtain ⟨-, a, -, b⟩ := h1.rej rfl
    exact ⟨by rw [mem_life, b]; simp, a⟩

/-- A chain whose last middleware has called `next` does not move any more. -/
theorem chain_stays_for {cfg : Cfg} {h t : List Ev} {k : Nat} {ch : Chain} (hn : NextOnceFor cfg (h ++ t) ch.ref)
    (hk : (run cfg h).chains[k]? = some ch) (hu : ch.reached ∈ ch.used) : (run cfg (h ++ t)).chains[k]? = some ch := by
  induction t using snocRec with
  | nil => simpa using hk
  | append_singleton t e ih =>
    rw [← List.append_assoc] at hn ⊢
    obtain ⟨hn', hfresh⟩ := nextOnceFor_snoc hn
    have ih := ih hn'
    rw [run_snoc]
    have hlt : k < (run cfg (h ++ t)).chains.length := by
      rcases Nat.lt_or_ge k (run cfg (h ++ t)).chains.length with hl | hl
      · exact hl
      · rw [List.getElem?_eq_none hl] at ih; simp at ih
    by_cases hne : ∃ k' i err, e = .next k' i err
    · obtain ⟨k', i, err, rfl⟩ := hne
      have hi := invR_run cfg (h ++ t) ch.ref hn'
      simp only [step]
      by_cases hkk : k' = k
      · subst hkk
        unfold next; rw [ih]; dsimp only
        split
        · rename_i hle
          exfalso
          obtain ⟨-, c2, c3⟩ := hi.chain k' ch ih rfl
          have hiu : i ∈ ch.used := by
            rcases Nat.lt_or_eq_of_le hle with hl | rfl
            · exact c2 i hl
            · exact hu
          exact hfresh _ rfl (by simp [chainOf, ih]) (c3 i hiu).2
        · exact ih
      · unfold next; split
        · exact ih
        · split
          · dsimp only; split <;> (dsimp only; rw [List.getElem?_set_ne hkk]; exact ih)
          · exact ih
    · obtain ⟨l, e1⟩ := (tasks_step cfg (run cfg (h ++ t)) e).1 fun k' i err he => hne ⟨k', i, err, he⟩
      rw [e1, List.getElem?_append_left hlt]; exact ih

end Verif.World
