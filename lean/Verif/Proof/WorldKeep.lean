import Verif.Proof.WorldGate
import Verif.Proof.ClusterAck

/-! # The server: exact effects of closing, what never changes, routing of packets -/

namespace Verif.World
open Verif Verif.Adapter Verif.Spec

/-! ## The log of `_onclose` -/

/-- The state when the session is saved: the listeners of "disconnecting" have run. -/
def heard (cfg : Cfg) (w : W) (ref : Nat) (reason : String) : W :=
  (cfg.hook ref).foldl (act cfg) (obs w (.disconnecting ref reason))

theorem onclose_log (cfg : Cfg) {w : W} {ref : Nat} (reason : String) (hc : (w.socks ref).connected = true) :
    (onclose cfg w ref reason).log = w.log ++ [.disconnecting ref reason] ++
      (if cfg.recovery.isSome ∧ reason ∈ recoverable then [.saved ref (session (heard cfg w ref reason) ref)] else []) ++
      [.disconnect ref reason] := by
  rw [onclose_pos cfg reason hc]
  obtain ⟨-, -, -, -, -, -, -, -, -, f10, -⟩ := shut_fields cfg (closing cfg w ref reason) ref
  simp only [obs, f10]
  congr 1
  have hl : (heard cfg w ref reason).log = w.log ++ [.disconnecting ref reason] :=
    (acts_socks cfg (cfg.hook ref) (obs w (.disconnecting ref reason))).2.2.1
  show (persist cfg (heard cfg w ref reason) ref reason).log = _
  unfold persist; split
  · rename_i h; rw [← hl]; rfl
  · rename_i h; simpa using hl

/-! ## Packets received -/

/-- The number of packets of a type seen by a socket does not change. -/
def SameRecv (a b : W) : Prop := ∀ r t, b.log.count (.received r t) = a.log.count (.received r t)

theorem prim_sameRecv (cfg : Cfg) (Q : String → Prop) : Prim cfg Q SameRecv where
  refl w r t := rfl
  trans h1 h2 r t := (h2 r t).trans (h1 r t)
  packet w c ref p r t := by
    unfold clientPacket; split
    · simp [obs]
    · rfl
  ns w n f hf r t := rfl
  client w c f hf r t := rfl
  onclose w ref reason _ r t := by
    by_cases hc : (w.socks ref).connected = true
    · rw [onclose_log cfg reason hc]
      split <;> simp
    · rw [onclose_neg cfg reason hc]

/-! ## What never changes -/

/-- Sockets and namespaces keep their identity. -/
structure Kept (w w' : W) : Prop where
  nSock : w.nSock ≤ w'.nSock
  nNs : w.nNs ≤ w'.nNs
  ns : ∀ r, r < w.nSock → (w'.socks r).ns = (w.socks r).ns
  client : ∀ r, r < w.nSock → (w'.socks r).client = (w.socks r).client
  sid : ∀ r, r < w.nSock → (w'.socks r).sid = (w.socks r).sid
  pid : ∀ r, r < w.nSock → (w'.socks r).pid = (w.socks r).pid
  recovered : ∀ r, r < w.nSock → (w'.socks r).recovered = (w.socks r).recovered
  name : ∀ n, n < w.nNs → (w'.nss n).name = (w.nss n).name
  canJoin : ∀ r, r < w.nSock → (w'.socks r).canJoin = true → (w.socks r).canJoin = true

theorem Kept.refl (w : W) : Kept w w :=
  ⟨Nat.le_refl _, Nat.le_refl _, fun _ _ => rfl, fun _ _ => rfl, fun _ _ => rfl, fun _ _ => rfl, fun _ _ => rfl, fun _ _ => rfl, fun _ _ => id⟩

theorem Kept.trans {a b c : W} (h1 : Kept a b) (h2 : Kept b c) : Kept a c where
  nSock := Nat.le_trans h1.nSock h2.nSock
  nNs := Nat.le_trans h1.nNs h2.nNs
  ns r h := (h2.ns r (Nat.lt_of_lt_of_le h h1.nSock)).trans (h1.ns r h)
  client r h := (h2.client r (Nat.lt_of_lt_of_le h h1.nSock)).trans (h1.client r h)
  sid r h := (h2.sid r (Nat.lt_of_lt_of_le h h1.nSock)).trans (h1.sid r h)
  pid r h := (h2.pid r (Nat.lt_of_lt_of_le h h1.nSock)).trans (h1.pid r h)
  recovered r h := (h2.recovered r (Nat.lt_of_lt_of_le h h1.nSock)).trans (h1.recovered r h)
  name n h := (h2.name n (Nat.lt_of_lt_of_le h h1.nNs)).trans (h1.name n h)
  canJoin r h hj := h1.canJoin r h (h2.canJoin r (Nat.lt_of_lt_of_le h h1.nSock) hj)

theorem Kept.of {w w' : W} (h1 : w'.nSock = w.nSock) (h2 : w'.nNs = w.nNs)
    (h3 : ∀ r, r < w.nSock → (w'.socks r).ns = (w.socks r).ns ∧ (w'.socks r).client = (w.socks r).client ∧
      (w'.socks r).sid = (w.socks r).sid ∧ (w'.socks r).pid = (w.socks r).pid ∧ (w'.socks r).recovered = (w.socks r).recovered ∧
      ((w'.socks r).canJoin = true → (w.socks r).canJoin = true))
    (h4 : ∀ n, (w'.nss n).name = (w.nss n).name) : Kept w w' :=
  ⟨Nat.le_of_eq h1.symm, Nat.le_of_eq h2.symm, fun r h => (h3 r h).1, fun r h => (h3 r h).2.1, fun r h => (h3 r h).2.2.1,
    fun r h => (h3 r h).2.2.2.1, fun r h => (h3 r h).2.2.2.2.1, fun n _ => h4 n, fun r h => (h3 r h).2.2.2.2.2⟩

theorem Calm.kept {w w' : W} (c : Calm w w') : Kept w w' := by
  refine .of c.nSock c.nNs (fun r _ => ?_) c.name
  rcases c.socks r with e | ⟨-, e⟩
  · rw [e]; exact ⟨rfl, rfl, rfl, rfl, rfl, id⟩
  · rw [e]; exact ⟨rfl, rfl, rfl, rfl, rfl, by simp [closed]⟩

theorem kept_doConnect (w : W) (ref : Nat) : Kept w (doConnect w ref) := by
  obtain ⟨d1, d2, -, d4, d5, -⟩ := doConnect_fields w ref
  refine .of d5 d4 (fun r _ => ?_) fun n => ?_
  · rw [d2]
    exact ⟨upd_proj _ _ _ _ Sock.ns rfl, upd_proj _ _ _ _ Sock.client rfl, upd_proj _ _ _ _ Sock.sid rfl,
      upd_proj _ _ _ _ Sock.pid rfl, upd_proj _ _ _ _ Sock.recovered rfl,
      fun hj => by rw [upd_apply] at hj; split at hj <;> simp_all⟩
  · rw [d1]; exact upd_proj _ _ _ _ Ns.name rfl

theorem kept_cleanup (cfg : Cfg) (w : W) (ref : Nat) : Kept w (cleanup cfg w ref) := by
  obtain ⟨d1, d2, -, d4, d5, -⟩ := cleanup_fields cfg w ref
  refine .of d5 d4 (fun r _ => ?_) fun n => ?_
  · rw [d2]
    exact ⟨upd_proj _ _ _ _ Sock.ns rfl, upd_proj _ _ _ _ Sock.client rfl, upd_proj _ _ _ _ Sock.sid rfl,
      upd_proj _ _ _ _ Sock.pid rfl, upd_proj _ _ _ _ Sock.recovered rfl,
      fun hj => by rw [upd_apply] at hj; split at hj <;> simp_all⟩
  · rw [d1]; exact upd_proj _ _ _ _ Ns.name rfl

theorem kept_create (cfg : Cfg) (w : W) (n c : Nat) (auth : Option (Session.Pid × String)) :
    Kept w (createSocket cfg w n c auth) := by
  obtain ⟨s, hc, -⟩ := createSocket_alloc cfg w n c auth
  obtain ⟨-, -, -, -, e5⟩ := createSocket_self cfg w n c auth
  refine ⟨by rw [createSocket_nSock]; omega, Nat.le_of_eq hc.nNs.symm, ?_, ?_, ?_, ?_, ?_, fun n _ => hc.name n, ?_⟩ <;>
    · intro r hr; rw [e5 r hr]; try exact id

theorem kept_add (cfg : Cfg) (w : W) (n c : Nat) (auth : Option (Session.Pid × String)) : Kept w (add cfg w n c auth) := by
  have h := kept_create cfg w n c auth
  have inert : ∀ (v : W) (t : List Task) (ch : List Chain), Kept v { v with tasks := t, chains := ch } := fun v t ch =>
    .of rfl rfl (fun _ _ => ⟨rfl, rfl, rfl, rfl, rfl, id⟩) fun _ => rfl
  unfold add; dsimp only; split
  · exact h.trans (kept_doConnect _ _)
  · split
    · exact h.trans (inert _ _ _)
    · exact h.trans (inert _ _ _)

theorem kept_newNs (w : W) (s : Ns) : Kept w (newNs w s) :=
  ⟨Nat.le_refl _, Nat.le_succ _, fun _ _ => rfl, fun _ _ => rfl, fun _ _ => rfl, fun _ _ => rfl, fun _ _ => rfl,
    fun n hn => by simp only [newNs]; rw [upd_ne _ _ (Nat.ne_of_lt hn)], fun _ _ => id⟩

theorem kept_connect (cfg : Cfg) (w : W) (c : Nat) (name : String) (auth : Option (Session.Pid × String)) :
    Kept w (connect cfg w c name auth) := by
  unfold connect; split
  · exact kept_add _ _ _ _ _
  · split
    · exact (kept_newNs w _).trans (kept_add _ _ _ _ _)
    · exact (calm_clientPacket _ _ _ _).kept

theorem kept_step (cfg : Cfg) (w : W) (e : Ev) : Kept w (step cfg w e) := by
  have same : ∀ {w' : W}, w'.nSock = w.nSock → w'.nNs = w.nNs → w'.socks = w.socks → w'.nss = w.nss → Kept w w' :=
    fun h1 h2 h3 h4 => .of h1 h2 (fun _ _ => by rw [h3]; exact ⟨rfl, rfl, rfl, rfl, rfl, id⟩) fun _ => by rw [h4]
  by_cases he : e.calm = true
  · exact (calm_step cfg w e he).kept
  · cases e <;> simp only [Ev.calm, not_true_eq_false] at he <;> simp only [step]
    case accept p =>
      unfold accept; dsimp only; split
      · refine Kept.trans ?_ (kept_connect _ _ _ _ _)
        exact same rfl rfl rfl rfl
      · exact same rfl rfl rfl rfl
    case recv c type name auth =>
      split
      · unfold ondecoded; split
        · split
          · exact kept_connect _ _ _ _ _
          · exact (calm_clientClose _ _ _).kept
        · split
          · exact same rfl rfl rfl rfl
          · exact (calm_clientClose _ _ _).kept
      · exact .refl w
    case task k =>
      split
      · rename_i t hk
        refine Kept.trans (b := { w with tasks := w.tasks.eraseIdx k }) (same rfl rfl rfl rfl) ?_
        cases t with
        | result ref err =>
          simp only [runTask, result]; split
          · exact kept_cleanup _ _ _
          · split
            · exact (kept_cleanup _ _ _).trans (calm_sockPacket _ _ _).kept
            · exact kept_doConnect _ _
        | packet ref type =>
          simp only [runTask, onpacket]; split
          · exact (calm_onclose _ _ _ _).kept
          · exact (calm_obs _ _).kept
      · exact .refl w
    case next k i err =>
      unfold next; split
      · exact .refl w
      · split
        · dsimp only; split <;> exact same rfl rfl rfl rfl
        · exact .refl w
    case «of» name => split; exact .refl w; exact kept_newNs _ _
    case use n =>
      split
      · exact .of rfl rfl (fun _ _ => ⟨rfl, rfl, rfl, rfl, rfl, id⟩) fun _ => upd_proj _ _ _ _ Ns.name rfl
      · exact .refl w
    case setData ref v =>
      split
      · exact .of rfl rfl (fun r _ => ⟨upd_proj _ _ _ _ Sock.ns rfl, upd_proj _ _ _ _ Sock.client rfl, upd_proj _ _ _ _ Sock.sid rfl,
          upd_proj _ _ _ _ Sock.pid rfl, upd_proj _ _ _ _ Sock.recovered rfl,
          fun hj => by simp only [setSock, upd_apply] at hj; split at hj <;> simp_all⟩) fun _ => rfl
      · exact .refl w
    case clock t => exact same rfl rfl rfl rfl

theorem kept_run (cfg : Cfg) (h t : List Ev) : Kept (run cfg h) (run cfg (h ++ t)) := by
  induction t using snocRec with
  | nil => simpa using Kept.refl _
  | append_singleton t e ih =>
    rw [← List.append_assoc, run_snoc]
    exact ih.trans (kept_step cfg _ e)

/-! ## Routing -/

/-- The packets of type `t` that arrived from client `c` for the namespace `name`. -/
theorem arrivals_snoc (c : Nat) (t : PType) (name : String) (h : List Ev) (e : Ev) :
    arrivals c t name h ≤ arrivals c t name (h ++ [e]) := by
  unfold arrivals; rw [List.countP_append]; exact Nat.le_add_right _ _

/-- The packets handed to socket `r` or about to be. -/
def routed (w : W) (r : Nat) (t : PType) : Nat := w.log.count (.received r t) + w.tasks.count (.packet r t)

structure Routing (h : List Ev) (w : W) : Prop where
  le : ∀ r t, r < w.nSock → routed w r t ≤ arrivals (w.socks r).client t (w.nss (w.socks r).ns).name h
  none : ∀ r t, w.nSock ≤ r → routed w r t = 0
  kind : ∀ r t, t = .connect ∨ t = .connectError → routed w r t = 0
  disc : ∀ r, w.log.count (.received r .disconnect) = 0

theorem Routing.keep {h : List Ev} {w w' : W} (hs : InvS w) (g : Routing h w) (k : Kept w w') (e : Ev)
    (hr : ∀ r t, routed w' r t ≤ routed w r t)
    (hd : ∀ r, w'.log.count (.received r .disconnect) = 0) : Routing (h ++ [e]) w' := by
  refine ⟨fun r t hlt => ?_, fun r t hge => ?_, fun r t ht => ?_, hd⟩
  · rcases Nat.lt_or_ge r w.nSock with h1 | h1
    · rw [k.client r h1, k.ns r h1, k.name _ (hs.sock r h1).1]
      exact Nat.le_trans (hr r t) (Nat.le_trans (g.le r t h1) (arrivals_snoc _ _ _ _ _))
    · have := hr r t; rw [g.none r t h1] at this; omega
  · have := hr r t; rw [g.none r t (Nat.le_trans k.nSock hge)] at this; omega
  · have := hr r t; rw [g.kind r t ht] at this; omega

theorem sameRecv_create (cfg : Cfg) (w : W) (n c : Nat) (auth : Option (Session.Pid × String)) :
    SameRecv w (createSocket cfg w n c auth) := by
  obtain ⟨s, h, -⟩ := createSocket_rel cfg (prim_sameRecv cfg fun _ => True).toPrim0 w n c auth
  exact h

theorem sameRecv_doConnect (w : W) (ref : Nat) (ho : (w.clients (w.socks ref).client).conn = .opened) :
    SameRecv w (doConnect w ref) := by
  intro r t
  rw [(doConnect_fields w ref).2.2.2.2.2.2.2.2.2.2 ho]; simp

theorem routed_connect (cfg : Cfg) (w : W) (c : Nat) (name : String) (auth : Option (Session.Pid × String)) :
    (∀ r t, routed (connect cfg w c name auth) r t = routed w r t) ∧ SameRecv w (connect cfg w c name auth) := by
  have hadd : ∀ (w : W) (n : Nat), (∀ r t, routed (add cfg w n c auth) r t = routed w r t) ∧ SameRecv w (add cfg w n c auth) := by
    intro w n
    have s := sameRecv_create cfg w n c auth
    have ht := (same_create cfg w n c auth).2.1
    unfold add; dsimp only; split
    · rename_i hsk
      have s2 := sameRecv_doConnect (createSocket cfg w n c auth) w.nSock
        (by rw [(createSocket_self cfg w n c auth).2.1]; exact hsk.2.2)
      refine ⟨fun r t => ?_, fun r t => (s2 r t).trans (s r t)⟩
      unfold routed
      rw [s2 r t, s r t, (doConnect_fields _ _).2.2.2.2.2.2.1, ht]
    · split
      · refine ⟨fun r t => ?_, s⟩
        unfold routed; dsimp only; rw [s r t, ht]; simp
      · refine ⟨fun r t => ?_, s⟩
        unfold routed; dsimp only; rw [s r t, ht]
  unfold connect; split
  · exact hadd _ _
  · split
    · obtain ⟨a, b⟩ := hadd (newNs w { name := name, fns := cfg.childFns, auto := cfg.autoClean }) w.nNs
      exact ⟨a, b⟩
    · have s := (prim_sameRecv cfg fun _ => True).packet w c none
        { type := .connectError, nsp := name, data := .error "Invalid namespace" none }
      refine ⟨fun r t => ?_, s⟩
      unfold routed
      rw [s r t, (same_packet w c none _).2.1]

theorem routing_run (cfg : Cfg) (h : List Ev) : Routing h (run cfg h) := by
  induction h using snocRec with
  | nil =>
    refine ⟨fun r t hr => ?_, fun r t hr => ?_, fun r t ht => ?_, fun r => ?_⟩ <;> simp [run, init, newNs, routed]
  | append_singleton h e g =>
    have hs := (inv_run cfg h).1
    have hk := kept_step cfg (run cfg h) e
    rw [run_snoc]
    have calmly : ∀ {w' : W}, w' = step cfg (run cfg h) e → w'.tasks = (run cfg h).tasks → SameRecv (run cfg h) w' →
        Routing (h ++ [e]) w' := by
      intro w' he ht hr
      subst he
      refine g.keep hs hk e (fun r t => ?_) fun r => ?_
      · unfold routed; rw [ht, hr r t]; exact Nat.le_refl _
      · rw [hr r]; exact g.disc r
    by_cases he : e.calm = true
    · exact calmly rfl (calm_step cfg _ e he).tasks ((prim_sameRecv cfg _).step _ e (fun _ _ _ _ _ => rfl)
        (fun _ _ _ _ _ => rfl) (fun _ _ _ _ => rfl) he)
    · cases e <;> simp only [Ev.calm, not_true_eq_false] at he
      case accept p =>
        by_cases hp : p = true
        · subst hp
          obtain ⟨a, b⟩ := routed_connect cfg { run cfg h with
            clients := upd (run cfg h).clients (run cfg h).nClient { proto3 := true, conn := .opened, timer := true, listening := true }
            nClient := (run cfg h).nClient + 1 } (run cfg h).nClient "/" none
          refine g.keep hs hk _ (fun r t => Nat.le_of_eq (a r t)) fun r => (b r .disconnect).trans (g.disc r)
        · refine calmly rfl ?_ ?_
          · simp only [step, accept]; rw [if_neg hp]
          · simp only [step, accept]; rw [if_neg hp]; exact fun _ _ => rfl
      case recv c type name auth =>
        by_cases hc : c < (run cfg h).nClient ∧ ((run cfg h).clients c).listening = true
        · have heq : step cfg (run cfg h) (.recv c type name auth) = ondecoded cfg (run cfg h) c type name auth := by
            simp only [step]; rw [if_pos hc]
          rw [heq] at hk ⊢
          have hclose : ondecoded cfg (run cfg h) c type name auth = clientClose cfg (run cfg h) c →
              Routing (h ++ [.recv c type name auth]) (ondecoded cfg (run cfg h) c type name auth) := by
            intro q
            refine calmly heq.symm ?_ ?_
            · rw [q]; exact (calm_clientClose _ _ _).tasks
            · rw [q]; exact (prim_sameRecv cfg fun _ => True).clientClose _ _ (fun _ _ => trivial) trivial
          cases hg : ((run cfg h).clients c).nsps.get? name with
          | none =>
            by_cases ht : type = .connect
            · have q : ondecoded cfg (run cfg h) c type name auth = connect cfg (run cfg h) c name auth := by
                simp only [ondecoded, hg]; rw [if_pos ht]
              rw [q] at hk ⊢
              obtain ⟨a, b⟩ := routed_connect cfg (run cfg h) c name auth
              exact g.keep hs hk _ (fun r t => Nat.le_of_eq (a r t)) fun r => (b r .disconnect).trans (g.disc r)
            · exact hclose (by simp only [ondecoded, hg]; rw [if_neg ht])
          | some ref =>
            by_cases ht : type ≠ .connect ∧ type ≠ .connectError
            · have q : ondecoded cfg (run cfg h) c type name auth =
                  { run cfg h with tasks := (run cfg h).tasks ++ [.packet ref type] } := by
                simp only [ondecoded, hg]; rw [if_pos ht]
              rw [q]
              obtain ⟨n1, n2, n3⟩ := hs.clNs c name ref hg
              have hne : ∀ r t, ¬ (r = ref ∧ t = type) →
                  routed { run cfg h with tasks := (run cfg h).tasks ++ [.packet ref type] } r t = routed (run cfg h) r t := by
                intro r t hn
                have hb : ¬ (ref = r ∧ type = t) := fun ⟨a, b⟩ => hn ⟨a.symm, b.symm⟩
                simp only [routed, List.count_append, List.count_cons, List.count_nil, beq_iff_eq, Task.packet.injEq, hb, if_false,
                  Nat.add_zero]
              refine ⟨fun r t hr => ?_, fun r t hr => ?_, fun r t hkd => ?_, g.disc⟩
              · by_cases e : r = ref ∧ t = type
                · obtain ⟨rfl, rfl⟩ := e
                  have h0 := g.le r t hr
                  have h1 : routed { run cfg h with tasks := (run cfg h).tasks ++ [.packet r t] } r t = routed (run cfg h) r t + 1 := by
                    simp [routed, Nat.add_assoc]
                  rw [h1]
                  show _ ≤ arrivals ((run cfg h).socks r).client t ((run cfg h).nss ((run cfg h).socks r).ns).name (h ++ [.recv c t name auth])
                  rw [n2, n3] at h0 ⊢
                  unfold arrivals at h0 ⊢
                  rw [List.countP_append]
                  simp only [List.countP_cons, List.countP_nil, and_self, decide_true, if_true]; omega
                · rw [hne r t e]
                  exact Nat.le_trans (g.le r t hr) (arrivals_snoc _ _ _ _ _)
              · rw [hne r t (fun e => by rw [e.1] at hr; exact absurd n1 (Nat.not_lt.2 hr))]
                exact g.none r t hr
              · rw [hne r t (fun e => by rw [e.2] at hkd; rcases hkd with e | e; exact ht.1 e; exact ht.2 e)]
                exact g.kind r t hkd
            · exact hclose (by simp only [ondecoded, hg]; rw [if_neg ht])
        · refine calmly rfl ?_ ?_
          · simp only [step]; rw [if_neg hc]
          · simp only [step]; rw [if_neg hc]; exact fun _ _ => rfl
      case task k =>
        cases hk' : (run cfg h).tasks[k]? with
        | none =>
          refine calmly rfl ?_ ?_
          · simp only [step, hk']
          · simp only [step, hk']; exact fun _ _ => rfl
        | some t =>
          have hcnt : ∀ r t', (run cfg h).tasks.count (.packet r t') =
              ((run cfg h).tasks.eraseIdx k).count (.packet r t') + (if t = .packet r t' then 1 else 0) := by
            intro r t'
            rw [(ClusterAck.eraseIdx_perm hk').symm.count_eq, List.count_cons]; simp
          cases t with
          | result ref err =>
            have key : SameRecv (run cfg h) (result cfg { run cfg h with tasks := (run cfg h).tasks.eraseIdx k } ref err) ∧
                (result cfg { run cfg h with tasks := (run cfg h).tasks.eraseIdx k } ref err).tasks = (run cfg h).tasks.eraseIdx k := by
              obtain ⟨-, -, -, -, -, -, d7, -, -, d10, -⟩ := cleanup_fields cfg { run cfg h with tasks := (run cfg h).tasks.eraseIdx k } ref
              simp only [result]; split
              · exact ⟨fun r t => by rw [d10], d7⟩
              · rename_i ho
                split
                · refine ⟨fun r t => ?_, ?_⟩
                  · unfold sockPacket
                    rw [(prim_sameRecv cfg fun _ => True).packet _ _ _ _ r t, d10]
                  · unfold sockPacket; rw [(same_packet _ _ _ _).2.1, d7]
                · exact ⟨sameRecv_doConnect { run cfg h with tasks := (run cfg h).tasks.eraseIdx k } ref (by simpa using ho),
                    (doConnect_fields _ _).2.2.2.2.2.2.1⟩
            have heq : step cfg (run cfg h) (.task k) = result cfg { run cfg h with tasks := (run cfg h).tasks.eraseIdx k } ref err := by
              simp only [step, hk', runTask]
            rw [heq] at hk ⊢
            refine g.keep hs hk _ (fun r t => ?_) fun r => ?_
            · unfold routed; rw [key.1 r t, key.2, hcnt r t]; omega
            · rw [key.1]; exact g.disc r
          | packet ref type =>
            by_cases htp : type = .disconnect
            · have heq : step cfg (run cfg h) (.task k) =
                  onclose cfg { run cfg h with tasks := (run cfg h).tasks.eraseIdx k } ref "client namespace disconnect" := by
                simp only [step, hk', runTask, onpacket]; rw [if_pos htp]
              rw [heq] at hk ⊢
              have s : SameRecv { run cfg h with tasks := (run cfg h).tasks.eraseIdx k } _ :=
                (prim_sameRecv cfg fun _ => True).onclose { run cfg h with tasks := (run cfg h).tasks.eraseIdx k } ref
                  "client namespace disconnect" trivial
              have ht := (calm_onclose cfg { run cfg h with tasks := (run cfg h).tasks.eraseIdx k } ref "client namespace disconnect").tasks
              refine g.keep hs hk _ (fun r t => ?_) fun r => ?_
              · unfold routed; rw [s r t, ht, hcnt r t]
                show List.count (Obs.received r t) (run cfg h).log + List.count (Task.packet r t) ((run cfg h).tasks.eraseIdx k) ≤ _
                omega
              · rw [s r]; exact g.disc r
            · have heq : step cfg (run cfg h) (.task k) =
                  obs { run cfg h with tasks := (run cfg h).tasks.eraseIdx k } (.received ref type) := by
                simp only [step, hk', runTask, onpacket]; rw [if_neg htp]
              rw [heq] at hk ⊢
              refine g.keep hs hk _ (fun r t => ?_) fun r => ?_
              · simp only [routed, obs, List.count_append, hcnt r t, List.count_cons, List.count_nil, beq_iff_eq,
                  Task.packet.injEq, Obs.received.injEq]
                split <;> omega
              · simp only [obs, List.count_append, g.disc r, List.count_cons, List.count_nil, beq_iff_eq, Obs.received.injEq]
                rw [if_neg]; exact fun e => htp e.2
      case next k i err =>
        have key : SameRecv (run cfg h) (next (run cfg h) k i err) ∧ ∀ r t, routed (next (run cfg h) k i err) r t = routed (run cfg h) r t := by
          unfold next; split
          · exact ⟨fun _ _ => rfl, fun _ _ => rfl⟩
          · split
            · dsimp only; split
              · refine ⟨fun _ _ => rfl, fun r t => ?_⟩
                simp [routed]
              · exact ⟨fun _ _ => rfl, fun _ _ => rfl⟩
            · exact ⟨fun _ _ => rfl, fun _ _ => rfl⟩
        have heq : step cfg (run cfg h) (.next k i err) = next (run cfg h) k i err := rfl
        rw [heq] at hk ⊢
        exact g.keep hs hk _ (fun r t => Nat.le_of_eq (key.2 r t)) fun r => (key.1 r .disconnect).trans (g.disc r)
      case «of» name =>
        cases hg : (run cfg h).nsps.get? name with
        | some n =>
          refine calmly rfl ?_ ?_
          · simp only [step, hg]
          · simp only [step, hg]; exact fun _ _ => rfl
        | none =>
          refine calmly rfl ?_ ?_
          · simp only [step, hg]; rfl
          · simp only [step, hg]; exact fun _ _ => rfl
      case use n =>
        refine calmly rfl ?_ ?_
        · simp only [step]; split <;> rfl
        · simp only [step]; split <;> exact fun _ _ => rfl
      case setData ref v =>
        refine calmly rfl ?_ ?_
        · simp only [step]; split <;> rfl
        · simp only [step]; split <;> exact fun _ _ => rfl
      case clock t => exact calmly rfl rfl fun _ _ => rfl

end Verif.World
