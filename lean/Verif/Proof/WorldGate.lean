import Verif.Proof.WorldIds

/-! # The server: the middleware gate, rejections, routing of packets -/

namespace Verif.World
open Verif Verif.Adapter Verif.Spec

/-! ## What `Add` does to chains, tasks and connections -/

/-- Nothing that matters for the gate changes. -/
def Same (w w' : W) : Prop :=
  w'.chains = w.chains ∧ w'.tasks = w.tasks ∧ ∀ r, Obs.connection r ∈ w'.log → Obs.connection r ∈ w.log

theorem Same.trans {a b c : W} (h1 : Same a b) (h2 : Same b c) : Same a c :=
  ⟨h2.1.trans h1.1, h2.2.1.trans h1.2.1, fun r h => h1.2.2 r (h2.2.2 r h)⟩

theorem same_packet (w : W) (c : Nat) (ref : Option Nat) (x : Pkt) : Same w (clientPacket w c ref x) := by
  unfold clientPacket; split
  · exact ⟨rfl, rfl, fun r => by simp [obs]⟩
  · exact ⟨rfl, rfl, fun _ h => h⟩

theorem prim0_same : Prim0 Same :=
  ⟨fun _ => ⟨rfl, rfl, fun _ h => h⟩, Same.trans, same_packet, fun _ _ _ _ => ⟨rfl, rfl, fun _ h => h⟩⟩

theorem same_create (cfg : Cfg) (w : W) (n c : Nat) (auth : Option (Session.Pid × String)) : Same w (createSocket cfg w n c auth) := by
  obtain ⟨s, h, -⟩ := createSocket_rel cfg prim0_same w n c auth
  exact h

theorem create_fns (cfg : Cfg) (w : W) (n c : Nat) (auth : Option (Session.Pid × String)) (m : Nat) :
    ((createSocket cfg w n c auth).nss m).fns = (w.nss m).fns ∧ ((createSocket cfg w n c auth).nss m).name = (w.nss m).name := by
  have p : Prim0 fun a b : W => ∀ m, (b.nss m).fns = (a.nss m).fns ∧ (b.nss m).name = (a.nss m).name :=
    ⟨fun _ _ => ⟨rfl, rfl⟩, fun h1 h2 m => ⟨(h2 m).1.trans (h1 m).1, (h2 m).2.trans (h1 m).2⟩,
      fun w c ref x m => by unfold clientPacket; split <;> exact ⟨rfl, rfl⟩,
      fun w n f hf m => ⟨upd_proj _ _ _ _ Ns.fns (hf _).2.1, upd_proj _ _ _ _ Ns.name (hf _).1⟩⟩
  obtain ⟨s, h, -⟩ := createSocket_rel cfg p w n c auth
  exact h m

/-- One socket is created; it is connected at once, or no middleware is there, or the first one is called. -/
def Adds (cfg : Cfg) (n : Nat) (w w' : W) : Prop :=
  w'.nSock = w.nSock + 1 ∧ (w'.socks w.nSock).ns = n ∧
  ((skips cfg = true ∧ (w'.socks w.nSock).recovered = true ∧ w'.chains = w.chains ∧ w'.tasks = w.tasks ∧
      ∀ r, Obs.connection r ∈ w'.log → Obs.connection r ∈ w.log ∨ r = w.nSock) ∨
   ((w'.nss n).fns = 0 ∧ w'.chains = w.chains ∧ w'.tasks = w.tasks ++ [.result w.nSock none] ∧
      ∀ r, Obs.connection r ∈ w'.log → Obs.connection r ∈ w.log) ∨
   (0 < (w'.nss n).fns ∧ w'.chains = w.chains ++ [{ ref := w.nSock, len := (w'.nss n).fns }] ∧ w'.tasks = w.tasks ∧
      ∀ r, Obs.connection r ∈ w'.log → Obs.connection r ∈ w.log))

theorem adds_add (cfg : Cfg) (w : W) (n c : Nat) (auth : Option (Session.Pid × String)) : Adds cfg n w (add cfg w n c auth) := by
  obtain ⟨s1, s2, s3⟩ := same_create cfg w n c auth
  obtain ⟨e1, e2, e3, e4, e5⟩ := createSocket_self cfg w n c auth
  have hnew := createSocket_nSock cfg w n c auth
  unfold add; dsimp only; split
  · rename_i hsk
    obtain ⟨-, d2, -, -, d5, -, d7, d8, -, -, d11⟩ := doConnect_fields (createSocket cfg w n c auth) w.nSock
    have ho : ((createSocket cfg w n c auth).clients ((createSocket cfg w n c auth).socks w.nSock).client).conn = .opened := by
      rw [e2]; exact hsk.2.2
    refine ⟨by rw [d5]; exact hnew, by rw [d2, upd_same]; exact e1, .inl ⟨hsk.1, by rw [d2, upd_same]; exact hsk.2.1, ?_, ?_, ?_⟩⟩
    · first | exact d8.trans s1 | exact d7.trans s1
    · first | exact d7.trans s2 | exact d8.trans s2
    · intro r hr
      rw [d11 ho] at hr
      simp only [List.mem_append, List.mem_cons, List.not_mem_nil, or_false, reduceCtorEq, false_or] at hr
      rcases hr with hr | hr
      · exact .inl (s3 r hr)
      · cases hr; exact .inr rfl
  · split
    · rename_i h0
      exact ⟨hnew, e1, .inr (.inl ⟨h0, s1, by rw [s2], s3⟩)⟩
    · rename_i h0
      exact ⟨hnew, e1, .inr (.inr ⟨Nat.pos_of_ne_zero h0, by rw [s1], s2, s3⟩)⟩

theorem adds_connect (cfg : Cfg) (w : W) (c : Nat) (name : String) (auth : Option (Session.Pid × String)) :
    Same w (connect cfg w c name auth) ∨ ∃ n, Adds cfg n w (connect cfg w c name auth) := by
  unfold connect; split
  · exact .inr ⟨_, adds_add _ _ _ _ _⟩
  · split
    · exact .inr ⟨_, adds_add cfg (newNs w { name := name, fns := cfg.childFns, auto := cfg.autoClean }) _ _ _⟩
    · exact .inl (same_packet _ _ _ _)

/-! ## The gate -/

/-- The place of a chain in the history. -/
def ChainOk (cfg : Cfg) (h : List Ev) (k : Nat) (ch : Chain) : Prop :=
  ch.reached < ch.len ∧ ∃ p e q, h = p ++ e :: q ∧ CreatedBy cfg p e ch.ref ∧
    (∃ ch0, (run cfg (p ++ [e])).chains[k]? = some ch0 ∧ ch0.ref = ch.ref) ∧
    ch.len = ((run cfg (p ++ [e])).nss ((run cfg (p ++ [e])).socks ch.ref).ns).fns ∧
    ((List.range ch.reached).map fun i => Ev.next k i none).Sublist q

theorem ChainOk.snoc {cfg : Cfg} {h : List Ev} {k : Nat} {ch : Chain} (hc : ChainOk cfg h k ch) (e : Ev) : ChainOk cfg (h ++ [e]) k ch := by
  obtain ⟨h0, p, e', q, rfl, h2, h3, h4, h5⟩ := hc
  exact ⟨h0, p, e', q ++ [e], by simp, h2, h3, h4, h5.trans (List.sublist_append_left _ _)⟩

theorem _root_.Verif.Spec.LetIn.snoc {cfg : Cfg} {h : List Ev} {r : Nat} (hc : LetIn cfg h r) (e : Ev) : LetIn cfg (h ++ [e]) r := by
  obtain ⟨p, e', q, rfl, h2, h3⟩ := hc
  refine ⟨p, e', q ++ [e], by simp, h2, ?_⟩
  rcases h3 with h3 | h3 | ⟨k, ch, a, b, c⟩
  · exact .inl h3
  · exact .inr (.inl h3)
  · exact .inr (.inr ⟨k, ch, a, b, c.trans (List.sublist_append_left _ _)⟩)

structure Gate (cfg : Cfg) (h : List Ev) (w : W) : Prop where
  chain : ∀ (k : Nat) (ch : Chain), w.chains[k]? = some ch → ChainOk cfg h k ch
  task : ∀ ref, Task.result ref none ∈ w.tasks → LetIn cfg h ref
  conn : ∀ ref, Obs.connection ref ∈ w.log → LetIn cfg h ref

theorem Gate.same {cfg : Cfg} {h : List Ev} {w w' : W} (g : Gate cfg h w) (e : Ev) (h1 : w'.chains = w.chains)
    (h2 : ∀ ref, Task.result ref none ∈ w'.tasks → Task.result ref none ∈ w.tasks)
    (h3 : ∀ r, Obs.connection r ∈ w'.log → Obs.connection r ∈ w.log) : Gate cfg (h ++ [e]) w' :=
  ⟨fun k ch hk => (g.chain k ch (by rw [← h1]; exact hk)).snoc e, fun r hr => (g.task r (h2 r hr)).snoc e,
    fun r hr => (g.conn r (h3 r hr)).snoc e⟩

theorem skips_iff (cfg : Cfg) : skips cfg = true ↔ ∃ sc, cfg.recovery = some (sc, true) := by
  unfold skips
  cases h : cfg.recovery with
  | none => simp
  | some q => obtain ⟨sc, b⟩ := q; cases b <;> simp

theorem Gate.adds {cfg : Cfg} {h : List Ev} {n : Nat} (g : Gate cfg h (run cfg h)) (e : Ev)
    (ha : Adds cfg n (run cfg h) (run cfg (h ++ [e]))) : Gate cfg (h ++ [e]) (run cfg (h ++ [e])) := by
  obtain ⟨a1, a2, a3⟩ := ha
  have hcb : CreatedBy cfg h e (run cfg h).nSock := ⟨rfl, a1⟩
  rcases a3 with ⟨b1, b2, b3, b4, b5⟩ | ⟨b1, b2, b3, b4⟩ | ⟨b1, b2, b3, b4⟩
  · refine ⟨fun k ch hk => (g.chain k ch (by rw [← b3]; exact hk)).snoc e,
      fun r hr => (g.task r (by rw [← b4]; exact hr)).snoc e, fun r hr => ?_⟩
    rcases b5 r hr with hr | rfl
    · exact (g.conn r hr).snoc e
    · exact ⟨h, e, [], rfl, hcb, .inl ⟨(skips_iff cfg).1 b1, b2⟩⟩
  · refine ⟨fun k ch hk => (g.chain k ch (by rw [← b2]; exact hk)).snoc e, fun r hr => ?_,
      fun r hr => (g.conn r (b4 r hr)).snoc e⟩
    rw [b3] at hr
    rcases List.mem_append.1 hr with hr | hr
    · exact (g.task r hr).snoc e
    · simp only [List.mem_singleton, Task.result.injEq, and_true] at hr
      subst hr
      exact ⟨h, e, [], rfl, hcb, .inr (.inl (by rw [a2]; exact b1))⟩
  · refine ⟨fun k ch hk => ?_, fun r hr => (g.task r (by rw [← b3]; exact hr)).snoc e, fun r hr => (g.conn r (b4 r hr)).snoc e⟩
    have hk0 := hk
    rw [b2] at hk
    by_cases hlt : k < (run cfg h).chains.length
    · rw [List.getElem?_append_left hlt] at hk
      exact (g.chain k ch hk).snoc e
    · rw [List.getElem?_append_right (Nat.le_of_not_lt hlt)] at hk
      have : k - (run cfg h).chains.length = 0 := by
        cases hz : k - (run cfg h).chains.length with
        | zero => rfl
        | succ m => rw [hz] at hk; simp at hk
      rw [this] at hk
      simp only [List.getElem?_cons_zero, Option.some.injEq] at hk
      subst hk
      exact ⟨b1, h, e, [], rfl, hcb, ⟨_, hk0, rfl⟩, by rw [a2], by simp⟩

theorem Gate.next {cfg : Cfg} {h : List Ev} (g : Gate cfg h (run cfg h)) (k i : Nat) (err : Option Err) :
    Gate cfg (h ++ [.next k i err]) (next (run cfg h) k i err) := by
  unfold World.next; split
  · exact g.same _ rfl (fun _ h => h) fun _ h => h
  · rename_i ch hk
    split
    · rename_i hi
      obtain ⟨c0, p, e', q, hh, c2, c3, c4, c5⟩ := g.chain k ch hk
      have hset : ∀ (ch' : Chain), ChainOk cfg (h ++ [.next k i err]) k ch' → ∀ (j : Nat) (x : Chain),
          ((run cfg h).chains.set k ch')[j]? = some x → ChainOk cfg (h ++ [.next k i err]) j x := by
        intro ch' hok j x hj
        rw [List.getElem?_set] at hj
        split at hj
        · rename_i e; subst e
          split at hj
          · simp only [Option.some.injEq] at hj; subst hj; exact hok
          · simp at hj
        · exact (g.chain j x hj).snoc _
      have hsame : ChainOk cfg (h ++ [.next k i err]) k { ch with used := i :: ch.used } :=
        (ChainOk.snoc ⟨c0, p, e', q, hh, c2, c3, c4, c5⟩ _ : ChainOk cfg _ k ch)
      dsimp only; split
      · rename_i hd
        refine ⟨hset _ hsame, fun r hr => ?_, fun r hr => (g.conn r hr).snoc _⟩
        rcases List.mem_append.1 hr with hr | hr
        · exact (g.task r hr).snoc _
        · simp only [List.mem_singleton, Task.result.injEq] at hr
          obtain ⟨rfl, he⟩ := hr
          subst he
          have hd : ch.len - 1 ≤ i := by simpa using hd
          have hi' : ch.reached = i := by omega
          have hl : ch.len = i + 1 := by omega
          refine ⟨p, e', q ++ [.next k i none], by rw [hh]; simp, c2, .inr (.inr ?_)⟩
          obtain ⟨ch0, h1, h2⟩ := c3
          refine ⟨k, ch0, h1, h2, ?_⟩
          rw [← c4, hl, List.range_succ, List.map_append]
          rw [hi'] at c5
          exact c5.append (List.Sublist.refl _)
      · rename_i hd
        refine ⟨hset _ ?_, fun r hr => (g.task r hr).snoc _, fun r hr => (g.conn r hr).snoc _⟩
        have hd : err = none ∧ i < ch.len - 1 := by
          cases err <;> simp at hd ⊢; omega
        obtain ⟨rfl, hd⟩ := hd
        by_cases e : i = ch.reached
        · subst e
          refine ⟨?_, p, e', q ++ [.next k ch.reached none], by rw [hh]; simp, c2, c3, c4, ?_⟩
          · simp only [Nat.max_eq_right (Nat.le_succ _)]; omega
          · simp only [Nat.max_eq_right (Nat.le_succ _)]
            rw [List.range_succ, List.map_append]
            exact c5.append (List.Sublist.refl _)
        · have hm : max ch.reached (i + 1) = ch.reached := Nat.max_eq_left (by omega)
          rw [hm]; exact hsame
    · exact g.same _ rfl (fun _ h => h) fun _ h => h

theorem gate_run (cfg : Cfg) (h : List Ev) : Gate cfg h (run cfg h) := by
  induction h using snocRec with
  | nil => exact ⟨fun k ch hk => by simp [run, init, newNs] at hk, fun r hr => by simp [run, init, newNs] at hr,
      fun r hr => by simp [run, init, newNs] at hr⟩
  | append_singleton h e g =>
    by_cases he : e.calm = true
    · have cm := calm_step cfg (run cfg h) e he
      have tr := traced_step cfg (run cfg h) e he
      rw [run_snoc]
      exact g.same e cm.chains (fun r => by rw [cm.tasks]; exact id) fun r => (traced_connection tr r).1
    · have hconn : ∀ (w : W) (c : Nat) (name : String) (auth : Option (Session.Pid × String)), w.chains = (run cfg h).chains → w.tasks = (run cfg h).tasks →
          w.log = (run cfg h).log → w.nSock = (run cfg h).nSock → run cfg (h ++ [e]) = connect cfg w c name auth →
          Gate cfg (h ++ [e]) (run cfg (h ++ [e])) := by
        intro w c name auth q1 q2 q3 q4 q5
        rcases adds_connect cfg w c name auth with ⟨s1, s2, s3⟩ | ⟨n, ha⟩
        · rw [q5]
          exact g.same e (s1.trans q1) (fun r => by rw [s2, q2]; exact id) fun r hr => by rw [← q3]; exact s3 r hr
        · refine g.adds (n := n) e ?_
          rw [q5]; unfold Adds at ha ⊢
          rw [q1, q2, q3, q4] at ha; exact ha
      have hclose : ∀ c, run cfg (h ++ [e]) = clientClose cfg (run cfg h) c → Gate cfg (h ++ [e]) (run cfg (h ++ [e])) := by
        intro c q
        have cm := calm_clientClose cfg (run cfg h) c
        have tr := (prim_traced cfg fun _ => True).clientClose (run cfg h) c (fun _ _ => trivial) trivial
        rw [q]
        exact g.same e cm.chains (fun r => by rw [cm.tasks]; exact id) fun r => (traced_connection tr r).1
      have hid : run cfg (h ++ [e]) = run cfg h → Gate cfg (h ++ [e]) (run cfg (h ++ [e])) := by
        intro q; rw [q]; exact g.same e rfl (fun _ h => h) fun _ h => h
      cases e <;> simp only [Ev.calm, not_true_eq_false] at he
      case accept p =>
        by_cases hp : p = true
        · subst hp
          exact hconn { run cfg h with
            clients := upd (run cfg h).clients (run cfg h).nClient { proto3 := true, conn := .opened, timer := true, listening := true }
            nClient := (run cfg h).nClient + 1 } (run cfg h).nClient "/" none rfl rfl rfl rfl (run_snoc _ _ _)
        · rw [run_snoc]; simp only [step, accept]; rw [if_neg hp]
          exact g.same _ rfl (fun _ h => h) fun _ h => h
      case recv c type name auth =>
        have q : run cfg (h ++ [.recv c type name auth]) = _ := run_snoc _ _ _
        simp only [step] at q
        split at q
        · unfold ondecoded at q; split at q
          · split at q
            · exact hconn _ _ _ _ rfl rfl rfl rfl q
            · exact hclose _ q
          · split at q
            · rw [q]
              refine g.same _ rfl (fun r hr => ?_) fun _ h => h
              rcases List.mem_append.1 hr with hr | hr
              · exact hr
              · simp at hr
            · exact hclose _ q
        · exact hid q
      case task k =>
        have q : run cfg (h ++ [.task k]) = _ := run_snoc _ _ _
        simp only [step] at q
        split at q
        · rename_i t hk
          have hsub : ∀ r, Task.result r none ∈ (run cfg h).tasks.eraseIdx k → Task.result r none ∈ (run cfg h).tasks :=
            fun r hr => (List.eraseIdx_sublist _ _).subset hr
          cases t with
          | result ref err =>
            simp only [runTask, result] at q
            obtain ⟨-, -, -, -, -, -, d7, d8, -, d10, -⟩ := cleanup_fields cfg { run cfg h with tasks := (run cfg h).tasks.eraseIdx k } ref
            split at q
            · rw [q]
              refine g.same _ (by first | exact d8 | exact d7) (fun r hr => hsub r ?_) fun r hr => by rw [d10] at hr; exact hr
              first | (rw [d7] at hr; exact hr) | (rw [d8] at hr; exact hr)
            · rename_i ho
              split at q
              · rw [q]
                have sp := same_packet (cleanup cfg { run cfg h with tasks := (run cfg h).tasks.eraseIdx k } ref)
                refine g.same _ ((sp _ _ _).1.trans (by first | exact d8 | exact d7)) (fun r hr => hsub r ?_) fun r hr => ?_
                · unfold sockPacket at hr
                  rw [(sp _ _ _).2.1] at hr
                  first | (rw [d7] at hr; exact hr) | (rw [d8] at hr; exact hr)
                · have := (sp _ _ _).2.2 r hr
                  rw [d10] at this; exact this
              · rw [q]
                obtain ⟨-, -, -, -, -, -, d7, d8, -, -, d11⟩ := doConnect_fields { run cfg h with tasks := (run cfg h).tasks.eraseIdx k } ref
                refine ⟨fun k' ch hk' => ?_, fun r hr => ?_, fun r hr => ?_⟩
                · have : (run cfg h).chains[k']? = some ch := by
                    first | (rw [d8] at hk'; exact hk') | (rw [d7] at hk'; exact hk')
                  exact (g.chain k' ch this).snoc _
                · refine (g.task r (hsub r ?_)).snoc _
                  first | (rw [d7] at hr; exact hr) | (rw [d8] at hr; exact hr)
                · rw [d11 (by simpa using ho)] at hr
                  simp only [List.mem_append, List.mem_cons, List.not_mem_nil, or_false, reduceCtorEq, false_or] at hr
                  rcases hr with hr | hr
                  · exact (g.conn r hr).snoc _
                  · cases hr; exact (g.task ref (List.mem_of_getElem? hk)).snoc _
          | packet ref type =>
            simp only [runTask, onpacket] at q
            split at q
            · rw [q]
              have cm := calm_onclose cfg { run cfg h with tasks := (run cfg h).tasks.eraseIdx k } ref "client namespace disconnect"
              have tr := traced_onclose cfg { run cfg h with tasks := (run cfg h).tasks.eraseIdx k } ref "client namespace disconnect"
              exact g.same _ cm.chains (fun r => by rw [cm.tasks]; exact hsub r) fun r => (traced_connection tr r).1
            · rw [q]
              exact g.same _ rfl hsub fun r => by simp [obs]
        · exact hid q
      case next k i err =>
        have q : run cfg (h ++ [.next k i err]) = _ := run_snoc _ _ _
        simp only [step] at q
        rw [q]; exact g.next k i err
      case «of» name =>
        have q : run cfg (h ++ [.of name]) = _ := run_snoc _ _ _
        simp only [step] at q
        split at q
        · exact hid q
        · rw [q]; exact g.same _ rfl (fun _ h => h) fun _ h => h
      case use n =>
        have q : run cfg (h ++ [.use n]) = _ := run_snoc _ _ _
        simp only [step] at q
        split at q
        · rw [q]; exact g.same _ rfl (fun _ h => h) fun _ h => h
        · exact hid q
      case setData ref v =>
        have q : run cfg (h ++ [.setData ref v]) = _ := run_snoc _ _ _
        simp only [step] at q
        split at q
        · rw [q]; exact g.same _ rfl (fun _ h => h) fun _ h => h
        · exact hid q
      case clock t =>
        rw [run_snoc]; exact g.same _ rfl (fun _ h => h) fun _ h => h

end Verif.World
