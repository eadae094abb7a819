import Verif.Proof.WorldShown

/-! # The server: which packets a socket is sent first -/

namespace Verif.World
open Verif Verif.Adapter Verif.Spec

/-- The state of socket `r` and the packets sent to it so far; `E`: no event was emitted too early. -/
structure FirstOk (E : Prop) (r : Nat) (w : W) : Prop where
  fresh : w.nSock ≤ r → packetsTo r w.log = []
  wait : E → (w.socks r).connected = false → (w.socks r).canJoin = true → (w.socks r).recovered = false → packetsTo r w.log = []
  on : E → Obs.connection r ∈ w.log → (w.socks r).recovered = false → ∃ p l, packetsTo r w.log = p :: l ∧ p.type = .connect ∧
    ∀ q ∈ l, q.type = .event ∨ q.type = .disconnect
  off : E → Obs.connection r ∉ w.log → (w.socks r).recovered = false → packetsTo r w.log = [] ∨
    ((w.socks r).canJoin = false ∧ ∃ p, packetsTo r w.log = [p] ∧ p.type = .connectError)
  conn : Obs.connection r ∉ w.log → ∀ p ∈ packetsTo r w.log, p.type ≠ .connect

/-- Polite steps keep it. -/
theorem FirstOk.polite {E : Prop} {r : Nat} {w w' : W} (h : FirstOk E r w)
    (hwait : (w.socks r).connected = false → (w.socks r).canJoin = true → Obs.connection r ∉ w.log)
    (hfr : w.nSock ≤ r → Obs.connection r ∉ w.log)
    (cm : Calm w w') (ext : List Obs) (hl : w'.log = w.log ++ ext) {C : Nat → Prop} (hp : Polite C ext) (hC : C r → Obs.connection r ∈ w.log)
    (hc : Obs.connection r ∈ w'.log → Obs.connection r ∈ w.log) : FirstOk E r w' := by
  obtain ⟨p1, p2⟩ := packetsTo_polite hp r
  have hrec : (w'.socks r).recovered = (w.socks r).recovered := by
    rcases cm.socks r with e | ⟨-, e⟩ <;> rw [e]; rfl
  have hcon : Obs.connection r ∉ w.log → packetsTo r w'.log = packetsTo r w.log := by
    intro hn; rw [hl, packetsTo_append, p2 (fun h => hn (hC h)), List.append_nil]
  have hmem : Obs.connection r ∉ w'.log → Obs.connection r ∉ w.log :=
    fun h1 h => h1 (by rw [hl]; exact List.mem_append_left _ h)
  refine ⟨fun hge => ?_, fun hE h1 h2 h3 => ?_, fun hE h1 h2 => ?_, fun hE h1 h2 => ?_, fun h1 => ?_⟩
  · rw [cm.nSock] at hge
    rw [hcon (hfr hge)]; exact h.fresh hge
  · rcases cm.socks r with e | ⟨-, e⟩
    · rw [e] at h1 h2 h3
      rw [hcon (hwait h1 h2)]; exact h.wait hE h1 h2 h3
    · rw [e] at h2; simp [closed] at h2
  · obtain ⟨p, l, e, ht, hq⟩ := h.on hE (hc h1) (by rw [← hrec]; exact h2)
    refine ⟨p, l ++ packetsTo r ext, by rw [hl, packetsTo_append, e]; rfl, ht, fun q hm => ?_⟩
    rcases List.mem_append.1 hm with hm | hm
    · exact hq q hm
    · exact p1 q hm
  · have hn := hmem h1
    rw [hcon hn]
    rcases h.off hE hn (by rw [← hrec]; exact h2) with e | ⟨hj, e⟩
    · exact .inl e
    · refine .inr ⟨?_, e⟩
      rcases cm.socks r with e | ⟨-, e⟩ <;> rw [e]
      · exact hj
      · rfl
  · rw [hcon (hmem h1)]; exact h.conn (hmem h1)

/-- Steps that do not concern this socket keep it. -/
theorem FirstOk.frame {E : Prop} {r : Nat} {w w' : W} (h : FirstOk E r w) (hn : w.nSock ≤ w'.nSock)
    (h1 : (w'.socks r).connected = (w.socks r).connected) (h2 : (w'.socks r).canJoin = (w.socks r).canJoin)
    (h3 : (w'.socks r).recovered = (w.socks r).recovered)
    (ext : List Obs) (hl : w'.log = w.log ++ ext) (hp : packetsTo r ext = []) (hc : Obs.connection r ∉ ext) : FirstOk E r w' := by
  have e : packetsTo r w'.log = packetsTo r w.log := by rw [hl, packetsTo_append, hp, List.append_nil]
  have c : Obs.connection r ∈ w'.log ↔ Obs.connection r ∈ w.log := by rw [hl]; simp [hc]
  refine ⟨fun hge => ?_, ?_, ?_, ?_, ?_⟩
  · rw [e]; exact h.fresh (by omega)
  · rw [h1, h2, h3, e]; exact h.wait
  · rw [c, h3, e]; exact h.on
  · rw [c, h3, h2, e]; exact h.off
  · rw [c, e]; exact h.conn

theorem FirstOk.mono {E E' : Prop} {r : Nat} {w : W} (h : FirstOk E r w) (he : E' → E) : FirstOk E' r w :=
  ⟨h.fresh, fun e => h.wait (he e), fun e => h.on (he e), fun e => h.off (he e), h.conn⟩

theorem FirstOk.fields {E : Prop} {r : Nat} {w w' : W} (h : FirstOk E r w) (hn : w'.nSock = w.nSock) (hs : w'.socks = w.socks) (hl : w'.log = w.log) :
    FirstOk E r w' :=
  h.frame (by omega) (by rw [hs]) (by rw [hs]) (by rw [hs]) [] (by simp [hl]) rfl (by simp)

theorem InvR.notConnected {rec : Bool} {r : Nat} {x : Bool} {used : List (Nat × Nat)} {w : W} (h : InvR rec r x used w)
    (h1 : (w.socks r).connected = false) (h2 : (w.socks r).canJoin = true) : Obs.connection r ∉ w.log := by
  rw [mem_life, h.life.2.1 h1 h2]; simp

theorem FirstOk.speaks {E : Prop} {rec : Bool} {r : Nat} {x : Bool} {used : List (Nat × Nat)} {Q : String → Prop} {w w' : W} (h : FirstOk E r w)
    (ht : InvR rec r x used w) (sp : Speaks w w') (tr : Traced rec Q w w') : FirstOk E r w' := by
  obtain ⟨cm, ext, hl, hp⟩ := sp
  refine h.polite ht.notConnected (fun hr => ht.notConnected (ht.fresh hr).1 (ht.fresh hr).2) cm ext hl hp (fun hc => ?_) (traced_connection tr r).1
  rw [mem_life, (ht.life.1 hc).2]; simp

theorem first_create {E : Prop} {rec : Bool} {r : Nat} {x : Bool} {used : List (Nat × Nat)} {w : W} (h : FirstOk E r w) (ht : InvR rec r x used w) (cfg : Cfg) (n c : Nat)
    (auth : Option (Session.Pid × String)) : FirstOk E r (createSocket cfg w n c auth) := by
  obtain ⟨ext, e1, e2, e3, e4⟩ := create_packets cfg w n c auth
  obtain ⟨s1, s2, s3, s4, s5⟩ := createSocket_self cfg w n c auth
  have hnew := createSocket_nSock cfg w n c auth
  have hcon : Obs.connection r ∉ ext := fun hm => by obtain ⟨p, hp, -⟩ := e2 _ hm; simp at hp
  by_cases hr : r = w.nSock
  · subst hr
    have hold := h.fresh (Nat.le_refl _)
    have hnc : Obs.connection w.nSock ∉ (createSocket cfg w n c auth).log := by
      rw [e1, List.mem_append]
      rintro (hm | hm)
      · exact ht.notConnected (ht.fresh (Nat.le_refl _)).1 (ht.fresh (Nat.le_refl _)).2 hm
      · exact hcon hm
    have hp (h0 : ((createSocket cfg w n c auth).socks w.nSock).recovered = false) :
        packetsTo w.nSock (createSocket cfg w n c auth).log = [] := by
      rw [e1, e3 h0, List.append_nil]; exact hold
    refine ⟨fun hge => by omega, fun _ _ _ h3 => hp h3, fun _ h1 => absurd h1 hnc, fun _ _ h2 => .inl (hp h2), fun _ p hm => ?_⟩
    rw [e1, packetsTo_append, hold, List.nil_append] at hm
    obtain ⟨o, ho, e⟩ := List.mem_filterMap.1 hm
    obtain ⟨q, rfl, hq⟩ := e2 o ho
    simp only [packetOf, if_true, Option.some.injEq] at e
    subst e; rw [hq]; simp
  · have hs := e4 r hr
    refine h.frame (by omega) (by rw [hs]) (by rw [hs]) (by rw [hs]) ext e1 (packetsTo_other fun o ho => ?_) hcon
    obtain ⟨p, rfl, -⟩ := e2 o ho
    simp [packetOf, Ne.symm hr]

/-- Connecting a socket; if it is this one, then it was waiting. -/
theorem first_doConnect {E : Prop} {r : Nat} {w : W} (h : FirstOk E r w) {ref : Nat}
    (hlt : ref < w.nSock) (ho : (w.clients (w.socks ref).client).conn = .opened)
    (hw : ref = r → (w.socks r).connected = false ∧ (w.socks r).canJoin = true) : FirstOk E r (doConnect w ref) := by
  obtain ⟨-, d2, -, -, d5, -, -, -, -, -, d11⟩ := doConnect_fields w ref
  have d11 := d11 ho
  by_cases hr : r = ref
  · subst hr
    obtain ⟨h1, h2⟩ := hw rfl
    have hin : Obs.connection r ∈ (doConnect w r).log := by rw [d11]; simp
    have hrec : ((doConnect w r).socks r).recovered = (w.socks r).recovered := by rw [d2, upd_same]
    refine ⟨fun hge => by rw [d5] at hge; omega, fun _ h1 => by rw [d2, upd_same] at h1; simp at h1, fun hE _ h0 => ?_,
      fun _ h => absurd hin h, fun h => absurd hin h⟩
    rw [hrec] at h0
    refine ⟨connectPkt w r, [], ?_, rfl, by simp⟩
    rw [d11, packetsTo_append, h.wait hE h1 h2 h0]
    simp [packetsTo, packetOf]
  · refine h.frame (by omega) ?_ ?_ ?_ _ d11 ?_ ?_
    · rw [d2, upd_ne _ _ hr]
    · rw [d2, upd_ne _ _ hr]
    · rw [d2, upd_ne _ _ hr]
    · simp [packetsTo, packetOf, Ne.symm hr]
    · simp [hr]

/-- Rejecting a socket; if it is this one, then it was waiting. -/
theorem first_cleanup {E : Prop} {r : Nat} {w : W} (h : FirstOk E r w) (cfg : Cfg) {ref : Nat} (hlt : ref < w.nSock)
    (hw : ref = r → Obs.connection r ∉ w.log ∧ (w.socks r).connected = false ∧ (w.socks r).canJoin = true) (p : Pkt) (hp : p.type = .connectError) :
    FirstOk E r (cleanup cfg w ref) ∧ FirstOk E r (sockPacket (cleanup cfg w ref) ref p) := by
  obtain ⟨-, d2, -, -, d5, -, -, -, -, d10, -⟩ := cleanup_fields cfg w ref
  have main (w' : W) (hs : w'.socks = (cleanup cfg w ref).socks) (hn : w'.nSock = w.nSock) (ext : List Obs)
      (hl : w'.log = w.log ++ ext) (hex : ext = [] ∨ ∃ c q, ext = [.packet c (some ref) q] ∧ q.type = .connectError) : FirstOk E r w' := by
    have hce : Obs.connection r ∉ ext := by
      rcases hex with rfl | ⟨c, q, rfl, -⟩ <;> simp
    by_cases hr : r = ref
    · subst hr
      obtain ⟨hnc, h1, h2⟩ := hw rfl
      have hnc' : Obs.connection r ∉ w'.log := by rw [hl]; simp [hnc, hce]
      refine ⟨fun hge => by omega, fun _ _ hj => by rw [hs, d2, upd_same] at hj; simp at hj, fun _ h => absurd h hnc', fun hE _ h0 => ?_, fun _ q hm => ?_⟩
      · rw [hs, d2, upd_same] at h0
        rw [hl, packetsTo_append, h.wait hE h1 h2 h0, List.nil_append]
        rcases hex with rfl | ⟨c, q, rfl, hq⟩
        · exact .inl rfl
        · exact .inr ⟨by rw [hs, d2, upd_same], q, by simp [packetsTo, packetOf], hq⟩
      · rw [hl, packetsTo_append] at hm
        rcases List.mem_append.1 hm with hm | hm
        · exact h.conn hnc q hm
        · rcases hex with rfl | ⟨c, q', rfl, hq⟩
          · simp [packetsTo] at hm
          · simp [packetsTo, packetOf] at hm
            subst hm; rw [hq]; simp
    · have he : w'.socks r = w.socks r := by rw [hs, d2, upd_ne _ _ hr]
      refine h.frame (by omega) (by rw [he]) (by rw [he]) (by rw [he]) ext hl ?_ hce
      rcases hex with rfl | ⟨c, q, rfl, -⟩
      · rfl
      · simp [packetsTo, packetOf, Ne.symm hr]
  refine ⟨main _ rfl d5 [] (by simp [d10]) (.inl rfl), ?_⟩
  rw [sockPacket_eq]
  refine main _ rfl d5 (sent (cleanup cfg w ref) p ref) (by rw [d10]) ?_
  unfold sent; split
  · exact .inr ⟨_, _, rfl, hp⟩
  · exact .inl rfl

theorem first_add {E : Prop} {cfg : Cfg} {r : Nat} {x : Bool} {used : List (Nat × Nat)} {w : W} (h : FirstOk E r w)
    (ht : InvR cfg.recovery.isSome r x used w) (n c : Nat) (auth : Option (Session.Pid × String)) : FirstOk E r (add cfg w n c auth) := by
  have h1 := first_create h ht cfg n c auth
  obtain ⟨s1, s2, s3, s4, s5⟩ := createSocket_self cfg w n c auth
  have hnew := createSocket_nSock cfg w n c auth
  unfold add; dsimp only; split
  · rename_i hsk
    exact first_doConnect h1 (by omega) (by rw [s2]; exact hsk.2.2) fun e => by subst e; exact ⟨s3, s4⟩
  · split
    · exact h1.fields rfl rfl rfl
    · exact h1.fields rfl rfl rfl

theorem first_connect {E : Prop} {cfg : Cfg} {r : Nat} {x : Bool} {used : List (Nat × Nat)} {w : W} (h : FirstOk E r w)
    (ht : InvR cfg.recovery.isSome r x used w) (c : Nat) (name : String) (auth : Option (Session.Pid × String)) :
    FirstOk E r (connect cfg w c name auth) := by
  unfold connect; split
  · exact first_add h ht _ _ _
  · split
    · exact first_add (w := newNs w { name := name, fns := cfg.childFns, auto := cfg.autoClean })
        (h.fields rfl rfl rfl) (ht.congr rfl rfl rfl rfl rfl rfl) _ _ _
    · unfold clientPacket; split
      · exact h.frame (Nat.le_refl _) rfl rfl rfl _ rfl (by simp [packetsTo, packetOf]) (by simp)
      · exact h

theorem first_step {E : Prop} {cfg : Cfg} {r : Nat} {x : Bool} {used : List (Nat × Nat)} {w : W} (h : FirstOk E r w) (hs : InvS w) (hr : Refs w)
    (ht : InvR cfg.recovery.isSome r x used w) (e : Ev)
    (hem : cfg.recovery = none → ∀ args flags, e = .emit r args flags → E → Obs.connection r ∈ w.log) :
    FirstOk E r (step cfg w e) := by
  have hclose (c : Nat) : FirstOk E r (clientClose cfg w c) :=
    h.speaks ht ((quiet_speaks cfg).clientClose (reasons_true cfg) w c)
      ((prim_traced cfg fun _ => True).clientClose w c (fun _ _ => trivial) trivial)
  by_cases he : e.calm = true
  · by_cases hee : ∃ ref args flags, e = .emit ref args flags
    · obtain ⟨ref, args, flags, rfl⟩ := hee
      have tr := traced_step cfg w (.emit ref args flags) he
      cases hrec : cfg.recovery with
      | some q =>
        refine h.speaks ht ?_ tr
        simp only [step]; split
        · unfold emit; rw [hrec]; exact speaks_broadcast hs _ _ _ _ rfl
        · exact .refl w
      | none =>
        have hin (e : ref = r) := hem hrec args flags (by rw [e])
        have hlog : (step cfg w (.emit ref args flags)).log =
            w.log ++ if ref < w.nSock then sent w { type := .event, data := .args args } ref else [] := by
          simp only [step]; split
          · unfold emit; rw [hrec]; simp only [sockPacket_eq]
          · simp
        have main (hE : E) : FirstOk E r (step cfg w (.emit ref args flags)) := by
          refine h.polite ht.notConnected (fun hr => ht.notConnected (ht.fresh hr).1 (ht.fresh hr).2)
            (calm_step cfg w _ he) (C := fun x => x = ref) _ hlog ?_ (fun e => hin e.symm hE) (traced_connection tr r).1
          intro c r' p hm
          split at hm
          · unfold sent at hm; split at hm
            · simp only [List.mem_singleton, Obs.packet.injEq] at hm
              obtain ⟨-, rfl, rfl⟩ := hm
              exact ⟨.inl rfl, ref, rfl, rfl⟩
            · simp at hm
          · simp at hm
        refine ⟨fun hge => ?_, fun hE => (main hE).wait hE, fun hE => (main hE).on hE, fun hE => (main hE).off hE, fun hc p hp => ?_⟩
        · rw [(calm_step cfg w (.emit ref args flags) he).nSock] at hge
          rw [hlog, packetsTo_append, h.fresh hge, List.nil_append]
          split
          · rcases packetsTo_sent w { type := .event, data := .args args } ref r with e | ⟨rfl, -⟩
            · exact e
            · omega
          · rfl
        · rw [traced_connection tr] at hc
          rw [hlog, packetsTo_append] at hp
          rcases List.mem_append.1 hp with hp | hp
          · exact h.conn hc p hp
          · split at hp
            · rcases packetsTo_sent w { type := .event, data := .args args } ref r with e | ⟨rfl, q, hq, e⟩
              · rw [e] at hp; simp at hp
              · rw [e, List.mem_singleton] at hp; rw [hp, hq]; simp
            · simp [packetsTo] at hp
    · exact h.speaks ht (speaks_step hs cfg e he fun ref args flags heq => hee ⟨ref, args, flags, heq⟩) (traced_step cfg w e he)
  · cases e <;> simp only [Ev.calm, not_true_eq_false] at he <;> simp only [step]
    case accept p =>
      have h0 : FirstOk E r { w with
          clients := upd w.clients w.nClient { proto3 := p, conn := .opened, timer := true, listening := true }
          nClient := w.nClient + 1 } := h.fields rfl rfl rfl
      unfold accept; dsimp only; split
      · exact first_connect h0 (ht.congr rfl rfl rfl rfl rfl rfl) _ _ _
      · exact h0
    case recv c type name auth =>
      split
      · unfold ondecoded; split
        · split
          · exact first_connect h ht _ _ _
          · exact hclose c
        · split
          · exact h.fields rfl rfl rfl
          · exact hclose c
      · exact h
    case task k =>
      split
      · rename_i t hk
        have h0 : FirstOk E r { w with tasks := w.tasks.eraseIdx k } := h.fields rfl rfl rfl
        have hm := List.mem_of_getElem? hk
        cases t with
        | result ref err =>
          have hp : ref ∈ pending w :=
            List.mem_append_left _ (List.mem_filterMap.2 ⟨_, hm, rfl⟩)
          have hw (e : ref = r) : (w.socks r).connected = false ∧ (w.socks r).canJoin = true := ht.undecided (e ▸ hp)
          have hlt := hr.tasks _ hm
          have hcl := fun p hp => first_cleanup h0 cfg hlt (fun e => ⟨ht.notConnected (hw e).1 (hw e).2, hw e⟩) p hp
          simp only [runTask, result]; split
          · exact (hcl { type := .connectError } rfl).1
          · rename_i ho
            split
            · exact (hcl _ rfl).2
            · exact first_doConnect h0 hlt (by simpa using ho) hw
        | packet ref type =>
          simp only [runTask, onpacket]; split
          · refine h0.speaks (w := { w with tasks := w.tasks.eraseIdx k }) (x := x) (used := used) (rec := cfg.recovery.isSome) ?_ (speaks_onclose cfg _ ref _)
              (traced_onclose cfg _ ref _)
            have hpd : (pending { w with tasks := w.tasks.eraseIdx k }).Sublist (pending w) := by
              unfold pending
              exact ((List.eraseIdx_sublist _ _).filterMap _).append (List.Sublist.refl _)
            exact ⟨Nat.le_trans (hpd.count_le r) ht.once, fun hr => ht.undecided (hpd.subset hr), ht.chain, ht.life, ht.fresh, ht.rej⟩
          · exact h0.frame (Nat.le_refl _) rfl rfl rfl [.received ref type] rfl (by simp [packetsTo, packetOf]) (by simp)
      · exact h
    case next k i err =>
      unfold next; split
      · exact h
      · split
        · dsimp only; split <;> exact h.fields rfl rfl rfl
        · exact h
    case «of» name =>
      split
      · exact h
      · exact h.fields rfl rfl rfl
    case use n =>
      split
      · exact h.fields rfl rfl rfl
      · exact h
    case setData ref v =>
      split
      · exact h.frame (Nat.le_refl _) (upd_proj _ _ _ _ Sock.connected rfl) (upd_proj _ _ _ _ Sock.canJoin rfl) (upd_proj _ _ _ _ Sock.recovered rfl)
          [] (by simp [setSock]) rfl (by simp)
      · exact h
    case clock => exact h.fields rfl rfl rfl

/-- **The packets of a socket.** -/
theorem first_run (cfg : Cfg) (h : List Ev) (r : Nat) (hn : NextOnceFor cfg h r) :
    FirstOk (cfg.recovery = none → EmitsAfter cfg h r) r (run cfg h) := by
  induction h using snocRec with
  | nil => exact ⟨fun _ => rfl, fun _ _ _ _ => rfl, fun _ h => by simp [run, init, newNs] at h, fun _ _ _ => .inl rfl,
      fun _ p hp => by simp [run, init, newNs, packetsTo] at hp⟩
  | append_singleton h e ih =>
    have hn' := (nextOnceFor_snoc hn).1
    rw [run_snoc]
    have hi := inv_run cfg h
    have hm : (cfg.recovery = none → EmitsAfter cfg (h ++ [e]) r) → cfg.recovery = none → EmitsAfter cfg h r :=
      fun hE q p args flags he => hE q p args flags (he.trans (List.prefix_append _ _))
    exact first_step ((ih hn').mono hm) hi.1 hi.2 (invR_run cfg h r hn') e fun q args flags he hE =>
      hE q h args flags (by rw [he]; exact List.prefix_refl _)

end Verif.World
