import Verif.Proof.WorldStore

/-! # The server: who creates sockets, and the times of the session stores -/

namespace Verif.World
open Verif Verif.Adapter Verif.Spec

/-- The event by which client `c` asks for the namespace `name`. -/
def AsksFor (w : W) (e : Ev) (c : Nat) (name : String) : Prop :=
  (e = .accept true ∧ c = w.nClient ∧ name = "/") ∨
  ∃ auth, e = .recv c .connect name auth ∧ c < w.nClient ∧ (w.clients c).listening = true ∧ (w.clients c).nsps.get? name = none

/-- The socket just created. -/
def Made (w w' : W) (c : Nat) (name : String) : Prop :=
  w'.nSock = w.nSock + 1 ∧ (w'.socks w.nSock).client = c ∧ (w'.nss (w'.socks w.nSock).ns).name = name ∧
    (w'.socks w.nSock).canJoin = true

theorem made_add (cfg : Cfg) (w : W) (n c : Nat) (auth : Option (Session.Pid × String)) :
    Made w (add cfg w n c auth) c (w.nss n).name := by
  obtain ⟨e1, e2, e3, e4, -⟩ := createSocket_self cfg w n c auth
  have e6 := (create_fns cfg w n c auth n).2
  have hnew := createSocket_nSock cfg w n c auth
  have h0 : Made w (createSocket cfg w n c auth) c (w.nss n).name := ⟨hnew, e2, by rw [e1]; exact e6, e4⟩
  unfold add; dsimp only; split
  · obtain ⟨d1, d2, -, -, d5, -⟩ := doConnect_fields (createSocket cfg w n c auth) w.nSock
    refine ⟨by rw [d5]; exact hnew, by rw [d2, upd_same]; exact e2, ?_, by rw [d2, upd_same]; exact e4⟩
    rw [d2, upd_same]
    show ((doConnect (createSocket cfg w n c auth) w.nSock).nss ((createSocket cfg w n c auth).socks w.nSock).ns).name = _
    rw [d1, e1, upd_same, ← e6]; simp only [nsConnected, e1]
  · split
    · exact h0
    · exact h0

theorem made_connect {w : W} (hs : ∀ name n, w.nsps.get? name = some n → (w.nss n).name = name) (cfg : Cfg) (c : Nat) (name : String) (auth : Option (Session.Pid × String)) :
    ((connect cfg w c name auth).nSock = w.nSock ∧ w.nsps.get? name = none ∧ cfg.admit name = false) ∨
      Made w (connect cfg w c name auth) c name := by
  unfold connect; split
  · rename_i n hg
    have := made_add cfg w n c auth
    rw [hs _ _ hg] at this
    exact .inr this
  · rename_i hg
    split
    · have := made_add cfg (newNs w { name := name, fns := cfg.childFns, auto := cfg.autoClean }) w.nNs c auth
      simp only [newNs, upd_same] at this
      exact .inr this
    · rename_i ha
      exact .inl ⟨(calm_clientPacket _ _ _ _).nSock, hg, by simpa using ha⟩

theorem made_step {w : W} (hs : InvS w) (cfg : Cfg) (e : Ev) :
    (step cfg w e).nSock = w.nSock ∨ ∃ c name, AsksFor w e c name ∧ Made w (step cfg w e) c name := by
  by_cases he : e.calm = true
  · exact .inl (calm_step cfg w e he).nSock
  · cases e <;> simp only [Ev.calm, not_true_eq_false] at he <;> simp only [step]
    case accept p =>
      unfold accept; dsimp only; split
      · rename_i hp; subst hp
        rcases made_connect (w := { w with
          clients := upd w.clients w.nClient { proto3 := true, conn := .opened, timer := true, listening := true }
          nClient := w.nClient + 1 }) (fun name n hg => (hs.names name n hg).2) cfg w.nClient "/" none with h | h
        · exact .inl h.1
        · exact .inr ⟨_, _, .inl ⟨rfl, rfl, rfl⟩, h⟩
      · exact .inl rfl
    case recv c type name auth =>
      split
      · rename_i hl
        unfold ondecoded; split
        · rename_i hg
          split
          · rename_i ht; subst ht
            rcases made_connect (fun name n hg => (hs.names name n hg).2) cfg c name auth with h | h
            · exact .inl h.1
            · exact .inr ⟨_, _, .inr ⟨auth, rfl, hl.1, hl.2, hg⟩, h⟩
          · exact .inl (calm_clientClose _ _ _).nSock
        · split
          · exact .inl rfl
          · exact .inl (calm_clientClose _ _ _).nSock
      · exact .inl rfl
    case task k =>
      split
      · rename_i t hk
        cases t with
        | result ref err =>
          simp only [runTask, result]; split
          · exact .inl (cleanup_fields cfg { w with tasks := w.tasks.eraseIdx k } ref).2.2.2.2.1
          · split
            · exact .inl ((calm_sockPacket _ _ _).nSock.trans (cleanup_fields cfg { w with tasks := w.tasks.eraseIdx k } ref).2.2.2.2.1)
            · exact .inl (doConnect_fields { w with tasks := w.tasks.eraseIdx k } ref).2.2.2.2.1
        | packet ref type =>
          simp only [runTask, onpacket]; split
          · exact .inl (calm_onclose _ _ _ _).nSock
          · exact .inl rfl
      · exact .inl rfl
    case next k i err =>
      unfold next; split
      · exact .inl rfl
      · split
        · dsimp only; split <;> exact .inl rfl
        · exact .inl rfl
    case «of» name => split <;> exact .inl rfl
    case use n => split <;> exact .inl rfl
    case setData ref v => split <;> exact .inl rfl
    case clock t => simp

theorem oneEach_patient (cfg : Cfg) (h : List Ev) (hp : Patient cfg h) : OneEach (run cfg h) := by
  induction h using snocRec with
  | nil => intro r r' h1; simp [IsOpen, run, init, newNs] at h1
  | append_singleton h e ih =>
    have ih := ih fun p c name auth hpre => hp p c name auth (hpre.trans (List.prefix_append _ _))
    have hs := (inv_run cfg h).1
    have hk := kept_step cfg (run cfg h) e
    rw [run_snoc]
    have old : ∀ r, r < (run cfg h).nSock → IsOpen (step cfg (run cfg h) e) r →
        IsOpen (run cfg h) r ∧ ((step cfg (run cfg h) e).socks r).client = ((run cfg h).socks r).client ∧
        ((step cfg (run cfg h) e).nss ((step cfg (run cfg h) e).socks r).ns).name = ((run cfg h).nss ((run cfg h).socks r).ns).name := by
      intro r hr ho
      exact ⟨⟨hr, hk.canJoin r hr ho.2⟩, hk.client r hr, by rw [hk.ns r hr, hk.name _ (hs.sock r hr).1]⟩
    have both : ∀ r r', r < (run cfg h).nSock → r' < (run cfg h).nSock → IsOpen (step cfg (run cfg h) e) r →
        IsOpen (step cfg (run cfg h) e) r' →
        ((step cfg (run cfg h) e).socks r).client = ((step cfg (run cfg h) e).socks r').client →
        ((step cfg (run cfg h) e).nss ((step cfg (run cfg h) e).socks r).ns).name =
          ((step cfg (run cfg h) e).nss ((step cfg (run cfg h) e).socks r').ns).name → r = r' := by
      intro r r' h1 h2 o1 o2 hc hn
      obtain ⟨a1, a2, a3⟩ := old r h1 o1
      obtain ⟨b1, b2, b3⟩ := old r' h2 o2
      exact ih r r' a1 b1 (by rw [← a2, ← b2]; exact hc) (by rw [← a3, ← b3]; exact hn)
    rcases made_step hs cfg e with hm | ⟨c, name, ha, m1, m2, m3, m4⟩
    · intro r r' o1 o2 hc hn
      exact both r r' (by rw [← hm]; exact o1.1) (by rw [← hm]; exact o2.1) o1 o2 hc hn
    · have new : ∀ r, r < (run cfg h).nSock → IsOpen (step cfg (run cfg h) e) r →
          ((step cfg (run cfg h) e).socks r).client = c →
          ((step cfg (run cfg h) e).nss ((step cfg (run cfg h) e).socks r).ns).name = name → False := by
        intro r hr o hc hn
        obtain ⟨a1, a2, a3⟩ := old r hr o
        rw [a2] at hc; rw [a3] at hn
        rcases ha with ⟨-, q2, -⟩ | ⟨auth, rfl, -⟩
        · have := (hs.sock r hr).2; omega
        · exact hp h c name auth (List.prefix_refl _) r a1 hc hn
      intro r r' o1 o2 hc hn
      have l1 := o1.1; have l2 := o2.1
      rw [m1] at l1 l2
      rcases Nat.lt_succ_iff_lt_or_eq.1 l1 with h1 | h1 <;> rcases Nat.lt_succ_iff_lt_or_eq.1 l2 with h2 | h2
      · exact both r r' h1 h2 o1 o2 hc hn
      · subst h2; exact (new r h1 o1 (by rw [hc]; exact m2) (by rw [hn]; exact m3)).elim
      · subst h1; exact (new r' h2 o2 (by rw [← hc]; exact m2) (by rw [← hn]; exact m3)).elim
      · rw [h1, h2]

theorem patient_prefix {cfg : Cfg} {h p : List Ev} (hp : Patient cfg h) (hpre : p <+: h) : Patient cfg p :=
  fun q c name auth hq => hp q c name auth (hq.trans hpre)

theorem neverTwice_patient {cfg : Cfg} {h : List Ev} (hp : Patient cfg h) : NeverTwice cfg h :=
  fun p hpre => oneEach_patient cfg p (patient_prefix hp hpre)

/-! ## Times -/

theorem connect_now (cfg : Cfg) (w : W) (c : Nat) (name : String) (auth : Option (Session.Pid × String)) :
    (connect cfg w c name auth).now = w.now := by
  have p : Prim0 fun a b : W => b.now = a.now :=
    ⟨fun _ => rfl, fun h1 h2 => h2.trans h1, fun w c ref x => by unfold clientPacket; split <;> rfl, fun _ _ _ _ => rfl⟩
  have hadd (w : W) (n : Nat) : (add cfg w n c auth).now = w.now := by
    obtain ⟨s, h1, -⟩ := createSocket_rel cfg p w n c auth
    have h1 : (createSocket cfg w n c auth).now = w.now := h1
    unfold add; dsimp only; split
    · obtain ⟨-, -, -, -, -, -, -, -, d9, -⟩ := doConnect_fields (createSocket cfg w n c auth) w.nSock
      exact d9.trans h1
    · split <;> exact h1
  unfold connect; split
  · exact hadd _ _
  · split
    · exact hadd _ _
    · exact (calm_clientPacket _ _ _ _).now

theorem now_step (cfg : Cfg) (w : W) (e : Ev) : (step cfg w e).now = w.now ∨ ∃ t, e = .clock t ∧ (step cfg w e).now = t := by
  by_cases he : e.calm = true
  · exact .inl (calm_step cfg w e he).now
  · cases e <;> simp only [Ev.calm, not_true_eq_false] at he <;> simp only [step]
    case accept p =>
      unfold accept; dsimp only; split
      · exact .inl (connect_now _ _ _ _ _)
      · exact .inl rfl
    case recv c type name auth =>
      split
      · unfold ondecoded; split
        · split
          · exact .inl (connect_now _ _ _ _ _)
          · exact .inl (calm_clientClose _ _ _).now
        · split
          · exact .inl rfl
          · exact .inl (calm_clientClose _ _ _).now
      · exact .inl rfl
    case task k =>
      split
      · rename_i t hk
        cases t with
        | result ref err =>
          simp only [runTask, result]; split
          · exact .inl (cleanup_fields cfg { w with tasks := w.tasks.eraseIdx k } ref).2.2.2.2.2.2.2.2.1
          · split
            · exact .inl ((calm_sockPacket _ _ _).now.trans (cleanup_fields cfg { w with tasks := w.tasks.eraseIdx k } ref).2.2.2.2.2.2.2.2.1)
            · exact .inl (doConnect_fields { w with tasks := w.tasks.eraseIdx k } ref).2.2.2.2.2.2.2.2.1
        | packet ref type =>
          simp only [runTask, onpacket]; split
          · exact .inl (calm_onclose _ _ _ _).now
          · exact .inl rfl
      · exact .inl rfl
    case next k i err =>
      unfold next; split
      · exact .inl rfl
      · split
        · dsimp only; split <;> exact .inl rfl
        · exact .inl rfl
    case «of» name => split <;> exact .inl rfl
    case use n => split <;> exact .inl rfl
    case setData ref v => split <;> exact .inl rfl
    case clock t => exact .inr ⟨t, rfl, rfl⟩

theorem storeOps_times (cfg : Cfg) (n : Nat) (h : List Ev) (hc : ClockOk cfg h) :
    Monotone (storeOps cfg n h) ∧ ∀ x ∈ storeOps cfg n h, x.1 ≤ (run cfg h).now := by
  induction h using snocRec with
  | nil => exact ⟨List.Pairwise.nil, fun x hx => by simp [storeOps] at hx⟩
  | append_singleton h e ih =>
    obtain ⟨i1, i2⟩ := ih fun p t hpre => hc p t (hpre.trans (List.prefix_append _ _))
    rw [storeOps_snoc, run_snoc]
    have hnow : (run cfg h).now ≤ (step cfg (run cfg h) e).now := by
      rcases now_step cfg (run cfg h) e with h1 | ⟨t, rfl, h1⟩
      · rw [h1]; exact Int.le_refl _
      · rw [h1]; exact hc h t (List.prefix_refl _)
    have hb : ∀ x ∈ storedBy cfg n (run cfg h) e, x.1 = (run cfg h).now := by
      intro x hx
      obtain ⟨op, -, rfl⟩ := List.mem_map.1 hx
      rfl
    refine ⟨List.pairwise_append.2 ⟨i1, ?_, fun x hx y hy => by rw [hb y hy]; exact i2 x hx⟩, fun x hx => ?_⟩
    · unfold storedBy
      rw [List.pairwise_map]
      exact List.pairwise_iff_getElem.2 fun _ _ _ _ _ => Int.le_refl _
    · rcases List.mem_append.1 hx with hx | hx
      · exact Int.le_trans (i2 x hx) hnow
      · rw [hb x hx]; exact hnow

/-- Every broadcast reaches the session store with options, and every session stored was saved by a socket. -/
theorem storeOps_mem (cfg : Cfg) {sc : Session.Cfg} {b : Bool} (hr : cfg.recovery = some (sc, b)) (n : Nat) (h : List Ev)
    (x : Int × Session.Op) (hx : x ∈ storeOps cfg n h) :
    (∀ p o, x.2 = .broadcast p o → optRooms o ≠ none) ∧
    ∀ s, x.2 = .persist s → ∃ ref, Obs.saved ref s ∈ (run cfg h).log ∧ ((run cfg h).socks ref).ns = n := by
  induction h using snocRec with
  | nil => simp [storeOps] at hx
  | append_singleton h e ih =>
    have hs := (inv_run cfg h).1
    have st := stores_run cfg hr h
    have hk := kept_step cfg (run cfg h) e
    obtain ⟨⟨ext, e1⟩, s1, -⟩ := storeOk_step cfg hr st.fresh e
    rw [storeOps_snoc, List.mem_append] at hx
    rw [run_snoc]
    rcases hx with hx | hx
    · obtain ⟨i1, i2⟩ := ih hx
      refine ⟨i1, fun s he => ?_⟩
      obtain ⟨ref, h1, h2⟩ := i2 s he
      exact ⟨ref, by rw [← e1]; exact List.mem_append_left _ h1, by rw [hk.ns _ (st.owned ref s h1).1]; exact h2⟩
    · obtain ⟨op, hop, rfl⟩ := List.mem_map.1 hx
      rcases List.mem_append.1 hop with hop | hop
      · unfold asked at hop
        split at hop
        · split at hop <;> simp at hop; subst hop
          exact ⟨fun p o he => by cases he; simp [optRooms], fun s he => by cases he⟩
        · split at hop <;> simp at hop; subst hop
          exact ⟨fun p o he => by cases he; simp [optRooms], fun s he => by cases he⟩
        · split at hop <;> simp at hop; subst hop
          exact ⟨fun p o he => (by cases he), fun s he => (by cases he)⟩
        · split at hop <;> simp at hop; subst hop
          exact ⟨fun p o he => (by cases he), fun s he => (by cases he)⟩
        · simp at hop
      · obtain ⟨o, ho, hso⟩ := List.mem_filterMap.1 hop
        cases o <;> simp only [savedIn] at hso <;> try (simp at hso)
        rename_i ref s
        obtain ⟨hns, rfl⟩ := hso
        refine ⟨fun p o he => by simp at he, fun s' he => ?_⟩
        cases he
        obtain ⟨a1, -⟩ := s1 ref s ho
        exact ⟨ref, List.mem_of_mem_drop ho, by rw [hk.ns _ (hs.conn _ a1)]; exact hns⟩

theorem fullLog_opts (cfg : Cfg) {sc : Session.Cfg} {b : Bool} (hr : cfg.recovery = some (sc, b)) (n : Nat) (h : List Ev) :
    ∀ q ∈ fullLog sc.yeast (storeOps cfg n h), optRooms q.opts ≠ none := by
  intro q hq
  unfold fullLog at hq
  obtain ⟨y, hy, rfl⟩ := List.mem_map.1 hq
  have hy := List.fst_mem_of_mem_zipIdx hy
  obtain ⟨x, hx, hxy⟩ := List.mem_filterMap.1 hy
  obtain ⟨t, op⟩ := x
  cases op with
  | broadcast p o =>
    have := (storeOps_mem cfg hr n h _ hx).1 p o rfl
    rw [Session.storable_broadcast] at hxy
    split at hxy
    · split at hxy
      · dsimp only; rw [← Option.some.inj hxy]; exact this
      · simp at hxy
    · simp at hxy
  | _ => simp [storable] at hxy

/-! ## Recovered sockets -/

theorem inRoom_foldl (sid : Sid) (rooms : List Room) (a : Ad) (h : Inv a) :
    Inv (rooms.foldl (fun a r => (addAll a sid [r]).1) a) ∧
    (∀ s r, (rooms.foldl (fun a r => (addAll a sid [r]).1) a).inRoom s r ↔ a.inRoom s r ∨ (s = sid ∧ r ∈ rooms)) := by
  induction rooms generalizing a with
  | nil => exact ⟨h, fun s r => by simp⟩
  | cons x l ih =>
    obtain ⟨i1, i2, -⟩ := addAll_spec h sid [x]
    obtain ⟨j1, j2⟩ := ih _ i1
    refine ⟨j1, fun s r => ?_⟩
    rw [List.foldl_cons, j2, i2]
    simp only [List.mem_cons, List.not_mem_nil, or_false]
    constructor
    · rintro ((h | ⟨h1, h2⟩) | ⟨h1, h2⟩)
      · exact .inl h
      · exact .inr ⟨h1, .inl h2⟩
      · exact .inr ⟨h1, .inr h2⟩
    · rintro (h | ⟨h1, h2 | h2⟩)
      · exact .inl (.inl h)
      · exact .inl (.inr ⟨h1, h2⟩)
      · exact .inr ⟨h1, h2⟩

/-- A socket whose session is restored. -/
theorem add_recovered {w : W} (hs : InvS w) {cfg : Cfg} {sc : Session.Cfg} {b : Bool} (hr : cfg.recovery = some (sc, b)) (n c : Nat)
    (pid : Session.Pid) (off : String) (s : Session.Sess) (missed : List (List Val))
    (hres : (Session.restore sc w.now pid off (w.nss n).sess).2 = .ok s missed) (ho : (w.clients c).conn = .opened) :
    ((add cfg w n c (some (pid, off))).socks w.nSock =
      { ns := n, client := c, sid := s.sid, pid := s.pid, data := s.data, recovered := true, connected := b }) ∧
    (∀ room ∈ s.rooms, ((add cfg w n c (some (pid, off))).nss n).ad.inRoom s.sid room) ∧
    (add cfg w n c (some (pid, off))).log = w.log ++
      missed.map (fun l => .packet c (some w.nSock) { type := .event, data := .args l, nsp := (w.nss n).name }) ++
      (if b then [.packet c (some w.nSock)
          { type := .connect, nsp := (w.nss n).name, data := if (w.clients c).proto3 then .nil else .connect s.sid s.pid },
        .connection w.nSock] else []) := by
  have hc : createSocket cfg w n c (some (pid, off)) =
      recoverSocket (setNs w n fun k => { k with sess := (Session.restore sc w.now pid off (w.nss n).sess).1 }) n c s missed := by
    unfold createSocket; rw [hr]; dsimp only; rw [hres]
  obtain ⟨v, hv⟩ : ∃ v, v = createSocket cfg w n c (some (pid, off)) := ⟨_, rfl⟩
  have hroom := inRoom_foldl s.sid s.rooms (w.nss n).ad (hs.ad n)
  rw [recover_eq] at hc
  simp only [setNs, upd_same, ho, if_true] at hc
  rw [← hv] at hc
  have v1 : v.socks w.nSock = { ns := n, client := c, sid := s.sid, pid := s.pid, data := s.data, recovered := true } := by rw [hc]; simp
  have v2 : (v.nss n).ad = s.rooms.foldl (fun a r => (addAll a s.sid [r]).1) (w.nss n).ad := by rw [hc]; simp
  have v3 : v.log = w.log ++ missed.map (fun l => .packet c (some w.nSock) { type := .event, data := .args l, nsp := (w.nss n).name }) := by
    rw [hc]
  have v4 : v.clients = w.clients := by rw [hc]
  have v5 : (v.nss n).name = (w.nss n).name := by rw [hc]; simp
  have v2' : ∀ room ∈ s.rooms, (v.nss n).ad.inRoom s.sid room := fun room hm => by
    rw [v2, hroom.2]; exact .inr ⟨rfl, hm⟩
  have hsk : skips cfg = b := by unfold skips; rw [hr]
  unfold add; dsimp only; rw [← hv]
  cases b with
  | true =>
    rw [if_pos ⟨hsk, by rw [v1], by rw [v4]; exact ho⟩]
    obtain ⟨d1, d2, -, -, -, -, -, -, -, -, d11⟩ := doConnect_fields v w.nSock
    refine ⟨by rw [d2, upd_same, v1], fun room hm => ?_, ?_⟩
    · rw [d1, v1, upd_same]
      simp only [nsConnected, v1, if_true]
      have hi : Inv (v.nss n).ad := by rw [v2]; exact hroom.1
      rw [(addAll_spec hi _ _).2.1]
      exact .inl (v2' room hm)
    · rw [d11 (by rw [v1, v4]; exact ho), v3, v1, connectPkt, v1, v4]
      dsimp only
      rw [v5]; simp
  | false =>
    rw [if_neg (by rw [hsk]; simp)]
    split
    · exact ⟨v1, v2', by simp [v3]⟩
    · exact ⟨v1, v2', by simp [v3]⟩

/-- A socket without a session. -/
theorem add_fresh (cfg : Cfg) (w : W) (n c : Nat) (auth : Option (Session.Pid × String))
    (hres : ∀ sc b pid off, cfg.recovery = some (sc, b) → auth = some (pid, off) →
      ∀ s missed, (Session.restore sc w.now pid off (w.nss n).sess).2 ≠ .ok s missed) :
    (add cfg w n c auth).socks w.nSock =
      { ns := n, client := c, sid := freshSid cfg w n c, pid := if cfg.recovery.isSome then cfg.newPid w.nSock else "" } ∧
    (add cfg w n c auth).log = w.log := by
  have hc : (createSocket cfg w n c auth).socks w.nSock =
      { ns := n, client := c, sid := freshSid cfg w n c, pid := if cfg.recovery.isSome then cfg.newPid w.nSock else "" } ∧
      (createSocket cfg w n c auth).log = w.log := by
    unfold createSocket; split
    · rename_i sc b pid off hr
      dsimp only; split
      · rename_i s missed he
        exact absurd he (hres sc b pid off hr rfl s missed)
      · simp [newSocket, alloc, setNs, freshSid]
    · simp [newSocket, alloc]
  unfold add; dsimp only; split
  · rename_i h
    rw [hc.1] at h; simp at h
  · split <;> exact hc

end Verif.World
