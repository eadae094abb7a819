import Verif.Proof.WorldIds
import Verif.Proof.Session
import Verif.Spec.Secret

/-! # The server: what clients are told -/

namespace Verif.World
open Verif Verif.Adapter Verif.Spec

/-- The part of a socket that never changes. -/
def Sock.ident (s : Sock) : Nat × Nat × Sid × Session.Pid × Bool := (s.ns, s.client, s.sid, s.pid, s.recovered)

section
variable (cfg : Cfg) (h : List Ev)

/-- Where a socket has its ids from. -/
def SourcedIds (w : W) (r : Nat) : Prop :=
  ((w.socks r).recovered = false ∧ (w.socks r).pid = pidFor cfg r) ∨
  ((w.socks r).recovered = true ∧ Presents h (w.socks r).client (w.socks r).pid ∧
    ∃ r0, r0 < r ∧ (w.socks r0).ns = (w.socks r).ns ∧ (w.socks r0).sid = (w.socks r).sid ∧ (w.socks r0).pid = (w.socks r).pid)

/-- A packet that client `c` may be sent. -/
def MayTell (w : W) (c : Nat) (p : Pkt) : Prop :=
  (p.type = .connect ∧ (p.data = .nil ∨ ∃ r, r < w.nSock ∧ (w.socks r).client = c ∧ p.data = .connect (w.socks r).sid (w.socks r).pid)) ∨
  (p.type = .event ∧ ∃ l, p.data = .args l ∧ WithOffset cfg h l) ∨
  (p.type = .connectError ∧ (p.data = .error "Invalid namespace" none ∨ ∃ b e, Refuses h e ∧ p.data = errorData b e)) ∨
  (p.type = .disconnect ∧ p.data = .nil)

/-- A session that belongs to a socket of namespace `n`. -/
def OwnsSess (w : W) (n : Nat) (x : Session.Sess) : Prop :=
  ∃ r, r < w.nSock ∧ (w.socks r).ns = n ∧ (w.socks r).sid = x.sid ∧ (w.socks r).pid = x.pid

structure SessOk (w : W) (n : Nat) (s : Session.St) : Prop where
  sess : ∀ e ∈ s.sessions, e.2.1.pid = e.1 ∧ OwnsSess w n e.2.1
  kept : ∀ q ∈ s.packets, WithOffset cfg h q.data

structure Sec (w : W) : Prop where
  sock : ∀ r, r < w.nSock → SourcedIds cfg h w r
  store : ∀ n, SessOk cfg h w n (w.nss n).sess
  log : ∀ c ref p, .packet c ref p ∈ w.log → MayTell cfg h w c p
  task : ∀ ref e, .result ref (some e) ∈ w.tasks → Refuses h e
  conn : ∀ r, (w.socks r).connected = true → r < w.nSock
  refs : ∀ ref e, .result ref e ∈ w.tasks → ref < w.nSock
end

variable {cfg : Cfg} {h : List Ev}

/-- Nothing that matters for `Sec` changed but the log and the tasks. -/
structure SameIds (w w' : W) : Prop where
  n : w'.nSock = w.nSock
  ident : ∀ r, (w'.socks r).ident = (w.socks r).ident
  conn : ∀ r, (w'.socks r).connected = true → (w.socks r).connected = true

theorem ident_eq {a b : Sock} (e : a.ident = b.ident) : a.ns = b.ns ∧ a.client = b.client ∧ a.sid = b.sid ∧ a.pid = b.pid ∧ a.recovered = b.recovered := by
  simp only [Sock.ident, Prod.mk.injEq] at e
  exact ⟨e.1, e.2.1, e.2.2.1, e.2.2.2.1, e.2.2.2.2⟩

theorem sourced_same {w w' : W} (i : ∀ r, (w'.socks r).ident = (w.socks r).ident) {r : Nat} (o : SourcedIds cfg h w r) : SourcedIds cfg h w' r := by
  obtain ⟨a, b, c, d, e⟩ := ident_eq (i r)
  rcases o with ⟨o1, o2⟩ | ⟨o1, o2, r0, h0, h1, h2, h3⟩
  · exact .inl ⟨by rw [e]; exact o1, by rw [d]; exact o2⟩
  · obtain ⟨a', b', c', d', e'⟩ := ident_eq (i r0)
    exact .inr ⟨by rw [e]; exact o1, by rw [b, d]; exact o2, r0, h0, by rw [a, a']; exact h1, by rw [c, c']; exact h2, by rw [d, d']; exact h3⟩

theorem fit_same {w w' : W} (n : w.nSock ≤ w'.nSock) (i : ∀ r, r < w.nSock → (w'.socks r).ident = (w.socks r).ident) {c : Nat} {p : Pkt} (f : MayTell cfg h w c p) :
    MayTell cfg h w' c p := by
  rcases f with ⟨f1, f2 | ⟨r, f2, f3, f4⟩⟩ | f | f
  · exact .inl ⟨f1, .inl f2⟩
  · obtain ⟨a, b, c, d, e⟩ := ident_eq (i r f2)
    exact .inl ⟨f1, .inr ⟨r, Nat.lt_of_lt_of_le f2 n, by rw [b]; exact f3, by rw [c, d]; exact f4⟩⟩
  · exact .inr (.inl f)
  · exact .inr (.inr f)

theorem owns_same {w w' : W} (n : w.nSock ≤ w'.nSock) (i : ∀ r, r < w.nSock → (w'.socks r).ident = (w.socks r).ident) {m : Nat} {x : Session.Sess}
    (f : OwnsSess w m x) : OwnsSess w' m x := by
  obtain ⟨r, h1, h2, h3, h4⟩ := f
  obtain ⟨a, b, c, d, e⟩ := ident_eq (i r h1)
  exact ⟨r, Nat.lt_of_lt_of_le h1 n, by rw [a]; exact h2, by rw [c]; exact h3, by rw [d]; exact h4⟩

theorem SessOk.same {w w' : W} (n : w.nSock ≤ w'.nSock) (i : ∀ r, r < w.nSock → (w'.socks r).ident = (w.socks r).ident) {m : Nat} {s : Session.St}
    (f : SessOk cfg h w m s) : SessOk cfg h w' m s :=
  ⟨fun e he => ⟨(f.sess e he).1, owns_same n i (f.sess e he).2⟩, f.kept⟩

theorem Sec.frame {w w' : W} (s : Sec cfg h w) (m : SameIds w w') (st : ∀ n, SessOk cfg h w' n (w'.nss n).sess)
    (ext : List Obs) (hl : w'.log = w.log ++ ext) (he : ∀ c ref p, .packet c ref p ∈ ext → MayTell cfg h w' c p)
    (ht : ∀ t, t ∈ w'.tasks → t ∈ w.tasks) : Sec cfg h w' where
  sock r hr := sourced_same m.ident (s.sock r (by rw [← m.n]; exact hr))
  store := st
  log c ref p hp := by
    rw [hl] at hp
    rcases List.mem_append.mp hp with hp | hp
    · exact fit_same (Nat.le_of_eq m.n.symm) (fun r _ => m.ident r) (s.log c ref p hp)
    · exact he c ref p hp
  task ref e hm := s.task ref e (ht _ hm)
  conn r hr := by rw [m.n]; exact s.conn r (m.conn r hr)
  refs ref e hm := by rw [m.n]; exact s.refs ref e (ht _ hm)

theorem SameIds.refl (w : W) : SameIds w w := ⟨rfl, fun _ => rfl, fun _ h => h⟩

theorem SameIds.of_socks {w w' : W} (h1 : w'.nSock = w.nSock) (h2 : w'.socks = w.socks) : SameIds w w' :=
  ⟨h1, fun r => by rw [h2], fun r hr => by rw [h2] at hr; exact hr⟩

theorem SameIds.set (w : W) (ref : Nat) (f : Sock → Sock) (h1 : (f (w.socks ref)).ident = (w.socks ref).ident)
    (h2 : (f (w.socks ref)).connected = true → (w.socks ref).connected = true) : SameIds w (setSock w ref f) where
  n := rfl
  ident r := by
    by_cases e : r = ref
    · subst e; simp [setSock, upd_same, h1]
    · simp only [setSock]; rw [upd_ne _ _ e]
  conn r hr := by
    by_cases e : r = ref
    · subst e; simp only [setSock, upd_same] at hr; exact h2 hr
    · simp only [setSock] at hr; rw [upd_ne _ _ e] at hr; exact hr

/-- Nothing is said, no session changes. -/
theorem Sec.quiet {w w' : W} (s : Sec cfg h w) (m : SameIds w w') (hs : ∀ n, (w'.nss n).sess = (w.nss n).sess) (hl : w'.log = w.log)
    (ht : ∀ t, t ∈ w'.tasks → t ∈ w.tasks) : Sec cfg h w' :=
  s.frame m (fun n => by rw [hs]; exact (s.store n).same (Nat.le_of_eq m.n.symm) fun r _ => m.ident r) [] (by simp [hl]) (by simp) ht

theorem Sec.obs {w : W} (s : Sec cfg h w) (o : Obs) (ho : ∀ c ref p, o = .packet c ref p → MayTell cfg h w c p) : Sec cfg h (obs w o) :=
  s.frame (SameIds.of_socks rfl rfl) (fun n => ⟨(s.store n).sess, (s.store n).kept⟩) [o] rfl (fun c ref p hp => by
    simp at hp; exact ho c ref p hp.symm) fun t ht => ht

theorem Sec.packet {w : W} (s : Sec cfg h w) (c : Nat) (ref : Option Nat) (p : Pkt) (hp : MayTell cfg h w c p) : Sec cfg h (clientPacket w c ref p) := by
  unfold clientPacket
  by_cases ho : (w.clients c).conn = .opened
  · rw [if_pos ho]
    exact s.obs _ fun c' ref' p' e => by cases e; exact hp
  · rw [if_neg ho]; exact s

theorem Sec.ns {w : W} (s : Sec cfg h w) (n : Nat) (f : Ns → Ns) (hf : (f (w.nss n)).sess = (w.nss n).sess) : Sec cfg h (setNs w n f) :=
  s.quiet (SameIds.of_socks rfl rfl) (fun m => by
    simp only [setNs]
    by_cases e : m = n
    · subst e; rw [upd_same]; exact hf
    · rw [upd_ne _ _ e]) rfl fun t ht => ht

theorem Sec.nsStore {w : W} (s : Sec cfg h w) (n : Nat) (f : Ns → Ns) (hf : SessOk cfg h w n (f (w.nss n)).sess) : Sec cfg h (setNs w n f) :=
  s.frame (SameIds.of_socks rfl rfl) (fun m => by
    simp only [setNs]
    by_cases e : m = n
    · subst e; rw [upd_same]; exact ⟨hf.sess, hf.kept⟩
    · rw [upd_ne _ _ e]; exact ⟨(s.store m).sess, (s.store m).kept⟩) [] (by simp [setNs]) (by simp) fun t ht => ht

theorem Sec.client {w : W} (s : Sec cfg h w) (c : Nat) (f : Client → Client) : Sec cfg h (setClient w c f) :=
  s.quiet (SameIds.of_socks rfl rfl) (fun m => rfl) rfl fun t ht => ht

theorem Sec.foldl {α : Type} (f : W → α → W) (hf : ∀ w a, Sec cfg h w → Sec cfg h (f w a)) (l : List α) {w : W} (s : Sec cfg h w) :
    Sec cfg h (l.foldl f w) := by
  induction l generalizing w with
  | nil => exact s
  | cons a l ih => exact ih (hf w a s)

theorem Sec.join {w : W} (s : Sec cfg h w) (ref : Nat) (rooms : List Room) : Sec cfg h (join w ref rooms) := by
  unfold World.join; split
  · exact s.ns _ _ rfl
  · exact s

theorem Sec.leave {w : W} (s : Sec cfg h w) (ref : Nat) (room : Room) : Sec cfg h (leave cfg w ref room) := s.ns _ _ rfl

theorem Sec.act {w : W} (s : Sec cfg h w) (a : Act) : Sec cfg h (act cfg w a) := by
  cases a <;> simp only [World.act] <;> split
  · exact s.join _ _
  · exact s
  · exact s.leave _ _
  · exact s

theorem Sec.autoClean {w : W} (s : Sec cfg h w) (n : Nat) : Sec cfg h (autoClean w n) := by
  unfold World.autoClean; split
  · exact s.quiet (SameIds.of_socks rfl rfl) (fun m => rfl) rfl fun t ht => ht
  · exact s

theorem Sec.cleanup {w : W} (s : Sec cfg h w) (ref : Nat) : Sec cfg h (cleanup cfg w ref) := by
  unfold World.cleanup nsRemove leaveAll
  dsimp only
  refine Sec.quiet (Sec.autoClean ((s.ns _ _ ?_).ns _ _ ?_) _) (SameIds.set _ _ _ rfl fun e => e) (fun n => rfl) rfl fun t ht => ht
  · rfl
  · rfl

theorem Sec.clientRemove {w : W} (s : Sec cfg h w) (ref : Nat) : Sec cfg h (clientRemove w ref) := by
  unfold World.clientRemove; dsimp only; split
  · exact s.client _ _
  · exact s

theorem Sec.persist {w : W} (s : Sec cfg h w) (ref : Nat) (reason : String) (hr : ref < w.nSock) : Sec cfg h (persist cfg w ref reason) := by
  unfold World.persist; split
  · dsimp only
    refine (s.nsStore _ _ ?_).obs _ (by intro _ _ _ e; cases e)
    refine ⟨?_, (s.store _).kept⟩
    intro e he
    simp only [Session.persist, FMap.insert, FMap.erase] at he
    rcases List.mem_cons.mp he with rfl | he
    · exact ⟨rfl, ref, hr, rfl, rfl, rfl⟩
    · exact (s.store _).sess e ((List.mem_filter.mp he).1)
  · exact s

theorem act_socksSec (w : W) (a : Act) : (act cfg w a).socks = w.socks ∧ (act cfg w a).nSock = w.nSock := by
  cases a <;> simp only [act] <;> split <;> (try exact ⟨rfl, rfl⟩)
  unfold join; split <;> exact ⟨rfl, rfl⟩

theorem acts_socksSec (l : List Act) (w : W) : (l.foldl (act cfg) w).socks = w.socks ∧ (l.foldl (act cfg) w).nSock = w.nSock := by
  induction l generalizing w with
  | nil => exact ⟨rfl, rfl⟩
  | cons a l ih =>
    obtain ⟨h1, h2⟩ := act_socksSec (cfg := cfg) w a
    obtain ⟨h3, h4⟩ := ih (act cfg w a)
    exact ⟨h3.trans h1, h4.trans h2⟩

theorem Sec.onclose {w : W} (s : Sec cfg h w) (ref : Nat) (reason : String) : Sec cfg h (onclose cfg w ref reason) := by
  unfold World.onclose
  by_cases hc : (w.socks ref).connected = true
  · rw [if_pos hc]
    have hr := s.conn ref hc
    dsimp only
    have s1 := s.obs (.disconnecting ref reason) (by intro _ _ _ e; cases e)
    have s2 := Sec.foldl (World.act cfg) (fun w a s => s.act a) (cfg.hook ref) s1
    have s3 := s2.persist ref reason (by rw [(acts_socksSec _ _).2]; exact hr)
    have s4 := (s3.cleanup ref).clientRemove ref
    have s5 : Sec cfg h (setSock (World.clientRemove (World.cleanup cfg (World.persist cfg ((cfg.hook ref).foldl (World.act cfg)
        (World.obs w (.disconnecting ref reason))) ref reason) ref) ref) ref fun s => { s with connected := false }) :=
      s4.quiet (SameIds.set _ _ _ rfl (fun e => (by cases e))) (fun n => rfl) rfl fun t ht => ht
    exact s5.obs (.disconnect ref reason) (by intro _ _ _ e; cases e)
  · rw [if_neg hc]; exact s

theorem Sec.disconnectNs {w : W} (s : Sec cfg h w) (ref : Nat) : Sec cfg h (disconnectNs cfg w ref) := by
  unfold World.disconnectNs; split
  · exact (s.packet _ _ _ (.inr (.inr (.inr ⟨rfl, rfl⟩)))).onclose _ _
  · exact s

theorem Sec.eachSocket {w : W} (s : Sec cfg h w) (c : Nat) (body : W → Nat → W) (hb : ∀ w r, Sec cfg h w → Sec cfg h (body w r)) (sid : Sid) :
    Sec cfg h (eachSocket c body w sid) := by
  unfold World.eachSocket; split
  · exact hb _ _ s
  · exact s

theorem Sec.clientOnclose {w : W} (s : Sec cfg h w) (c : Nat) (reason : String) : Sec cfg h (clientOnclose cfg w c reason) := by
  unfold World.clientOnclose
  exact (Sec.foldl _ (fun w a s => s.eachSocket c _ (fun w r s => s.onclose r reason) a) _ (s.client c _)).client c _

theorem Sec.connClose {w : W} (s : Sec cfg h w) (c : Nat) : Sec cfg h (connClose cfg w c) := by
  unfold World.connClose; split
  · dsimp only
    split
    · split
      · exact (s.client c _).clientOnclose c _
      · exact s.client c _
    · exact s.client c _
  · exact s

theorem Sec.clientClose {w : W} (s : Sec cfg h w) (c : Nat) : Sec cfg h (clientClose cfg w c) := by
  unfold World.clientClose; split
  · exact (s.connClose c).clientOnclose c _
  · exact s

theorem Sec.clientDisconnect {w : W} (s : Sec cfg h w) (c : Nat) : Sec cfg h (clientDisconnect cfg w c) := by
  unfold World.clientDisconnect
  exact ((Sec.foldl _ (fun w a s => s.eachSocket c _ (fun w r s => s.disconnectNs r) a) _ s).client c _).clientClose c

theorem Sec.disconnect {w : W} (s : Sec cfg h w) (status : Bool) (ref : Nat) : Sec cfg h (disconnect cfg status w ref) := by
  unfold World.disconnect; split
  · split
    · exact s.clientDisconnect _
    · exact s.disconnectNs _
  · exact s

theorem Sec.closeNs {w : W} (s : Sec cfg h w) (name : String) : Sec cfg h (closeNs cfg w name) := by
  unfold World.closeNs; split
  · exact s
  · refine Sec.foldl _ (fun w a s => ?_) _ s
    split
    · exact s.onclose _ _
    · exact s

theorem Sec.timerFires {w : W} (s : Sec cfg h w) (c : Nat) : Sec cfg h (timerFires cfg w c) := by
  unfold World.timerFires; split
  · dsimp only
    split
    · exact (s.client c _).clientClose c
    · exact s.client c _
  · exact s

theorem Sec.doConnect {w : W} (s : Sec cfg h w) (ref : Nat) (hr : ref < w.nSock) : Sec cfg h (doConnect w ref) := by
  unfold World.doConnect
  dsimp only
  have s1 := s.ns (w.socks ref).ns (fun k => { k with sockets := k.sockets.insert (w.socks ref).sid ref }) rfl
  generalize hw1 : setNs w (w.socks ref).ns (fun k => { k with sockets := k.sockets.insert (w.socks ref).sid ref }) = w1 at s1 ⊢
  have e1 : w1.socks = w.socks ∧ w1.nSock = w.nSock ∧ w1.nss = w1.nss := by subst hw1; exact ⟨rfl, rfl, rfl⟩
  have s2 : Sec cfg h (setSock w1 ref fun s => { s with connected := true }) := by
    have hi : ∀ r, ((setSock w1 ref fun s => { s with connected := true }).socks r).ident = (w1.socks r).ident := fun r => by
      by_cases e : r = ref
      · subst e; simp [setSock, upd_same, Sock.ident]
      · simp only [setSock]; rw [upd_ne _ _ e]
    refine ⟨fun r hr => sourced_same hi (s1.sock r hr), fun n => SessOk.same (w := w1) (w' := setSock w1 ref fun s => { s with connected := true })
      (Nat.le_refl _) (fun r _ => hi r) (s1.store n), fun c rf p hp => fit_same (w := w1) (w' := setSock w1 ref fun s => { s with connected := true })
      (Nat.le_refl _) (fun r _ => hi r) (s1.log c rf p hp), s1.task, ?_, s1.refs⟩
    intro r hc
    by_cases e : r = ref
    · subst e; show r < w1.nSock; rw [e1.2.1]; exact hr
    · simp only [setSock] at hc; rw [upd_ne _ _ e] at hc; exact s1.conn r hc
  have s3 := s2.join ref [(w.socks ref).sid]
  have hj : ∀ (v : W) rooms, (World.join v ref rooms).socks = v.socks ∧ (World.join v ref rooms).nSock = v.nSock := by
    intro v rooms; unfold World.join; split <;> exact ⟨rfl, rfl⟩
  have e3 : ((World.join (setSock w1 ref fun s => { s with connected := true }) ref [(w.socks ref).sid]).socks ref).ident = (w.socks ref).ident := by
    rw [(hj _ _).1]; simp [setSock, upd_same, Sock.ident, e1.1]
  have n3 : (World.join (setSock w1 ref fun s => { s with connected := true }) ref [(w.socks ref).sid]).nSock = w.nSock := by
    rw [(hj _ _).2]; exact e1.2.1
  generalize hw3 : World.join (setSock w1 ref fun s => { s with connected := true }) ref [(w.socks ref).sid] = w3 at s3 e3 n3 ⊢
  obtain ⟨-, i2, i3, i4, -⟩ := ident_eq e3
  have s4 := s3.packet (w3.socks ref).client (some ref)
    { type := .connect, nsp := (w3.nss (w3.socks ref).ns).name, data := if (w3.clients (w.socks ref).client).proto3 then .nil else .connect (w.socks ref).sid (w3.socks ref).pid }
    (.inl ⟨rfl, by
      by_cases hp : (w3.clients (w.socks ref).client).proto3 = true
      · exact .inl (by simp [hp])
      · exact .inr ⟨ref, by rw [n3]; exact hr, rfl, by simp [hp, i3]⟩⟩)
  exact (s4.client _ _).obs _ (by intro _ _ _ e; cases e)

/-- A new socket. -/
theorem Sec.alloc {w : W} (s : Sec cfg h w) (x : Sock) (hc : x.connected = false) (ho : SourcedIds cfg h (alloc w x) w.nSock) : Sec cfg h (alloc w x) := by
  have hi : ∀ r, r < w.nSock → ((World.alloc w x).socks r).ident = (w.socks r).ident := fun r hr => by
    simp only [World.alloc]; rw [upd_ne _ _ (Nat.ne_of_lt hr)]
  refine ⟨?_, fun n => (s.store n).same (Nat.le_succ _) hi, fun c ref p hp => fit_same (Nat.le_succ _) hi (s.log c ref p hp), s.task, ?_, ?_⟩
  · intro r hr
    by_cases e : r = w.nSock
    · subst e; exact ho
    · have hlt : r < w.nSock := by simp only [World.alloc] at hr; omega
      obtain ⟨a, b, c, d, e⟩ := ident_eq (hi r hlt)
      rcases s.sock r hlt with ⟨o1, o2⟩ | ⟨o1, o2, r0, h0, h1, h2, h3⟩
      · exact .inl ⟨by rw [e]; exact o1, by rw [d]; exact o2⟩
      · obtain ⟨a', b', c', d', e'⟩ := ident_eq (hi r0 (Nat.lt_trans h0 hlt))
        exact .inr ⟨by rw [e]; exact o1, by rw [b, d]; exact o2, r0, h0, by rw [a, a']; exact h1, by rw [c, c']; exact h2, by rw [d, d']; exact h3⟩
  · intro r hr
    by_cases e : r = w.nSock
    · subst e; simp [World.alloc, upd_same, hc] at hr
    · simp only [World.alloc] at hr ⊢; rw [upd_ne _ _ e] at hr; exact Nat.lt_succ_of_lt (s.conn r hr)
  · intro ref e hm; exact Nat.lt_succ_of_lt (s.refs ref e hm)

theorem restore_ok (sc : Session.Cfg) (now : Int) (pid : Session.Pid) (off : String) {w : W} {n : Nat} {s : Session.St} (ok : SessOk cfg h w n s) :
    SessOk cfg h w n (Session.restore sc now pid off s).1 ∧
    ∀ x missed, (Session.restore sc now pid off s).2 = .ok x missed → x.pid = pid ∧ OwnsSess w n x ∧ ∀ l ∈ missed, WithOffset cfg h l := by
  have hcollect : ∀ (rooms : List Room) (ps : List Session.Stored) (l : List (List Val)), Session.collect rooms ps = some l →
      ∀ x ∈ l, ∃ q ∈ ps, q.data = x := by
    intro rooms ps
    induction ps with
    | nil => intro l e; simp [Session.collect] at e; subst e; simp
    | cons q ps ih =>
      intro l e x hx
      unfold Session.collect at e
      split at e
      · rename_i l' _ hl'
        cases e
        rcases List.mem_cons.mp hx with rfl | hx
        · exact ⟨q, by simp, rfl⟩
        · obtain ⟨q', h1, h2⟩ := ih _ hl' x hx; exact ⟨q', by simp [h1], h2⟩
      · rename_i l' _ hl'
        cases e
        obtain ⟨q', h1, h2⟩ := ih _ hl' x hx; exact ⟨q', by simp [h1], h2⟩
      · cases e
  have hafter : ∀ (ps rest : List Session.Stored), Session.afterOffset off ps = some rest → ∀ q ∈ rest, q ∈ ps := by
    intro ps
    induction ps with
    | nil => intro rest e; simp [Session.afterOffset] at e
    | cons q ps ih =>
      intro rest e x hx
      simp only [Session.afterOffset] at e
      split at e
      · cases e; exact List.mem_cons_of_mem _ hx
      · exact List.mem_cons_of_mem _ (ih rest e x hx)
  unfold Session.restore
  split
  · exact ⟨ok, by intro _ _ e; cases e⟩
  · rename_i x t hx
    split
    · refine ⟨⟨?_, ok.kept⟩, by intro _ _ e; cases e⟩
      exact fun e he => ok.sess e ((List.mem_filter.mp he).1)
    · split
      · exact ⟨ok, by intro _ _ e; cases e⟩
      · rename_i ps hps
        split
        · rename_i missed hm
          refine ⟨ok, ?_⟩
          intro x' missed' e
          cases e
          obtain ⟨o1, o2⟩ := ok.sess _ (FMap.mem_of_get? hx)
          refine ⟨o1, o2, fun l hl => ?_⟩
          obtain ⟨q, hq, rfl⟩ := hcollect _ _ _ hm l hl
          exact ok.kept q (hafter _ _ hps q hq)
        · exact ⟨ok, by intro _ _ e; cases e⟩

theorem Sec.newSocket {w : W} (s : Sec cfg h w) (n c : Nat) : Sec cfg h (newSocket cfg w n c) :=
  s.alloc _ rfl (.inl ⟨by simp [World.alloc, upd_same], by simp [World.alloc, upd_same, pidFor]⟩)

theorem Sec.recoverSocket {w : W} (s : Sec cfg h w) (n c : Nat) (x : Session.Sess) (missed : List (List Val)) (hp : Presents h c x.pid)
    (ho : OwnsSess w n x) (hm : ∀ l ∈ missed, WithOffset cfg h l) : Sec cfg h (recoverSocket w n c x missed) := by
  unfold World.recoverSocket
  dsimp only
  obtain ⟨r0, h1, h2, h3, h4⟩ := ho
  have s1 : Sec cfg h (World.alloc w { ns := n, client := c, sid := x.sid, pid := x.pid, data := x.data, recovered := true }) := by
    refine s.alloc _ rfl (.inr ?_)
    simp only [World.alloc, upd_same]
    exact ⟨trivial, hp, r0, h1, by rw [upd_ne _ _ (Nat.ne_of_lt h1)]; exact h2, by rw [upd_ne _ _ (Nat.ne_of_lt h1)]; exact h3,
      by rw [upd_ne _ _ (Nat.ne_of_lt h1)]; exact h4⟩
  have s2 := Sec.foldl (fun v r => World.join v w.nSock [r]) (fun v r s => s.join w.nSock [r]) x.rooms s1
  generalize x.rooms.foldl (fun v r => World.join v w.nSock [r]) _ = v at s2 ⊢
  clear s1
  induction missed generalizing v with
  | nil => exact s2
  | cons l ls ih =>
    refine ih (fun l hl => hm l (by simp [hl])) _ (s2.packet _ _ _ (.inr (.inl ⟨rfl, l, rfl, hm l (by simp)⟩)))

theorem Sec.createSocket {w : W} (s : Sec cfg h w) (n c : Nat) (auth : Option (Session.Pid × String))
    (ha : ∀ pid off, auth = some (pid, off) → Presents h c pid) : Sec cfg h (createSocket cfg w n c auth) := by
  unfold World.createSocket
  split
  · rename_i sc skip pid off hrec
    have hp := ha pid off rfl
    obtain ⟨k1, k2⟩ := restore_ok (cfg := cfg) (h := h) sc w.now pid off (s.store n)
    have s1 := s.nsStore n (fun k => { k with sess := (Session.restore sc w.now pid off (w.nss n).sess).1 }) k1
    dsimp only
    split
    · rename_i x missed hx
      obtain ⟨o1, o2, o3⟩ := k2 x missed hx
      exact s1.recoverSocket n c x missed (by rw [o1]; exact hp) o2 o3
    · exact s1.newSocket n c
  · exact s.newSocket n c

theorem createSocket_n (w : W) (n c : Nat) (auth : Option (Session.Pid × String)) : w.nSock < (createSocket cfg w n c auth).nSock := by
  have p : Prim0 fun a b : W => b.nSock = a.nSock :=
    ⟨fun _ => rfl, fun h1 h2 => h2.trans h1, fun w c ref x => by unfold clientPacket; split <;> rfl, fun w n f hf => rfl⟩
  obtain ⟨x, h1, -⟩ := createSocket_rel cfg p w n c auth
  rw [h1]; exact Nat.lt_succ_self _

/-- Only the tasks changed. -/
theorem Sec.tasks {w w' : W} (s : Sec cfg h w) (e1 : w'.socks = w.socks) (e2 : w'.nSock = w.nSock) (e3 : w'.nss = w.nss) (e4 : w'.log = w.log)
    (h1 : ∀ ref e, .result ref e ∈ w'.tasks → .result ref e ∈ w.tasks ∨ (ref < w.nSock ∧ ∀ x, e = some x → Refuses h x)) : Sec cfg h w' := by
  have s1 : Sec cfg h { w' with tasks := [] } :=
    s.quiet (SameIds.of_socks e2 e1) (fun n => by show (w'.nss n).sess = _; rw [e3]) e4 (by simp)
  refine ⟨s1.sock, fun n => ⟨(s1.store n).sess, (s1.store n).kept⟩, s1.log, ?_, s1.conn, ?_⟩
  · intro ref e hm
    rcases h1 ref _ hm with x | x
    · exact s.task ref e x
    · exact x.2 e rfl
  · intro ref e hm
    rw [e2]
    rcases h1 ref _ hm with x | x
    · exact s.refs ref e x
    · exact x.1

theorem Sec.add {w : W} (s : Sec cfg h w) (n c : Nat) (auth : Option (Session.Pid × String))
    (ha : ∀ pid off, auth = some (pid, off) → Presents h c pid) : Sec cfg h (add cfg w n c auth) := by
  have s1 := s.createSocket n c auth ha
  have hn := createSocket_n (cfg := cfg) w n c auth
  unfold World.add
  dsimp only
  split
  · exact s1.doConnect _ hn
  · split
    · refine s1.tasks rfl rfl rfl rfl fun ref e hm => ?_
      rcases List.mem_append.mp hm with hm | hm
      · exact .inl hm
      · simp at hm; exact .inr ⟨by rw [hm.1]; exact hn, by rw [hm.2]; simp⟩
    · exact s1.tasks rfl rfl rfl rfl fun ref e hm => .inl hm

theorem Sec.newNs {w : W} (s : Sec cfg h w) (k : Ns) (hk : k.sess = {}) : Sec cfg h (newNs w k) := by
  refine s.frame (SameIds.of_socks rfl rfl) (fun n => ?_) [] (by simp [World.newNs]) (by simp) fun t ht => ht
  simp only [World.newNs]
  by_cases e : n = w.nNs
  · subst e; rw [upd_same, hk]; exact ⟨fun e he => (by cases he), by simp⟩
  · rw [upd_ne _ _ e]; exact ⟨(s.store n).sess, (s.store n).kept⟩

theorem Sec.connect {w : W} (s : Sec cfg h w) (c : Nat) (name : String) (auth : Option (Session.Pid × String))
    (ha : ∀ pid off, auth = some (pid, off) → Presents h c pid) : Sec cfg h (connect cfg w c name auth) := by
  unfold World.connect; split
  · exact s.add _ c auth ha
  · split
    · exact (s.newNs _ rfl).add _ c auth ha
    · exact s.packet _ _ _ (.inr (.inr (.inl ⟨rfl, .inl rfl⟩)))

theorem Sec.broadcast {w : W} (s : Sec cfg h w) (n : Nat) (args : List Val) (id : Option Nat) (opts : Option Opts) (he : Emits h args) :
    Sec cfg h (broadcast cfg w n { type := .event, data := .args args, id := id } opts) := by
  have key : ∀ (v : W) (p : Pkt), Sec cfg h v → (p.type = .event ∧ ∃ l, p.data = .args l ∧ WithOffset cfg h l) →
      Sec cfg h (apply (view n) opts (fun w ref => sockPacket w ref p) v).1 := by
    intro v p sv hp
    refine apply_pres (Sec cfg h) (fun u _ r su _ => ?_) opts v sv
    exact su.packet _ _ _ (.inr (.inl hp))
  unfold World.broadcast
  split
  · rename_i sc skip hrec
    dsimp only
    have hb : (Session.broadcast sc w.now { type := .event, data := .args args, id := id } opts (w.nss n).sess) =
        ((w.nss n).sess, { type := .event, data := .args args, id := id }) ∨
        ∃ k, (Session.broadcast sc w.now { type := .event, data := .args args, id := id } opts (w.nss n).sess) =
          ({ (w.nss n).sess with packets := (w.nss n).sess.packets ++ [⟨sc.yeast k, w.now, args ++ [Val.str (sc.yeast k)], opts⟩], next := (w.nss n).sess.next + 1 },
            { type := .event, data := .args (args ++ [Val.str (sc.yeast k)]), id := id }) := by
      unfold Session.broadcast
      dsimp only
      split
      · exact .inr ⟨_, rfl⟩
      · exact .inl rfl
    rcases hb with e | ⟨k, e⟩
    · rw [e]
      exact key _ _ (s.ns _ _ rfl) ⟨rfl, args, rfl, .inl he⟩
    · rw [e]
      have hw : WithOffset cfg h (args ++ [Val.str (sc.yeast k)]) := .inr ⟨args, sc, skip, k, he, hrec, rfl⟩
      refine key _ _ (s.nsStore _ _ ⟨(s.store n).sess, ?_⟩) ⟨rfl, _, rfl, hw⟩
      intro q hq
      rcases List.mem_append.mp hq with hq | hq
      · exact (s.store n).kept q hq
      · simp at hq; rw [hq]; exact hw
  · exact key _ _ s ⟨rfl, args, rfl, .inl he⟩

theorem Sec.mono {w : W} {h' : List Ev} (s : Sec cfg h w) (hm : ∀ e ∈ h, e ∈ h') : Sec cfg h' w := by
  have hP : ∀ c pid, Presents h c pid → Presents h' c pid := fun c pid ⟨n, o, x⟩ => ⟨n, o, hm _ x⟩
  have hE : ∀ l, Emits h l → Emits h' l := by
    rintro l (⟨a, b, c, d, e, x⟩ | ⟨a, b, x⟩)
    · exact .inl ⟨a, b, c, d, e, hm _ x⟩
    · exact .inr ⟨a, b, hm _ x⟩
  have hO : ∀ l, WithOffset cfg h l → WithOffset cfg h' l := by
    rintro l (x | ⟨a, b, c, d, x, y, z⟩)
    · exact .inl (hE l x)
    · exact .inr ⟨a, b, c, d, hE _ x, y, z⟩
  have hR : ∀ e, Refuses h e → Refuses h' e := fun e ⟨k, i, x⟩ => ⟨k, i, hm _ x⟩
  refine ⟨?_, ?_, ?_, fun ref e x => hR e (s.task ref e x), s.conn, s.refs⟩
  · intro r hr
    rcases s.sock r hr with x | ⟨x1, x2, x3⟩
    · exact .inl x
    · exact .inr ⟨x1, hP _ _ x2, x3⟩
  · intro n
    exact ⟨(s.store n).sess, fun q hq => hO _ ((s.store n).kept q hq)⟩
  · intro c ref p hp
    rcases s.log c ref p hp with x | ⟨x1, l, x2, x3⟩ | ⟨x1, x2 | ⟨b, e, x2, x3⟩⟩ | x
    · exact .inl x
    · exact .inr (.inl ⟨x1, l, x2, hO l x3⟩)
    · exact .inr (.inr (.inl ⟨x1, .inl x2⟩))
    · exact .inr (.inr (.inl ⟨x1, .inr ⟨b, e, hR e x2, x3⟩⟩))
    · exact .inr (.inr (.inr x))

theorem Sec.step {w : W} (s : Sec cfg h w) (hr : Refs w) (e : Ev) (he : e ∈ h) : Sec cfg h (step cfg w e) := by
  cases e with
  | accept p =>
    simp only [World.step, World.accept]
    have s1 : Sec cfg h { w with
        clients := upd w.clients w.nClient { proto3 := p, conn := .opened, timer := true, listening := true }
        nClient := w.nClient + 1 } := s.quiet (SameIds.of_socks rfl rfl) (fun m => rfl) rfl fun t ht => ht
    split
    · exact s1.connect _ _ _ (by simp)
    · exact s1
  | recv c type name auth =>
    simp only [World.step]
    split
    · unfold ondecoded; split
      · split
        · rename_i ht
          subst ht
          refine s.connect c name auth ?_
          rintro pid off rfl
          exact ⟨name, off, he⟩
        · exact s.clientClose c
      · split
        · refine s.tasks rfl rfl rfl rfl fun ref e hm => ?_
          rcases List.mem_append.mp hm with hm | hm
          · exact .inl hm
          · simp at hm
        · exact s.clientClose c
    · exact s
  | task k =>
    simp only [World.step]
    split
    · rename_i t ht
      have hm := List.mem_of_getElem? ht
      have s1 : Sec cfg h { w with tasks := w.tasks.eraseIdx k } :=
        s.quiet (SameIds.of_socks rfl rfl) (fun m => rfl) rfl fun t ht => List.mem_of_mem_eraseIdx ht
      cases t with
      | result ref err =>
        have hlt := s.refs ref err hm
        simp only [runTask, result]
        split
        · exact s1.cleanup ref
        · cases err with
          | some e => exact (s1.cleanup ref).packet _ _ _ (.inr (.inr (.inl ⟨rfl, .inr ⟨_, e, s.task ref e hm, rfl⟩⟩)))
          | none => exact s1.doConnect ref hlt
      | packet ref type =>
        simp only [runTask, onpacket]
        split
        · exact s1.onclose _ _
        · exact s1.obs _ (by intro _ _ _ e; cases e)
    · exact s
  | next k i err =>
    simp only [World.step, World.next]
    split
    · exact s
    · rename_i ch hch
      have hlt : ch.ref < w.nSock := hr.chains _ (List.mem_of_getElem? hch)
      split
      · split
        · refine s.tasks rfl rfl rfl rfl fun ref e hm => ?_
          rcases List.mem_append.mp hm with hm | hm
          · exact .inl hm
          · simp at hm
            refine .inr ⟨by rw [hm.1]; exact hlt, fun x hx => ⟨k, i, ?_⟩⟩
            rw [hm.2] at hx; rw [← hx]; exact he
        · exact s.tasks rfl rfl rfl rfl fun ref e hm => .inl hm
      · exact s
  | transportClose c reason =>
    simp only [World.step]
    split
    · split
      · exact (s.client c _).clientOnclose c reason
      · exact s.client c _
    · exact s
  | connError c => simp only [World.step]; split; exact s.connClose c; exact s
  | timer c => simp only [World.step]; split; exact s.timerFires c; exact s
  | «of» name => simp only [World.step]; split; exact s; exact s.newNs _ rfl
  | use n => simp only [World.step]; split; exact s.ns _ _ rfl; exact s
  | join ref rooms => exact s.act (.join ref rooms)
  | leave ref room => exact s.act (.leave ref room)
  | setData ref v =>
    simp only [World.step]; split
    · exact s.quiet (SameIds.set _ _ _ rfl fun e => e) (fun m => rfl) rfl fun t ht => ht
    · exact s
  | disconnect ref status => simp only [World.step]; split; exact s.disconnect status ref; exact s
  | disconnectSockets n rooms except flags status =>
    exact apply_pres (Sec cfg h) (fun u _ r su _ => su.disconnect status r) _ w s
  | socketsJoin n rooms except flags target =>
    exact apply_pres (Sec cfg h) (fun u _ r su _ => su.join r target) _ w s
  | socketsLeave n rooms except flags target =>
    exact apply_pres (Sec cfg h) (fun u _ r su _ => Sec.foldl _ (fun w a s => s.leave r a) target su) _ w s
  | broadcast n args id rooms except flags =>
    simp only [World.step]; split
    · exact s.broadcast _ _ _ _ (.inl ⟨_, _, _, _, _, he⟩)
    · exact s
  | emit ref args flags =>
    simp only [World.step]; split
    · have hE : Emits h args := .inr ⟨_, _, he⟩
      unfold World.emit; split
      · exact s.broadcast _ _ _ _ hE
      · exact s.packet _ _ _ (.inr (.inl ⟨rfl, args, rfl, .inl hE⟩))
    · exact s
  | clock now => exact s.tasks rfl rfl rfl rfl fun ref e hm => .inl hm
  | tick n =>
    simp only [World.step]; split
    · rename_i sc skip hrec
      exact s.nsStore _ _ ⟨fun e he => (s.store n).sess e ((List.mem_filter.mp he).1),
        fun q hq => (s.store n).kept q ((Session.prune_suffix _ _).subset hq)⟩
    · exact s
  | serverClose => exact Sec.foldl _ (fun w a s => s.closeNs a) _ s
  | reorderClient c l => simp only [World.step]; split; exact s.client c _; exact s
  | reorderNs n l => simp only [World.step]; split; exact s.ns _ _ rfl; exact s
  | reorderNsps l =>
    simp only [World.step]; split
    · exact s.quiet (SameIds.of_socks rfl rfl) (fun m => rfl) rfl fun t ht => ht
    · exact s

theorem sec_run (cfg : Cfg) (h : List Ev) : Sec cfg h (run cfg h) := by
  induction h using snocRec with
  | nil =>
    refine Sec.newNs ⟨?_, ?_, ?_, ?_, ?_, ?_⟩ _ rfl
    · intro r hr; exact absurd hr (Nat.not_lt_zero _)
    · exact fun n => ⟨fun e he => (by cases he), fun q hq => (by cases hq)⟩
    · intro c ref p hp; cases hp
    · intro ref e hp; cases hp
    · intro r hr; cases hr
    · intro ref e hp; cases hp
  | append_singleton h e ih =>
    rw [run_snoc]
    exact (ih.mono fun x hx => List.mem_append_left _ hx).step (inv_run cfg h).2 e (by simp)

/-! ## Sockets keep what they are -/

/-- The sockets of `b` are those of `w`. -/
def KeptIds (b w : W) : Prop := b.nSock ≤ w.nSock ∧ ∀ r, r < b.nSock → (w.socks r).ident = (b.socks r).ident

theorem KeptIds.frame {b w w' : W} (k : KeptIds b w) (hn : w'.nSock = w.nSock) (hs : ∀ r, (w'.socks r).ident = (w.socks r).ident) : KeptIds b w' :=
  ⟨by rw [hn]; exact k.1, fun r hr => by rw [hs]; exact k.2 r hr⟩

theorem KeptIds.calm {b w w' : W} (k : KeptIds b w) (cm : Calm w w') : KeptIds b w' :=
  k.frame cm.nSock fun r => by
    rcases cm.socks r with e | ⟨-, e⟩ <;> rw [e]
    rfl

theorem grow_keptIds (cfg : Cfg) (b : W) : Grow0 cfg (KeptIds b) where
  inert w t ch now h := h.frame rfl fun _ => rfl
  use w n h := h.frame rfl fun _ => rfl
  data w ref v h := h.frame rfl fun r => upd_proj _ _ _ _ Sock.ident rfl
  newNs w s _ _ _ _ _ h := h.frame rfl fun _ => rfl
  newClient w p _ h := h.frame rfl fun _ => rfl
  create w n c auth _ _ _ h := by
    obtain ⟨-, -, -, -, a5⟩ := createSocket_self cfg w n c auth
    refine ⟨by rw [createSocket_nSock]; exact Nat.le_succ_of_le h.1, fun r hr => ?_⟩
    rw [a5 r (Nat.lt_of_lt_of_le hr h.1)]
    exact h.2 r hr
  doConnect w ref _ _ _ h := by
    obtain ⟨-, d2, -, -, d5, -⟩ := doConnect_fields w ref
    exact h.frame d5 fun r => by rw [d2]; exact upd_proj _ _ _ _ Sock.ident rfl
  cleanup w ref _ _ h := by
    obtain ⟨-, d2, -, -, d5, -⟩ := cleanup_fields cfg w ref
    exact h.frame d5 fun r => by rw [d2]; exact upd_proj _ _ _ _ Sock.ident rfl
  packet w c' ref x _ _ h := h.calm (calm_clientPacket _ _ _ _)
  received w ref type h := h.frame rfl fun _ => rfl

theorem keptIds_run (cfg : Cfg) (h t : List Ev) : KeptIds (run cfg h) (run cfg (h ++ t)) := by
  induction t using snocRec with
  | nil => rw [List.append_nil]; exact ⟨Nat.le_refl _, fun _ _ => rfl⟩
  | append_singleton t e ih =>
    rw [← List.append_assoc, run_snoc]
    by_cases he : e.calm = true
    · exact ih.calm (calm_step cfg _ e he)
    · obtain ⟨i1, i2⟩ := inv_run cfg (h ++ t)
      exact (grow_keptIds cfg _).step i1 i2 e he
        (fun c hP => hP.calm (calm_clientClose _ _ _)) (fun v ref reason _ _ hP => hP.calm (calm_onclose _ _ _ _)) ih

/-- The first socket of a session. -/
theorem source_run (cfg : Cfg) (h : List Ev) (r : Nat) (hr : r < (run cfg h).nSock) :
    ∃ r0, r0 ≤ r ∧ ((run cfg h).socks r0).recovered = false ∧ ((run cfg h).socks r0).ns = ((run cfg h).socks r).ns ∧
      ((run cfg h).socks r0).sid = ((run cfg h).socks r).sid ∧ ((run cfg h).socks r).pid = pidFor cfg r0 ∧ ((run cfg h).socks r0).pid = pidFor cfg r0 ∧
      (r = r0 ∨ Presents h ((run cfg h).socks r).client ((run cfg h).socks r).pid) := by
  induction r using Nat.strongRecOn with
  | ind r ih =>
    rcases (sec_run cfg h).sock r hr with ⟨a, b⟩ | ⟨a, b, r1, h1, h2, h3, h4⟩
    · exact ⟨r, Nat.le_refl _, a, rfl, rfl, b, b, .inl rfl⟩
    · obtain ⟨r0, i1, i2, i3, i4, i5, i6, -⟩ := ih r1 h1 (Nat.lt_trans h1 hr)
      exact ⟨r0, by omega, i2, i3.trans h2, i4.trans h3, by rw [← h4]; exact i5, i6, .inr b⟩

/-- If users send only ids they were told, sockets with the same private id are those of one user. -/
theorem users_run {U : Type} (user : Nat → U) (cfg : Cfg) (hrec : cfg.recovery.isSome = true) (hi : ∀ i j, cfg.newPid i = cfg.newPid j → i = j) (n : Nat) :
    ∀ h : List Ev, h.length = n → NoGuessing user cfg h → ∀ r r', r < (run cfg h).nSock → r' < (run cfg h).nSock →
      ((run cfg h).socks r).pid = ((run cfg h).socks r').pid → user ((run cfg h).socks r).client = user ((run cfg h).socks r').client := by
  induction n using Nat.strongRecOn with
  | ind n ih =>
    intro h hl hg
    have hpid : ∀ r0 r1, pidFor cfg r0 = pidFor cfg r1 → r0 = r1 := fun r0 r1 e => by
      simp only [pidFor, hrec, if_true] at e; exact hi _ _ e
    -- a recovered socket has the user of a socket with the same id in a shorter history
    have back : ∀ r, r < (run cfg h).nSock → ((run cfg h).socks r).recovered = true →
        ∃ a b, h = a ++ b ∧ a.length < n ∧ ∃ r1, r1 < (run cfg a).nSock ∧ ((run cfg a).socks r1).pid = ((run cfg h).socks r).pid ∧
          user ((run cfg a).socks r1).client = user ((run cfg h).socks r).client := by
      intro r hr hrc
      rcases (sec_run cfg h).sock r hr with ⟨x, -⟩ | ⟨-, ⟨name, off, hp⟩, -⟩
      · rw [hrc] at x; cases x
      · obtain ⟨a, b, e⟩ := List.append_of_mem hp
        obtain ⟨c', u1, ref, p, sid, u2, u3⟩ := hg a b _ name _ off e
        refine ⟨a, _, e, by rw [← hl, e]; simp, ?_⟩
        rcases (sec_run cfg a).log c' ref p u2 with ⟨-, x | ⟨r1, x1, x2, x3⟩⟩ | ⟨-, l, x, -⟩ | ⟨-, x | ⟨bb, ee, -, x⟩⟩ | ⟨-, x⟩
        · rw [x] at u3; cases u3
        · rw [x3] at u3; injection u3 with u4 u5
          exact ⟨r1, x1, u5, by rw [x2]; exact u1⟩
        · rw [x] at u3; cases u3
        · rw [x] at u3; cases u3
        · rw [x] at u3; unfold errorData at u3
          split at u3
          · split at u3 <;> cases u3
          · cases u3
        · rw [x] at u3; cases u3
    have hga : ∀ a b, h = a ++ b → NoGuessing user cfg a := fun a b e a' b' c name pid off e' =>
      hg a' (b' ++ b) c name pid off (by rw [e, e']; simp)
    -- one fresh, one recovered
    have mixed : ∀ r r', r < (run cfg h).nSock → r' < (run cfg h).nSock → ((run cfg h).socks r).recovered = false → ((run cfg h).socks r').recovered = true →
        ((run cfg h).socks r).pid = ((run cfg h).socks r').pid → user ((run cfg h).socks r).client = user ((run cfg h).socks r').client := by
      intro r r' hr hr' f f' e
      obtain ⟨a, b, ea, la, r1, x1, x2, x3⟩ := back r' hr' f'
      obtain ⟨r0, y1, -, -, -, y5, y6, -⟩ := source_run cfg a r1 x1
      have hf : ((run cfg h).socks r).pid = pidFor cfg r := by
        rcases (sec_run cfg h).sock r hr with ⟨-, x⟩ | ⟨x, -⟩
        · exact x
        · rw [f] at x; cases x
      have : r0 = r := hpid _ _ (by rw [← y5, x2, ← e, hf])
      subst this
      have hk := (keptIds_run cfg a b).2 r0 (Nat.lt_of_le_of_lt y1 x1)
      rw [← ea] at hk
      rw [(ident_eq hk).2.1, ← x3]
      exact ih a.length la a rfl (hga a b ea) r0 r1 (Nat.lt_of_le_of_lt y1 x1) x1 (by rw [y5, y6])
    intro r r' hr hr' e
    cases f : ((run cfg h).socks r).recovered <;> cases f' : ((run cfg h).socks r').recovered
    · rcases (sec_run cfg h).sock r hr with ⟨-, x⟩ | ⟨x, -⟩
      · rcases (sec_run cfg h).sock r' hr' with ⟨-, x'⟩ | ⟨x', -⟩
        · rw [hpid r r' (by rw [← x, e, x'])]
        · rw [f'] at x'; cases x'
      · rw [f] at x; cases x
    · exact mixed r r' hr hr' f f' e
    · exact (mixed r' r hr' hr f' f e.symm).symm
    · obtain ⟨a, b, ea, la, r1, x1, x2, x3⟩ := back r hr f
      obtain ⟨r0, y1, y2, -, -, y5, y6, -⟩ := source_run cfg a r1 x1
      have hk := (keptIds_run cfg a b).2 r0 (Nat.lt_of_le_of_lt y1 x1)
      have hn := (keptIds_run cfg a b).1
      rw [← ea] at hk hn
      obtain ⟨-, -, -, k4, k5⟩ := ident_eq hk
      have h0 : r0 < (run cfg h).nSock := Nat.lt_of_lt_of_le (Nat.lt_of_le_of_lt y1 x1) hn
      have q : ((run cfg h).socks r0).pid = ((run cfg h).socks r).pid := by rw [k4, y6, ← y5, x2]
      rw [← mixed r0 r h0 hr (k5.trans y2) f q]
      exact mixed r0 r' h0 hr' (k5.trans y2) f' (q.trans e)

end Verif.World
