import Verif.Proof.World
import Verif.Spec.World

/-! # The server: what the log says about each socket -/

namespace Verif.World
open Verif Verif.Adapter Verif.Spec

theorem life_append (r : Nat) (a b : List Obs) : life r (a ++ b) = life r a ++ life r b := by
  simp [life]

theorem life_nil (r : Nat) : life r [] = [] := rfl

theorem life_packet (r c : Nat) (ref : Option Nat) (p : Pkt) : life r [.packet c ref p] = [] := by
  simp [life, lifeOf]

/-- From `w` to `w'` each socket's life went on as the state says: a socket that is as before saw nothing, a
socket that was closed was connected, and saw the end of its connection with a reason allowed by `Q`. -/
def Traced (rec : Bool) (Q : String → Prop) (w w' : W) : Prop :=
  ∃ ext, w'.log = w.log ++ ext ∧ ∀ r,
    (w'.socks r = w.socks r ∧ life r ext = []) ∨
    ((w.socks r).connected = true ∧ w'.socks r = closed (w.socks r) ∧ ∃ reason, Q reason ∧ life r ext = ending rec reason)

theorem Traced.refl {rec : Bool} {Q : String → Prop} (w : W) : Traced rec Q w w :=
  ⟨[], by simp, fun _ => .inl ⟨rfl, rfl⟩⟩

theorem Traced.trans {rec : Bool} {Q : String → Prop} {a b c : W} (h1 : Traced rec Q a b) (h2 : Traced rec Q b c) :
    Traced rec Q a c := by
  obtain ⟨x, e1, p1⟩ := h1
  obtain ⟨y, e2, p2⟩ := h2
  refine ⟨x ++ y, by rw [e2, e1, List.append_assoc], fun r => ?_⟩
  rw [life_append]
  rcases p2 r with ⟨s2, l2⟩ | ⟨c2, s2, q, hq, l2⟩
  · rcases p1 r with ⟨s1, l1⟩ | ⟨c1, s1, q, hq, l1⟩
    · exact .inl ⟨s2.trans s1, by rw [l1, l2]; rfl⟩
    · exact .inr ⟨c1, s2.trans s1, q, hq, by rw [l1, l2]; simp⟩
  · rcases p1 r with ⟨s1, l1⟩ | ⟨c1, s1, _⟩
    · rw [s1] at c2 s2; exact .inr ⟨c2, s2, q, hq, by rw [l1, l2]; rfl⟩
    · rw [s1] at c2; simp [closed] at c2

theorem Traced.mono {rec : Bool} {Q Q' : String → Prop} (hQ : ∀ x, Q x → Q' x) {a b : W} (h : Traced rec Q a b) :
    Traced rec Q' a b := by
  obtain ⟨x, e, p⟩ := h
  refine ⟨x, e, fun r => ?_⟩
  rcases p r with p | ⟨a, b, q, hq, c⟩
  · exact .inl p
  · exact .inr ⟨a, b, q, hQ q hq, c⟩

theorem Traced.silent {rec : Bool} {Q : String → Prop} {w w' : W} (h1 : w'.log = w.log) (h2 : w'.socks = w.socks) :
    Traced rec Q w w' := ⟨[], by simp [h1], fun r => .inl ⟨by rw [h2], rfl⟩⟩

theorem traced_clientPacket {rec : Bool} {Q : String → Prop} (w : W) (c : Nat) (ref : Option Nat) (p : Pkt) :
    Traced rec Q w (clientPacket w c ref p) := by
  unfold clientPacket; split
  · exact ⟨_, rfl, fun r => .inl ⟨rfl, life_packet _ _ _ _⟩⟩
  · exact .refl w

theorem closing_log (cfg : Cfg) (w : W) (ref : Nat) (reason : String) :
    ∃ l, (closing cfg w ref reason).log = w.log ++ [.disconnecting ref reason] ++ l ∧
      life ref l = (if cfg.recovery.isSome ∧ reason ∈ recoverableReasons then [.saved] else []) ∧
      ∀ r, r ≠ ref → life r l = [] := by
  have hl := (acts_socks cfg (cfg.hook ref) (obs w (.disconnecting ref reason))).2.2.1
  unfold closing persist
  split <;> rename_i h
  · have h' : cfg.recovery.isSome ∧ reason ∈ recoverableReasons := h
    rw [if_pos h']
    refine ⟨[.saved ref (session ((cfg.hook ref).foldl (act cfg) (obs w (.disconnecting ref reason))) ref)], ?_, ?_, ?_⟩
    · simp only [obs, setNs]; simp only [obs] at hl; rw [hl]
    · simp [life, lifeOf]
    · intro r hr; simp [life, lifeOf, Ne.symm hr]
  · have h' : ¬ (cfg.recovery.isSome ∧ reason ∈ recoverableReasons) := h
    rw [if_neg h']
    exact ⟨[], by rw [hl]; simp [obs], rfl, fun _ _ => rfl⟩

theorem traced_onclose (cfg : Cfg) (w : W) (ref : Nat) (reason : String) :
    Traced cfg.recovery.isSome (· = reason) w (onclose cfg w ref reason) := by
  by_cases hc : (w.socks ref).connected = true
  · rw [onclose_pos cfg reason hc]
    obtain ⟨l, h1, h2, h3⟩ := closing_log cfg w ref reason
    obtain ⟨f1, f2, f3, f4, f5, f6, f7, f8, f9, f10, f11⟩ := shut_fields cfg (closing cfg w ref reason) ref
    have hs := (closing_socks cfg w ref reason).1
    refine ⟨[.disconnecting ref reason] ++ l ++ [.disconnect ref reason], ?_, fun r => ?_⟩
    · simp only [obs, f10, h1]; simp
    · simp only [obs]; rw [f2, hs]
      by_cases e : r = ref
      · subst e
        right
        refine ⟨hc, by simp, reason, rfl, ?_⟩
        rw [life_append, life_append, h2]
        simp [ending, life, lifeOf]
      · left
        refine ⟨upd_ne _ _ e, ?_⟩
        rw [life_append, life_append, h3 r e]
        simp [life, lifeOf, Ne.symm e]
  · rw [onclose_neg cfg reason hc]; exact .refl w

/-! ## Relations kept by the steps that create nothing -/

/-- A reflexive and transitive relation between states kept by packets and by changes of the rooms and sessions
of a namespace. -/
structure Prim0 (R : W → W → Prop) : Prop where
  refl : ∀ w, R w w
  trans : ∀ {a b c}, R a b → R b c → R a c
  packet : ∀ w c ref p, R w (clientPacket w c ref p)
  ns : ∀ w n f, (∀ k : Ns, (f k).name = k.name ∧ (f k).fns = k.fns ∧ (f k).sockets = k.sockets ∧ (f k).auto = k.auto) →
    R w (setNs w n f)

/-- The same for packets, changes of a client and the closing of a socket: the building blocks of the steps that close
something. -/
structure Closer (cfg : Cfg) (Q : String → Prop) (R : W → W → Prop) : Prop where
  refl : ∀ w, R w w
  trans : ∀ {a b c}, R a b → R b c → R a c
  packet : ∀ w c ref p, R w (clientPacket w c ref p)
  client : ∀ w c (f : Client → Client), (∀ k : Client, (f k).proto3 = k.proto3 ∧ (f k).nsps = k.nsps ∧
    ((f k).sockets = k.sockets ∨ (f k).sockets = [])) → R w (setClient w c f)
  onclose : ∀ w ref reason, Q reason → R w (onclose cfg w ref reason)

/-- Both: the building blocks of the steps that create nothing. -/
structure Prim (cfg : Cfg) (Q : String → Prop) (R : W → W → Prop) : Prop extends Prim0 R, Closer cfg Q R

namespace Prim0
variable {R : W → W → Prop} (p : Prim0 R)
include p

theorem foldl {α : Type} (f : W → α → W) (h : ∀ w a, R w (f w a)) (l : List α) (w : W) : R w (l.foldl f w) := by
  induction l generalizing w with
  | nil => exact p.refl w
  | cons a l ih => exact p.trans (h w a) (ih _)

theorem sockPacket (w : W) (ref : Nat) (x : Pkt) : R w (sockPacket w ref x) := p.packet _ _ _ _

theorem join (w : W) (ref : Nat) (rooms : List Room) : R w (join w ref rooms) := by
  unfold World.join; split
  · exact p.ns _ _ _ fun _ => ⟨rfl, rfl, rfl, rfl⟩
  · exact p.refl w

theorem leave (cfg : Cfg) (w : W) (ref : Nat) (room : Room) : R w (leave cfg w ref room) :=
  p.ns _ _ _ fun _ => ⟨rfl, rfl, rfl, rfl⟩

theorem leaveEach (cfg : Cfg) (rooms : List Room) (w : W) (ref : Nat) : R w (leaveEach cfg rooms w ref) :=
  p.foldl _ (fun _ _ => p.leave _ _ _ _) _ _

theorem act (cfg : Cfg) (w : W) (a : Act) : R w (act cfg w a) := by
  cases a <;> simp only [World.act] <;> split
  · exact p.join _ _ _
  · exact p.refl w
  · exact p.leave _ _ _ _
  · exact p.refl w

theorem broadcast (cfg : Cfg) (w : W) (n : Nat) (x : Pkt) (opts : Option Opts) : R w (broadcast cfg w n x opts) := by
  have ha (w : W) (x : Pkt) : R w (apply (view n) opts (fun w ref => World.sockPacket w ref x) w).1 :=
    apply_rel R p.refl p.trans (fun _ _ _ _ => p.sockPacket _ _ _) _ _
  unfold World.broadcast; split
  · refine p.trans ?_ (ha _ _); exact p.ns _ _ _ fun _ => ⟨rfl, rfl, rfl, rfl⟩
  · exact ha _ _

theorem emit (cfg : Cfg) (w : W) (ref : Nat) (args : List Val) (flags : Flags) : R w (emit cfg w ref args flags) := by
  unfold World.emit; split
  · exact p.broadcast _ _ _ _ _
  · exact p.sockPacket _ _ _

end Prim0

namespace Closer
variable {cfg : Cfg} {Q : String → Prop} {R : W → W → Prop} (p : Closer cfg Q R)
include p

theorem foldl {α : Type} (f : W → α → W) (h : ∀ w a, R w (f w a)) (l : List α) (w : W) : R w (l.foldl f w) := by
  induction l generalizing w with
  | nil => exact p.refl w
  | cons a l ih => exact p.trans (h w a) (ih _)

theorem disconnectNs (hQ : Q "server namespace disconnect") (w : W) (ref : Nat) : R w (disconnectNs cfg w ref) := by
  unfold World.disconnectNs; split
  · exact p.trans (p.packet _ _ _ _) (p.onclose _ _ _ hQ)
  · exact p.refl w

theorem eachSocket (c : Nat) (body : W → Nat → W) (h : ∀ w r, R w (body w r)) (w : W) (sid : Sid) :
    R w (eachSocket c body w sid) := by
  unfold World.eachSocket; split
  · exact h _ _
  · exact p.refl w

theorem clientOnclose (w : W) (c : Nat) (reason : String) (hQ : Q reason) : R w (clientOnclose cfg w c reason) := by
  unfold World.clientOnclose
  refine p.trans (b := setClient w c fun k => { k with listening := false, timer := false })
    (p.client _ _ _ fun _ => ⟨rfl, rfl, .inl rfl⟩) ?_
  exact p.trans (p.foldl _ (p.eachSocket c _ fun w r => p.onclose w r reason hQ) _ _)
    (p.client _ _ _ fun _ => ⟨rfl, rfl, .inr rfl⟩)

theorem connClose (w : W) (c : Nat) (hQ : ∀ r, cfg.syncClose c = some r → Q r) : R w (connClose cfg w c) := by
  unfold World.connClose; split
  · have h1 : R w (setClient w c fun k => { k with conn := .closing }) := p.client _ _ _ fun _ => ⟨rfl, rfl, .inl rfl⟩
    dsimp only; split
    · rename_i r hr
      split
      · exact p.trans h1 (p.clientOnclose _ _ _ (hQ r hr))
      · exact h1
    · exact h1
  · exact p.refl w

theorem clientClose (w : W) (c : Nat) (hQ : ∀ r, cfg.syncClose c = some r → Q r) (hQ' : Q "forced server close") :
    R w (clientClose cfg w c) := by
  unfold World.clientClose; split
  · exact p.trans (p.connClose _ _ hQ) (p.clientOnclose _ _ _ hQ')
  · exact p.refl w

theorem clientDisconnect (w : W) (c : Nat) (hQ : ∀ r, cfg.syncClose c = some r → Q r) (hQ' : Q "forced server close")
    (hQ'' : Q "server namespace disconnect") : R w (clientDisconnect cfg w c) := by
  unfold World.clientDisconnect
  refine p.trans ?_ (p.clientClose _ _ hQ hQ')
  exact p.trans (p.foldl _ (p.eachSocket c _ (p.disconnectNs hQ'')) _ _) (p.client _ _ _ fun _ => ⟨rfl, rfl, .inr rfl⟩)

theorem disconnect (status : Bool) (w : W) (ref : Nat) (hQ : ∀ c r, cfg.syncClose c = some r → Q r)
    (hQ' : Q "forced server close") (hQ'' : Q "server namespace disconnect") : R w (disconnect cfg status w ref) := by
  unfold World.disconnect; split
  · split
    · exact p.clientDisconnect _ _ (hQ _) hQ' hQ''
    · exact p.disconnectNs hQ'' _ _
  · exact p.refl w

theorem closeNs (w : W) (name : String) (hQ : Q "server shutting down") : R w (closeNs cfg w name) := by
  unfold World.closeNs; split
  · exact p.refl w
  · refine p.foldl _ (fun w sid => ?_) _ _
    split
    · exact p.onclose _ _ _ hQ
    · exact p.refl w

theorem serverClose (w : W) (hQ : Q "server shutting down") : R w (serverClose cfg w) :=
  p.foldl _ (fun w name => p.closeNs w name hQ) _ _

theorem timerFires (w : W) (c : Nat) (hQ : ∀ r, cfg.syncClose c = some r → Q r) (hQ' : Q "forced server close") :
    R w (timerFires cfg w c) := by
  unfold World.timerFires; split
  · have h1 : R w (setClient w c fun k => { k with timer := false }) := p.client _ _ _ fun _ => ⟨rfl, rfl, .inl rfl⟩
    dsimp only; split
    · exact p.trans h1 (p.clientClose _ _ hQ hQ')
    · exact h1
  · exact p.refl w

end Closer

/-- The relation holds over every step that creates nothing, if it does when an iteration order changes. -/
theorem Prim.step {cfg : Cfg} {R : W → W → Prop} (p : Prim cfg (fun _ => True) R) (w : W) (e : Ev)
    (h1 : ∀ c l, l.Perm (w.clients c).sockets → R w (setClient w c fun k => { k with sockets := l }))
    (h2 : ∀ n l, l.Perm (w.nss n).sockets → R w (setNs w n fun k => { k with sockets := l }))
    (h3 : ∀ l, l.Perm w.nsps → R w { w with nsps := l }) (he : e.calm = true) : R w (step cfg w e) := by
  have t : ∀ (c : Nat) (r : String), cfg.syncClose c = some r → True := fun _ _ _ => trivial
  cases e <;> simp only [Ev.calm, Bool.false_eq_true] at he <;> simp only [World.step]
  case transportClose c reason =>
    split
    · split
      · exact p.trans (b := setClient w c fun k => { k with conn := .closed })
          (p.client w c _ fun _ => ⟨rfl, rfl, .inl rfl⟩) (p.clientOnclose _ _ _ trivial)
      · exact p.client _ _ _ fun _ => ⟨rfl, rfl, .inl rfl⟩
    · exact p.refl w
  case connError c => split; exact p.connClose _ _ (t _); exact p.refl w
  case timer c => split; exact p.timerFires _ _ (t _) trivial; exact p.refl w
  case join => exact p.act _ _ _
  case leave => exact p.act _ _ _
  case socketsJoin => exact apply_rel R p.refl p.trans (fun _ _ _ _ => p.join _ _ _) _ _
  case socketsLeave => exact apply_rel R p.refl p.trans (fun _ _ _ _ => p.leaveEach _ _ _ _) _ _
  case disconnect => split; exact p.disconnect _ _ _ t trivial trivial; exact p.refl w
  case disconnectSockets =>
    exact apply_rel R p.refl p.trans (fun _ _ _ _ => p.disconnect _ _ _ t trivial trivial) _ _
  case broadcast => split; exact p.broadcast _ _ _ _ _; exact p.refl w
  case emit => split; exact p.emit _ _ _ _ _; exact p.refl w
  case tick => split; exact p.ns _ _ _ fun _ => ⟨rfl, rfl, rfl, rfl⟩; exact p.refl w
  case serverClose => exact p.serverClose _ trivial
  case reorderClient => split; exact h1 _ _ (List.isPerm_iff.1 (by assumption)); exact p.refl w
  case reorderNs => split; exact h2 _ _ (List.isPerm_iff.1 (by assumption)); exact p.refl w
  case reorderNsps => split; exact h3 _ (List.isPerm_iff.1 (by assumption)); exact p.refl w

theorem prim_traced (cfg : Cfg) (Q : String → Prop) : Prim cfg Q (Traced cfg.recovery.isSome Q) where
  refl := Traced.refl
  trans := Traced.trans
  packet := traced_clientPacket
  ns _ _ _ _ := .silent rfl rfl
  client _ _ _ _ := .silent rfl rfl
  onclose w ref reason h := (traced_onclose cfg w ref reason).mono fun _ e => e ▸ h

theorem traced_step (cfg : Cfg) (w : W) (e : Ev) (he : e.calm = true) :
    Traced cfg.recovery.isSome (fun _ => True) w (step cfg w e) :=
  (prim_traced cfg _).step w e (fun _ _ _ => .silent rfl rfl) (fun _ _ _ => .silent rfl rfl) (fun _ _ => .silent rfl rfl) he

/-! ## Sockets waiting for their middlewares -/

/-- The middleware reached last has not called `next`. -/
def Chain.waiting (ch : Chain) : Bool := decide (ch.reached ∉ ch.used)

def Task.pending : Task → Option Nat
  | .result r _ => some r
  | .packet .. => none

def Chain.pending (ch : Chain) : Option Nat := if ch.waiting then some ch.ref else none

/-- The sockets whose middlewares have not finished, or whose result is not yet known. -/
def pending (w : W) : List Nat := w.tasks.filterMap Task.pending ++ w.chains.filterMap Chain.pending

/-- Connected, waiting or finished, and what the log says about it. -/
def LifeOk (rec : Bool) (s : Sock) (l : List Life) : Prop :=
  (s.connected = true → s.canJoin = true ∧ l = [.connection]) ∧
  (s.connected = false → s.canJoin = true → l = []) ∧
  (s.connected = false → s.canJoin = false → l = [] ∨ ∃ reason, l = .connection :: ending rec reason)

structure InvT (rec : Bool) (used : List (Nat × Nat)) (w : W) : Prop where
  nodup : (pending w).Nodup
  undecided : ∀ r ∈ pending w, (w.socks r).connected = false ∧ (w.socks r).canJoin = true
  chain : ∀ (k : Nat) (ch : Chain), w.chains[k]? = some ch → ch.reached < ch.len ∧ (∀ i, i < ch.reached → i ∈ ch.used) ∧
    ∀ i ∈ ch.used, i ≤ ch.reached ∧ (k, i) ∈ used
  life : ∀ r, LifeOk rec (w.socks r) (life r w.log)
  fresh : ∀ r, w.nSock ≤ r → (w.socks r).connected = false ∧ (w.socks r).canJoin = true

theorem InvT.weaken {rec : Bool} {used used' : List (Nat × Nat)} {w : W} (h : InvT rec used w)
    (hs : ∀ x ∈ used, x ∈ used') : InvT rec used' w :=
  ⟨h.nodup, h.undecided, fun k ch hk =>
    ⟨(h.chain k ch hk).1, (h.chain k ch hk).2.1, fun i hi => ⟨((h.chain k ch hk).2.2 i hi).1, hs _ ((h.chain k ch hk).2.2 i hi).2⟩⟩,
    h.life, h.fresh⟩

/-- Steps that create nothing. -/
theorem InvT.calm {rec : Bool} {used : List (Nat × Nat)} {Q : String → Prop} {w w' : W} (h : InvT rec used w)
    (ht : w'.tasks = w.tasks) (hc : w'.chains = w.chains) (hn : w'.nSock = w.nSock) (tr : Traced rec Q w w') :
    InvT rec used w' := by
  have hp : pending w' = pending w := by unfold pending; rw [ht, hc]
  obtain ⟨ext, e, p⟩ := tr
  refine ⟨by rw [hp]; exact h.nodup, ?_, by rw [hc]; exact h.chain, ?_, ?_⟩
  · rw [hp]; intro r hr
    obtain ⟨a, b⟩ := h.undecided r hr
    rcases p r with ⟨s, _⟩ | ⟨c, _⟩
    · rw [s]; exact ⟨a, b⟩
    · rw [a] at c; simp at c
  · intro r; rw [e, life_append]
    rcases p r with ⟨s, l⟩ | ⟨c, s, reason, _, l⟩
    · rw [s, l, List.append_nil]; exact h.life r
    · rw [s, l]
      have := ((h.life r).1 c).2
      rw [this]
      exact ⟨fun hc => by simp [closed] at hc, fun _ hc => by simp [closed] at hc, fun _ _ => .inr ⟨reason, rfl⟩⟩
  · intro r hr
    rw [hn] at hr
    rcases p r with ⟨s, _⟩ | ⟨c, _⟩
    · rw [s]; exact h.fresh r hr
    · rw [(h.fresh r hr).1] at c; simp at c

/-- `_cleanup` of a socket that is not connected. -/
theorem lifeOk_reject {rec : Bool} {s : Sock} {l : List Life} (h : LifeOk rec s l) (hc : s.connected = false)
    (hj : s.canJoin = true) : LifeOk rec { s with canJoin := false } l :=
  ⟨fun h' => by simp [hc] at h', fun _ h' => by simp at h', fun _ _ => .inl (h.2.1 hc hj)⟩

theorem lifeOk_connect {rec : Bool} {s : Sock} {l : List Life} (h : LifeOk rec s l) (hc : s.connected = false)
    (hj : s.canJoin = true) : LifeOk rec { s with connected := true } (l ++ [.connection]) := by
  refine ⟨fun _ => ⟨hj, by rw [h.2.1 hc hj]; rfl⟩, fun h' => by simp at h', fun h' => by simp at h'⟩

theorem lifeOk_fresh (rec : Bool) : LifeOk rec {} [] :=
  ⟨fun h => by simp at h, fun _ _ => rfl, fun _ h => by simp at h⟩

theorem pending_lt {w : W} (h : Refs w) : ∀ r ∈ pending w, r < w.nSock := by
  intro r hr
  rcases List.mem_append.1 hr with hr | hr
  · obtain ⟨t, ht, e⟩ := List.mem_filterMap.1 hr
    cases t with
    | result r' err => simp only [Task.pending, Option.some.injEq] at e; subst e; exact h.tasks _ ht
    | packet => simp [Task.pending] at e
  · obtain ⟨ch, hc, e⟩ := List.mem_filterMap.1 hr
    unfold Chain.pending at e; split at e
    · simp only [Option.some.injEq] at e; subst e; exact h.chains _ hc
    · simp at e

/-- `_createSocket`, as a change of the state just after the allocation. -/
theorem createSocket_rel (cfg : Cfg) {R : W → W → Prop} (p : Prim0 R) (w : W) (n c : Nat)
    (auth : Option (Session.Pid × String)) :
    ∃ s : Sock, R (alloc w s) (createSocket cfg w n c auth) ∧ Calm (alloc w s) (createSocket cfg w n c auth) ∧
      s.ns = n ∧ s.client = c ∧ s.connected = false ∧ s.canJoin = true := by
  have hr (w : W) (s : Session.Sess) (missed : List (List Val)) :
      R (alloc w { ns := n, client := c, sid := s.sid, pid := s.pid, data := s.data, recovered := true })
        (recoverSocket w n c s missed) := by
    unfold recoverSocket
    exact p.trans (p.foldl (fun w1 r => join w1 w.nSock [r]) (fun w1 r => p.join w1 w.nSock [r]) s.rooms _)
      (p.foldl _ (fun w1 l => p.sockPacket w1 w.nSock { type := .event, data := .args l }) missed _)
  have hs (f : Ns → Session.St) (s : Sock) : R (alloc w s) (alloc (setNs w n fun k => { k with sess := f k }) s) :=
    p.ns (alloc w s) n (fun k => { k with sess := f k }) fun _ => ⟨rfl, rfl, rfl, rfl⟩
  unfold createSocket; split
  · dsimp only; split
    · exact ⟨_, p.trans (hs _ _) (hr _ _ _), (calm_alloc_sess w n _ _).trans (calm_recover _ _ _ _ _), rfl, rfl, rfl, rfl⟩
    · exact ⟨_, hs _ _, calm_alloc_sess w n _ _, rfl, rfl, rfl, rfl⟩
  · exact ⟨_, p.refl _, .refl _, rfl, rfl, rfl, rfl⟩

theorem invT_alloc {rec : Bool} {used : List (Nat × Nat)} {w : W} (h : InvT rec used w) (hr : Refs w) (s : Sock)
    (h1 : s.connected = false) (h2 : s.canJoin = true) : InvT rec used (alloc w s) where
  nodup := h.nodup
  undecided r hm := by
    have := pending_lt hr r hm
    simp only [alloc]; rw [upd_ne _ _ (Nat.ne_of_lt this)]; exact h.undecided r hm
  chain := h.chain
  life r := by
    simp only [alloc, upd_apply]; split
    · rename_i e
      have hf := h.fresh r (by omega)
      have := (h.life r).2.1 hf.1 hf.2
      rw [this]
      exact ⟨fun h => by rw [h1] at h; simp at h, fun _ _ => rfl, fun _ h => by rw [h2] at h; simp at h⟩
    · exact h.life r
  fresh r hr := by
    simp only [alloc] at hr ⊢; rw [upd_ne _ _ (by omega)]; exact h.fresh r (by omega)

theorem life_connect (r ref c : Nat) (x : Option Nat) (p : Pkt) :
    life r [.packet c x p, .connection ref] = if ref = r then [.connection] else [] := by
  simp only [life, List.filterMap_cons, lifeOf, List.filterMap_nil]
  by_cases e : ref = r <;> simp [e]

theorem invT_doConnect {rec : Bool} {used : List (Nat × Nat)} {w : W} (h : InvT rec used w) {ref : Nat}
    (hr : ref < w.nSock)
    (hc : (w.clients (w.socks ref).client).conn = .opened) (hp : ref ∉ pending w)
    (h1 : (w.socks ref).connected = false) (h2 : (w.socks ref).canJoin = true) : InvT rec used (doConnect w ref) := by
  obtain ⟨d1, d2, d3, d4, d5, d6, d7, d8, d9, d10, d11⟩ := doConnect_fields w ref
  have hpd : pending (doConnect w ref) = pending w := by unfold pending; rw [d7, d8]
  refine ⟨by rw [hpd]; exact h.nodup, ?_, by rw [d8]; exact h.chain, ?_, ?_⟩
  · rw [hpd]; intro r hm
    rw [d2, upd_ne _ _ (by rintro rfl; exact hp hm)]; exact h.undecided r hm
  · intro r; rw [d2, d11 hc, life_append, life_connect, upd_apply]
    by_cases e : r = ref
    · subst e; simp only [if_true]; exact lifeOk_connect (h.life r) h1 h2
    · rw [if_neg e, if_neg (Ne.symm e), List.append_nil]; exact h.life r
  · intro r hn; rw [d5] at hn; rw [d2, upd_ne _ _ (by omega)]; exact h.fresh r hn

theorem invT_cleanup {rec : Bool} {used : List (Nat × Nat)} {w : W} (h : InvT rec used w) (cfg : Cfg) {ref : Nat}
    (hr : ref < w.nSock) (hp : ref ∉ pending w)
    (h1 : (w.socks ref).connected = false) (h2 : (w.socks ref).canJoin = true) : InvT rec used (cleanup cfg w ref) := by
  obtain ⟨d1, d2, d3, d4, d5, d6, d7, d8, d9, d10, d11⟩ := cleanup_fields cfg w ref
  have hpd : pending (cleanup cfg w ref) = pending w := by unfold pending; rw [d7, d8]
  refine ⟨by rw [hpd]; exact h.nodup, ?_, by rw [d8]; exact h.chain, ?_, ?_⟩
  · rw [hpd]; intro r hm
    rw [d2, upd_ne _ _ (by rintro rfl; exact hp hm)]; exact h.undecided r hm
  · intro r; rw [d2, d10, upd_apply]
    by_cases e : r = ref
    · subst e; simp only [if_true]; exact lifeOk_reject (h.life r) h1 h2
    · rw [if_neg e]; exact h.life r
  · intro r hn; rw [d5] at hn; rw [d2, upd_ne _ _ (by omega)]; exact h.fresh r hn

theorem filterMap_perm {α β : Type} (f : α → Option β) {l m : List α} (h : l.Perm m) :
    (l.filterMap f).Perm (m.filterMap f) := h.filterMap f

theorem invT_add {cfg : Cfg} {used : List (Nat × Nat)} {w : W} (h : InvT cfg.recovery.isSome used w) (hr : Refs w) (n c : Nat)
    (auth : Option (Session.Pid × String)) : InvT cfg.recovery.isSome used (add cfg w n c auth) := by
  obtain ⟨s, tr, cm, s1, s2, s3, s4⟩ := createSocket_rel cfg (prim_traced cfg fun _ => True).toPrim0 w n c auth
  have ha := invT_alloc h hr s s3 s4
  have h1 : InvT cfg.recovery.isSome used (createSocket cfg w n c auth) := ha.calm cm.tasks cm.chains cm.nSock tr
  have hself : (createSocket cfg w n c auth).socks w.nSock = s := by
    rcases cm.socks w.nSock with e | ⟨e, _⟩
    · rw [e]; simp [alloc]
    · simp [alloc, s3] at e
  have hlt : ∀ r ∈ pending (createSocket cfg w n c auth), r < w.nSock := by
    have : pending (createSocket cfg w n c auth) = pending w := by
      unfold pending; rw [cm.tasks, cm.chains]; rfl
    rw [this]; exact pending_lt hr
  have hnp : w.nSock ∉ pending (createSocket cfg w n c auth) := fun hm => Nat.lt_irrefl _ (hlt _ hm)
  have hns : (createSocket cfg w n c auth).nSock = w.nSock + 1 := cm.nSock
  unfold add; dsimp only; split
  · rename_i hc
    refine invT_doConnect h1 (by omega) ?_ hnp (by rw [hself]; exact s3) (by rw [hself]; exact s4)
    rw [hself, s2]; exact hc.2.2
  · have hund : ∀ r, r ∈ pending (createSocket cfg w n c auth) ∨ r = w.nSock →
        ((createSocket cfg w n c auth).socks r).connected = false ∧ ((createSocket cfg w n c auth).socks r).canJoin = true := by
      rintro r (hm | rfl)
      · exact h1.undecided r hm
      · rw [hself]; exact ⟨s3, s4⟩
    split
    · have hp : (pending { createSocket cfg w n c auth with
          tasks := (createSocket cfg w n c auth).tasks ++ [.result w.nSock none] }).Perm
          (w.nSock :: pending (createSocket cfg w n c auth)) := by
        unfold pending; simp only [List.filterMap_append]
        simp only [List.filterMap_cons, Task.pending, List.filterMap_nil, List.append_assoc, List.singleton_append]
        exact List.perm_middle
      refine ⟨hp.nodup_iff.2 (List.nodup_cons.2 ⟨hnp, h1.nodup⟩), ?_, h1.chain, h1.life, h1.fresh⟩
      intro r hm
      exact hund r ((List.mem_cons.1 (hp.mem_iff.1 hm)).symm)
    · rename_i hf
      have hp : (pending { createSocket cfg w n c auth with
          chains := (createSocket cfg w n c auth).chains ++ [{ ref := w.nSock, len := ((createSocket cfg w n c auth).nss n).fns }] }).Perm
          (w.nSock :: pending (createSocket cfg w n c auth)) := by
        unfold pending; simp only [List.filterMap_append]
        simp only [List.filterMap_cons, Chain.pending, Chain.waiting, List.filterMap_nil, List.not_mem_nil,
          not_false_eq_true, decide_true, if_true]
        rw [← List.append_assoc]
        exact List.perm_append_singleton _ _
      refine ⟨hp.nodup_iff.2 (List.nodup_cons.2 ⟨hnp, h1.nodup⟩), ?_, ?_, h1.life, h1.fresh⟩
      · intro r hm
        exact hund r ((List.mem_cons.1 (hp.mem_iff.1 hm)).symm)
      · intro k ch hk
        simp only [List.getElem?_append] at hk
        split at hk
        · exact h1.chain k ch hk
        · have := List.mem_of_getElem? hk
          rw [List.mem_singleton.1 this]
          exact ⟨by simp; omega, fun i hi => absurd hi (Nat.not_lt_zero _), fun i hi => by simp at hi⟩

theorem invT_connect {cfg : Cfg} {used : List (Nat × Nat)} {w : W} (h : InvT cfg.recovery.isSome used w) (hr : Refs w) (c : Nat)
    (name : String) (auth : Option (Session.Pid × String)) : InvT cfg.recovery.isSome used (connect cfg w c name auth) := by
  unfold connect; split
  · exact invT_add h hr _ _ _
  · split
    · exact invT_add (w := newNs w { name := name, fns := cfg.childFns, auto := cfg.autoClean })
        ⟨h.nodup, h.undecided, h.chain, h.life, h.fresh⟩ ⟨hr.tasks, hr.chains⟩ _ _ _
    · have c := calm_clientPacket w c none { type := .connectError, nsp := name, data := .error "Invalid namespace" none }
      exact h.calm c.tasks c.chains c.nSock (traced_clientPacket (Q := fun _ => True) _ _ _ _)

theorem invT_ondecoded {cfg : Cfg} {used : List (Nat × Nat)} {w : W} (h : InvT cfg.recovery.isSome used w) (hr : Refs w) (c : Nat)
    (type : PType) (name : String) (auth : Option (Session.Pid × String)) :
    InvT cfg.recovery.isSome used (ondecoded cfg w c type name auth) := by
  have hcl : InvT cfg.recovery.isSome used (clientClose cfg w c) := by
    have cm := calm_clientClose cfg w c
    exact h.calm cm.tasks cm.chains cm.nSock
      ((prim_traced cfg fun _ => True).clientClose w c (fun _ _ => trivial) trivial)
  unfold ondecoded; split
  · split
    · exact invT_connect h hr _ _ _
    · exact hcl
  · split
    · have hp (x : Nat) (t : PType) : pending { w with tasks := w.tasks ++ [.packet x t] } = pending w := by
        unfold pending; simp [Task.pending]
      refine ⟨by rw [hp]; exact h.nodup, by rw [hp]; exact h.undecided, h.chain, h.life, h.fresh⟩
    · exact hcl

/-- A call of `next` that was not made before. -/
theorem invT_next {rec : Bool} {used : List (Nat × Nat)} {w : W} (h : InvT rec used w) (k i : Nat) (err : Option Err)
    (hu : (k, i) ∉ used) : InvT rec ((k, i) :: used) (next w k i err) := by
  have hweak := h.weaken (used' := (k, i) :: used) fun x hx => List.mem_cons_of_mem _ hx
  unfold next; split
  · exact hweak
  · rename_i ch hk
    obtain ⟨c1, c2, c3⟩ := h.chain k ch hk
    split
    · rename_i hi
      have hiu : i ∉ ch.used := fun hm => hu ((c3 i hm).2)
      have hir : i = ch.reached := by
        rcases Nat.lt_or_eq_of_le hi with hl | he
        · exact absurd (c2 i hl) hiu
        · exact he
      subst hir
      have hkl : k < w.chains.length := (List.getElem?_eq_some_iff.1 hk).1
      have hset (x : Chain) : w.chains.set k x = w.chains.take k ++ x :: w.chains.drop (k + 1) := by
        rw [List.set_eq_take_append_cons_drop, if_pos hkl]
      have hold : w.chains = w.chains.take k ++ ch :: w.chains.drop (k + 1) := by
        conv => lhs; rw [← List.take_append_drop k w.chains]
        rw [List.drop_eq_getElem_cons hkl, (List.getElem?_eq_some_iff.1 hk).2]
      have hchp : ch.pending = some ch.ref := by simp [Chain.pending, Chain.waiting, hiu]
      have hpo : pending w = w.tasks.filterMap Task.pending ++
          ((w.chains.take k).filterMap Chain.pending ++ ch.ref :: (w.chains.drop (k + 1)).filterMap Chain.pending) := by
        unfold pending
        conv => lhs; rw [hold]
        rw [List.filterMap_append, List.filterMap_cons, hchp]
      dsimp only; split
      · -- the chain ends: a result task replaces the chain
        have hend : Chain.pending { ch with used := ch.reached :: ch.used } = none := by
          simp [Chain.pending, Chain.waiting]
        have hp : (pending { w with
            chains := w.chains.set k { ch with used := ch.reached :: ch.used }
            tasks := w.tasks ++ [.result ch.ref err] }).Perm (pending w) := by
          rw [hpo]; unfold pending
          simp only [hset, List.filterMap_append, List.filterMap_cons, hend, List.filterMap_nil, Task.pending]
          rw [List.append_assoc]
          refine List.Perm.append_left _ ?_
          rw [List.singleton_append]
          exact (List.perm_middle).symm
        refine ⟨hp.nodup_iff.2 h.nodup, fun r hm => h.undecided r (hp.mem_iff.1 hm), ?_, h.life, h.fresh⟩
        intro j cj hj
        rw [List.getElem?_set] at hj
        split at hj
        · rename_i e; subst e
          simp only [hkl, if_true, Option.some.injEq] at hj; subst hj
          refine ⟨c1, fun i hi => List.mem_cons_of_mem _ (c2 i hi), fun i hi => ?_⟩
          rcases List.mem_cons.1 hi with rfl | hi
          · exact ⟨Nat.le_refl _, List.mem_cons_self⟩
          · exact ⟨(c3 i hi).1, List.mem_cons_of_mem _ (c3 i hi).2⟩
        · exact hweak.chain j cj hj
      · -- the next middleware is called
        rename_i hne
        have hlen : ch.reached + 1 < ch.len := by
          simp only [not_or] at hne; omega
        have hmax : max ch.reached (ch.reached + 1) = ch.reached + 1 := by omega
        have hgo : Chain.pending { ch with used := ch.reached :: ch.used, reached := max ch.reached (ch.reached + 1) } = some ch.ref := by
          have : ch.reached + 1 ∉ ch.used := fun hm => absurd (c3 _ hm).1 (by omega)
          simp only [Chain.pending, Chain.waiting, hmax]
          simp [this]
        have hp : pending { w with
            chains := w.chains.set k { ch with used := ch.reached :: ch.used, reached := max ch.reached (ch.reached + 1) } } =
            pending w := by
          rw [hpo]; unfold pending
          simp only [hset, List.filterMap_append, List.filterMap_cons, hgo]
        refine ⟨by rw [hp]; exact h.nodup, by rw [hp]; exact h.undecided, ?_, h.life, h.fresh⟩
        intro j cj hj
        rw [List.getElem?_set] at hj
        split at hj
        · rename_i e; subst e
          simp only [hkl, if_true, Option.some.injEq] at hj; subst hj
          simp only [hmax]
          refine ⟨hlen, fun i hi => ?_, fun i hi => ?_⟩
          · rcases Nat.lt_or_eq_of_le (Nat.lt_succ_iff.1 hi) with hi | rfl
            · exact List.mem_cons_of_mem _ (c2 i hi)
            · exact List.mem_cons_self
          · rcases List.mem_cons.1 hi with rfl | hi
            · exact ⟨by omega, List.mem_cons_self⟩
            · exact ⟨by have := (c3 i hi).1; omega, List.mem_cons_of_mem _ (c3 i hi).2⟩
        · exact hweak.chain j cj hj
    · exact hweak

theorem invT_task {cfg : Cfg} {used : List (Nat × Nat)} {w : W} (h : InvT cfg.recovery.isSome used w) (hr : Refs w) (k : Nat)
    (t : Task) (hk : w.tasks[k]? = some t) :
    InvT cfg.recovery.isSome used (runTask cfg { w with tasks := w.tasks.eraseIdx k } t) := by
  have hkl : k < w.tasks.length := (List.getElem?_eq_some_iff.1 hk).1
  have hold : w.tasks = w.tasks.take k ++ t :: w.tasks.drop (k + 1) := by
    conv => lhs; rw [← List.take_append_drop k w.tasks]
    rw [List.drop_eq_getElem_cons hkl, (List.getElem?_eq_some_iff.1 hk).2]
  have her : w.tasks.eraseIdx k = w.tasks.take k ++ w.tasks.drop (k + 1) := List.eraseIdx_eq_take_drop_succ _ _
  cases t with
  | result ref err =>
    have hp : (pending w).Perm (ref :: pending { w with tasks := w.tasks.eraseIdx k }) := by
      unfold pending
      simp only [her]
      conv => lhs; rw [hold]
      simp only [List.filterMap_append, List.filterMap_cons, Task.pending, List.append_assoc, List.cons_append]
      exact List.perm_middle
    have hnd := List.nodup_cons.1 (hp.nodup_iff.1 h.nodup)
    have hund := h.undecided ref (hp.mem_iff.2 List.mem_cons_self)
    have hlt : ref < w.nSock := pending_lt hr ref (hp.mem_iff.2 List.mem_cons_self)
    have h1 : InvT cfg.recovery.isSome used { w with tasks := w.tasks.eraseIdx k } :=
      ⟨hnd.2, fun r hm => h.undecided r (hp.mem_iff.2 (List.mem_cons_of_mem _ hm)), h.chain, h.life, h.fresh⟩
    have hcl := invT_cleanup h1 cfg hlt hnd.1 hund.1 hund.2
    simp only [runTask, result]; split
    · exact hcl
    · rename_i ho
      split
      · rename_i e
        have cm (p : Pkt) := calm_sockPacket (cleanup cfg { w with tasks := w.tasks.eraseIdx k } ref) ref p
        exact hcl.calm (cm _).tasks (cm _).chains (cm _).nSock ((prim_traced cfg fun _ => True).toPrim0.sockPacket _ _ _)
      · exact invT_doConnect h1 hlt (by simpa using ho) hnd.1 hund.1 hund.2
  | packet ref type =>
    have hp : pending { w with tasks := w.tasks.eraseIdx k } = pending w := by
      unfold pending
      simp only [her]
      conv => rhs; rw [hold]
      simp only [List.filterMap_append, List.filterMap_cons, Task.pending]
    have h1 : InvT cfg.recovery.isSome used { w with tasks := w.tasks.eraseIdx k } :=
      ⟨by rw [hp]; exact h.nodup, by rw [hp]; exact h.undecided, h.chain, h.life, h.fresh⟩
    simp only [runTask, onpacket]; split
    · have cm := calm_onclose cfg { w with tasks := w.tasks.eraseIdx k } ref "client namespace disconnect"
      exact h1.calm cm.tasks cm.chains cm.nSock (traced_onclose _ _ _ _)
    · refine h1.calm (Q := fun _ => True) rfl rfl rfl ⟨[.received ref type], rfl, fun r => .inl ⟨rfl, ?_⟩⟩
      simp [life, lifeOf]

theorem invT_step {cfg : Cfg} {used : List (Nat × Nat)} {w : W} (h : InvT cfg.recovery.isSome used w) (hr : Refs w) (e : Ev)
    (hu : ∀ x, nextCall e = some x → x ∉ used) :
    InvT cfg.recovery.isSome ((nextCall e).toList ++ used) (step cfg w e) := by
  by_cases he : e.calm = true
  · have : (nextCall e).toList = [] := by
      cases e <;> simp only [Ev.calm, Bool.false_eq_true] at he <;> rfl
    rw [this]
    have cm := calm_step cfg w e he
    exact h.calm cm.tasks cm.chains cm.nSock (traced_step cfg w e he)
  · cases e <;> simp only [Ev.calm, not_true_eq_false] at he <;> simp only [step, nextCall, Option.toList, List.nil_append]
    case accept p =>
      have h1 : InvT cfg.recovery.isSome used { w with
          clients := upd w.clients w.nClient { proto3 := p, conn := .opened, timer := true, listening := true }
          nClient := w.nClient + 1 } := ⟨h.nodup, h.undecided, h.chain, h.life, h.fresh⟩
      unfold accept; dsimp only; split
      · exact invT_connect h1 ⟨hr.tasks, hr.chains⟩ _ _ _
      · exact h1
    case recv c type name auth => split; exact invT_ondecoded h hr _ _ _ _; exact h
    case task k =>
      split
      · rename_i t ht; exact invT_task h hr k t ht
      · exact h
    case next k i err => exact invT_next h k i err (hu _ rfl)
    case «of» name =>
      split
      · exact h
      · exact ⟨h.nodup, h.undecided, h.chain, h.life, h.fresh⟩
    case use n =>
      split
      · exact ⟨h.nodup, h.undecided, h.chain, h.life, h.fresh⟩
      · exact h
    case setData ref v =>
      split
      · have hp {β : Type} (p : Sock → β) (hp : p { w.socks ref with data := some v } = p (w.socks ref)) (r : Nat) :
            p ((setSock w ref fun s => { s with data := some v }).socks r) = p (w.socks r) :=
          upd_proj _ _ _ _ p hp
        refine ⟨h.nodup, ?_, h.chain, ?_, ?_⟩
        · intro r; rw [hp Sock.connected rfl, hp Sock.canJoin rfl]; exact h.undecided r
        · intro r; unfold LifeOk; rw [hp Sock.connected rfl, hp Sock.canJoin rfl]; exact h.life r
        · intro r; rw [hp Sock.connected rfl, hp Sock.canJoin rfl]; exact h.fresh r
      · exact h
    case clock t => exact ⟨h.nodup, h.undecided, h.chain, h.life, h.fresh⟩

theorem nextOnce_snoc {h : List Ev} {e : Ev} (hn : NextOnce (h ++ [e])) :
    NextOnce h ∧ ∀ x, nextCall e = some x → x ∉ h.filterMap nextCall := by
  unfold NextOnce at hn ⊢
  rw [List.filterMap_append] at hn
  refine ⟨(List.nodup_append.1 hn).1, fun x hx hm => ?_⟩
  exact (List.nodup_append.1 hn).2.2 x hm x (by simp [hx]) rfl

theorem invT_run (cfg : Cfg) (h : List Ev) (hn : NextOnce h) :
    InvT cfg.recovery.isSome (h.filterMap nextCall) (run cfg h) := by
  induction h using snocRec with
  | nil =>
    refine ⟨List.nodup_nil, fun r hm => by simp [pending, run, init, newNs] at hm, ?_, ?_, ?_⟩
    · intro k ch hk; simp [run, init, newNs] at hk
    · intro r; exact lifeOk_fresh _
    · intro r _; exact ⟨rfl, rfl⟩
  | append_singleton h e ih =>
    obtain ⟨h1, h2⟩ := nextOnce_snoc hn
    rw [run_snoc]
    refine (invT_step (ih h1) (inv_run cfg h).2 e h2).weaken fun x hx => ?_
    rw [List.filterMap_append]
    rcases List.mem_append.1 hx with hx | hx
    · refine List.mem_append_right _ ?_
      simp only [Option.mem_toList] at hx
      simp [hx]
    · exact List.mem_append_left _ hx

end Verif.World
