import Verif.Model.World
import Verif.Proof.Apply
import Verif.Lib.ListExtra

/-! # The server: structural invariant -/

namespace Verif.World
open Verif Verif.Adapter

/-! ## Heaps -/

@[simp] theorem upd_same {α : Type} (f : Nat → α) (i : Nat) (x : α) : upd f i x i = x := by simp [upd]

theorem upd_apply {α : Type} (f : Nat → α) (i j : Nat) (x : α) : upd f i x j = if j = i then x else f j := rfl

theorem upd_ne {α : Type} (f : Nat → α) {i j : Nat} (x : α) (h : j ≠ i) : upd f i x j = f j := by simp [upd, h]

theorem upd_proj {α β : Type} (f : Nat → α) (i j : Nat) (x : α) (p : α → β) (h : p x = p (f i)) :
    p (upd f i x j) = p (f j) := by
  by_cases e : j = i
  · subst e; simp [h]
  · rw [upd_ne f x e]

/-! ## The part of the state that lifecycle steps other than connecting leave alone -/

/-- `s` closed. -/
def closed (s : Sock) : Sock := { s with canJoin := false, connected := false }

/-- From `w` to `w'` nothing was created, and each socket is either as before or was connected and is now
closed. -/
structure Calm (w w' : W) : Prop where
  nNs : w'.nNs = w.nNs
  nSock : w'.nSock = w.nSock
  nClient : w'.nClient = w.nClient
  tasks : w'.tasks = w.tasks
  chains : w'.chains = w.chains
  now : w'.now = w.now
  name : ∀ n, (w'.nss n).name = (w.nss n).name
  fns : ∀ n, (w'.nss n).fns = (w.nss n).fns
  proto3 : ∀ c, (w'.clients c).proto3 = (w.clients c).proto3
  socks : ∀ r, w'.socks r = w.socks r ∨ ((w.socks r).connected = true ∧ w'.socks r = closed (w.socks r))

theorem Calm.refl (w : W) : Calm w w :=
  ⟨rfl, rfl, rfl, rfl, rfl, rfl, fun _ => rfl, fun _ => rfl, fun _ => rfl, fun _ => .inl rfl⟩

theorem Calm.trans {a b c : W} (h1 : Calm a b) (h2 : Calm b c) : Calm a c where
  nNs := h2.nNs.trans h1.nNs
  nSock := h2.nSock.trans h1.nSock
  nClient := h2.nClient.trans h1.nClient
  tasks := h2.tasks.trans h1.tasks
  chains := h2.chains.trans h1.chains
  now := h2.now.trans h1.now
  name n := (h2.name n).trans (h1.name n)
  fns n := (h2.fns n).trans (h1.fns n)
  proto3 n := (h2.proto3 n).trans (h1.proto3 n)
  socks r := by
    rcases h2.socks r with e2 | ⟨c2, e2⟩
    · rcases h1.socks r with e1 | ⟨c1, e1⟩
      · exact .inl (e2.trans e1)
      · exact .inr ⟨c1, e2.trans e1⟩
    · rcases h1.socks r with e1 | ⟨c1, e1⟩
      · rw [e1] at c2 e2; exact .inr ⟨c2, e2⟩
      · rw [e1] at c2; simp [closed] at c2

theorem Calm.ns {w w' : W} (h : Calm w w') (r : Nat) : (w'.socks r).ns = (w.socks r).ns := by
  rcases h.socks r with e | ⟨_, e⟩ <;> rw [e]; rfl
theorem Calm.client {w w' : W} (h : Calm w w') (r : Nat) : (w'.socks r).client = (w.socks r).client := by
  rcases h.socks r with e | ⟨_, e⟩ <;> rw [e]; rfl
theorem Calm.sid {w w' : W} (h : Calm w w') (r : Nat) : (w'.socks r).sid = (w.socks r).sid := by
  rcases h.socks r with e | ⟨_, e⟩ <;> rw [e]; rfl
theorem Calm.pid {w w' : W} (h : Calm w w') (r : Nat) : (w'.socks r).pid = (w.socks r).pid := by
  rcases h.socks r with e | ⟨_, e⟩ <;> rw [e]; rfl

/-- A step that changes no socket and creates nothing. -/
theorem Calm.of_socks {w w' : W} (h1 : w'.nNs = w.nNs) (h2 : w'.nSock = w.nSock) (h3 : w'.nClient = w.nClient)
    (h4 : w'.tasks = w.tasks) (h5 : w'.chains = w.chains) (h6 : w'.now = w.now)
    (h7 : ∀ n, (w'.nss n).name = (w.nss n).name) (h8 : ∀ n, (w'.nss n).fns = (w.nss n).fns)
    (h9 : ∀ c, (w'.clients c).proto3 = (w.clients c).proto3) (h10 : w'.socks = w.socks) : Calm w w' :=
  ⟨h1, h2, h3, h4, h5, h6, h7, h8, h9, fun r => .inl (by rw [h10])⟩

theorem calm_obs (w : W) (o : Obs) : Calm w (obs w o) :=
  .of_socks rfl rfl rfl rfl rfl rfl (fun _ => rfl) (fun _ => rfl) (fun _ => rfl) rfl

theorem calm_setNs (w : W) (n : Nat) (f : Ns → Ns) (h1 : (f (w.nss n)).name = (w.nss n).name)
    (h2 : (f (w.nss n)).fns = (w.nss n).fns) : Calm w (setNs w n f) :=
  .of_socks rfl rfl rfl rfl rfl rfl (fun _ => upd_proj _ _ _ _ Ns.name h1) (fun _ => upd_proj _ _ _ _ Ns.fns h2)
    (fun _ => rfl) rfl

theorem calm_setClient (w : W) (c : Nat) (f : Client → Client)
    (h : (f (w.clients c)).proto3 = (w.clients c).proto3) : Calm w (setClient w c f) :=
  .of_socks rfl rfl rfl rfl rfl rfl (fun _ => rfl) (fun _ => rfl) (fun _ => upd_proj _ _ _ _ Client.proto3 h) rfl

theorem calm_clientPacket (w : W) (c : Nat) (ref : Option Nat) (p : Pkt) : Calm w (clientPacket w c ref p) := by
  unfold clientPacket; split
  · exact calm_obs _ _
  · exact .refl w

theorem calm_sockPacket (w : W) (ref : Nat) (p : Pkt) : Calm w (sockPacket w ref p) := calm_clientPacket _ _ _ _

theorem calm_join (w : W) (ref : Nat) (rooms : List Room) : Calm w (join w ref rooms) := by
  unfold join; split
  · exact calm_setNs _ _ _ rfl rfl
  · exact .refl w

theorem calm_leave (cfg : Cfg) (w : W) (ref : Nat) (room : Room) : Calm w (leave cfg w ref room) :=
  calm_setNs _ _ _ rfl rfl

theorem calm_act (cfg : Cfg) (w : W) (a : Act) : Calm w (act cfg w a) := by
  cases a <;> simp only [act] <;> split
  · exact calm_join _ _ _
  · exact .refl w
  · exact calm_leave _ _ _ _
  · exact .refl w

theorem calm_foldl {α : Type} (f : W → α → W) (h : ∀ w a, Calm w (f w a)) (l : List α) (w : W) :
    Calm w (l.foldl f w) := by
  induction l generalizing w with
  | nil => exact .refl w
  | cons a l ih => exact (h w a).trans (ih _)

theorem calm_persist (cfg : Cfg) (w : W) (ref : Nat) (reason : String) : Calm w (persist cfg w ref reason) := by
  unfold persist; split
  · exact (calm_setNs _ _ _ rfl rfl).trans (calm_obs _ _)
  · exact .refl w

/-! ## What `_cleanup`, `_remove` and the rest of `_onclose` do -/

theorem autoClean_fields (w : W) (n : Nat) :
    (autoClean w n).nss = w.nss ∧ (autoClean w n).socks = w.socks ∧ (autoClean w n).clients = w.clients ∧
    (autoClean w n).nNs = w.nNs ∧ (autoClean w n).nSock = w.nSock ∧ (autoClean w n).nClient = w.nClient ∧
    (autoClean w n).tasks = w.tasks ∧ (autoClean w n).chains = w.chains ∧ (autoClean w n).now = w.now ∧
    (autoClean w n).log = w.log ∧
    ((autoClean w n).nsps = w.nsps ∨ (autoClean w n).nsps = w.nsps.erase (w.nss n).name) := by
  unfold autoClean; split <;> simp

/-- The namespace after `_cleanup` of one of its sockets. -/
def nsCleaned (cfg : Cfg) (w : W) (ref : Nat) : Ns :=
  let n := w.nss (w.socks ref).ns
  { n with ad := (delAll cfg.delRet n.ad (w.socks ref).sid).1, sockets := n.sockets.erase (w.socks ref).sid }

theorem upd_upd {α : Type} (f : Nat → α) (i : Nat) (x y : α) : upd (upd f i x) i y = upd f i y := by
  funext j; by_cases h : j = i <;> simp [upd, h]

theorem cleanup_fields (cfg : Cfg) (w : W) (ref : Nat) :
    (cleanup cfg w ref).nss = upd w.nss (w.socks ref).ns (nsCleaned cfg w ref) ∧
    (cleanup cfg w ref).socks = upd w.socks ref { w.socks ref with canJoin := false } ∧
    (cleanup cfg w ref).clients = w.clients ∧
    (cleanup cfg w ref).nNs = w.nNs ∧ (cleanup cfg w ref).nSock = w.nSock ∧
    (cleanup cfg w ref).nClient = w.nClient ∧ (cleanup cfg w ref).tasks = w.tasks ∧
    (cleanup cfg w ref).chains = w.chains ∧ (cleanup cfg w ref).now = w.now ∧ (cleanup cfg w ref).log = w.log ∧
    ((cleanup cfg w ref).nsps = w.nsps ∨
      (cleanup cfg w ref).nsps = w.nsps.erase (w.nss (w.socks ref).ns).name) := by
  have h := autoClean_fields (setNs (leaveAll cfg w ref) (w.socks ref).ns fun n =>
    { n with sockets := n.sockets.erase (w.socks ref).sid }) (w.socks ref).ns
  obtain ⟨h1, h2, h3, h4, h5, h6, h7, h8, h9, h10, h11⟩ := h
  simp only [cleanup, nsRemove, setSock]
  refine ⟨?_, ?_, ?_, ?_, ?_, ?_, ?_, ?_, ?_, ?_, ?_⟩
  · refine h1.trans ?_; simp [setNs, leaveAll, upd_upd, nsCleaned]
  · exact congrArg (fun s => upd s ref { s ref with canJoin := false }) h2
  · exact h3
  · exact h4
  · exact h5
  · exact h6
  · exact h7
  · exact h8
  · exact h9
  · exact h10
  · rcases h11 with h | h
    · exact .inl h
    · right; refine h.trans ?_
      simp [setNs, leaveAll]

/-- `_cleanup`, `_remove`, and `connected = false`. -/
def shut (cfg : Cfg) (w : W) (ref : Nat) : W :=
  setSock (clientRemove (cleanup cfg w ref) ref) ref fun s => { s with connected := false }

theorem onclose_eq (cfg : Cfg) (w : W) (ref : Nat) (reason : String) :
    onclose cfg w ref reason = if (w.socks ref).connected then
      obs (shut cfg (persist cfg ((cfg.hook ref).foldl (act cfg) (obs w (.disconnecting ref reason))) ref reason) ref)
        (.disconnect ref reason) else w := rfl

/-- The client of `ref` after `_remove`. -/
def clientCleaned (w : W) (ref : Nat) : Client :=
  let k := w.clients (w.socks ref).client
  match k.sockets.get? (w.socks ref).sid with
  | some found => { k with sockets := k.sockets.erase (w.socks ref).sid
                           nsps := k.nsps.erase (w.nss (w.socks found).ns).name }
  | none => k

theorem shut_fields (cfg : Cfg) (w : W) (ref : Nat) :
    (shut cfg w ref).nss = upd w.nss (w.socks ref).ns (nsCleaned cfg w ref) ∧
    (shut cfg w ref).socks = upd w.socks ref (closed (w.socks ref)) ∧
    (shut cfg w ref).clients = upd w.clients (w.socks ref).client (clientCleaned w ref) ∧
    (shut cfg w ref).nNs = w.nNs ∧ (shut cfg w ref).nSock = w.nSock ∧
    (shut cfg w ref).nClient = w.nClient ∧ (shut cfg w ref).tasks = w.tasks ∧
    (shut cfg w ref).chains = w.chains ∧ (shut cfg w ref).now = w.now ∧ (shut cfg w ref).log = w.log ∧
    ((shut cfg w ref).nsps = w.nsps ∨ (shut cfg w ref).nsps = w.nsps.erase (w.nss (w.socks ref).ns).name) := by
  obtain ⟨h1, h2, h3, h4, h5, h6, h7, h8, h9, h10, h11⟩ := cleanup_fields cfg w ref
  have hname : ∀ r, ((cleanup cfg w ref).nss ((cleanup cfg w ref).socks r).ns).name = (w.nss (w.socks r).ns).name := by
    intro r
    rw [h1, h2, upd_proj w.socks ref r { w.socks ref with canJoin := false } Sock.ns rfl]
    exact upd_proj _ _ _ _ Ns.name rfl
  have hself : (cleanup cfg w ref).socks ref = { w.socks ref with canJoin := false } := by rw [h2]; simp
  have hk : (clientRemove (cleanup cfg w ref) ref).clients =
        upd w.clients (w.socks ref).client (clientCleaned w ref) ∧
      (clientRemove (cleanup cfg w ref) ref).nss = (cleanup cfg w ref).nss ∧
      (clientRemove (cleanup cfg w ref) ref).socks = (cleanup cfg w ref).socks ∧
      (clientRemove (cleanup cfg w ref) ref).nNs = (cleanup cfg w ref).nNs ∧
      (clientRemove (cleanup cfg w ref) ref).nSock = (cleanup cfg w ref).nSock ∧
      (clientRemove (cleanup cfg w ref) ref).nClient = (cleanup cfg w ref).nClient ∧
      (clientRemove (cleanup cfg w ref) ref).tasks = (cleanup cfg w ref).tasks ∧
      (clientRemove (cleanup cfg w ref) ref).chains = (cleanup cfg w ref).chains ∧
      (clientRemove (cleanup cfg w ref) ref).now = (cleanup cfg w ref).now ∧
      (clientRemove (cleanup cfg w ref) ref).log = (cleanup cfg w ref).log ∧
      (clientRemove (cleanup cfg w ref) ref).nsps = (cleanup cfg w ref).nsps := by
    simp only [clientRemove, hself, h3]
    unfold clientCleaned
    cases hg : (w.clients (w.socks ref).client).sockets.get? (w.socks ref).sid with
    | none =>
      refine ⟨?_, rfl, rfl, rfl, rfl, rfl, rfl, rfl, rfl, rfl, rfl⟩
      simp only
      rw [h3]; funext j; by_cases e : j = (w.socks ref).client
      · rw [e]; simp [hg]
      · rw [upd_ne _ _ e]
    | some found =>
      refine ⟨?_, rfl, rfl, rfl, rfl, rfl, rfl, rfl, rfl, rfl, rfl⟩
      simp only [setClient, h3, hname, hg]
  obtain ⟨k1, k2, k3, k4, k5, k6, k7, k8, k9, k10, k11⟩ := hk
  simp only [shut, setSock]
  refine ⟨k2.trans h1, ?_, k1, k4.trans h4, k5.trans h5, k6.trans h6, k7.trans h7, k8.trans h8, k9.trans h9,
    k10.trans h10, ?_⟩
  · rw [k3, h2]; simp [upd_upd, closed]
  · rw [k11]; exact h11

theorem calm_shut (cfg : Cfg) (w : W) (ref : Nat) (hc : (w.socks ref).connected = true) :
    Calm w (shut cfg w ref) := by
  obtain ⟨h1, h2, h3, h4, h5, h6, h7, h8, h9, h10, h11⟩ := shut_fields cfg w ref
  refine ⟨h4, h5, h6, h7, h8, h9, ?_, ?_, ?_, ?_⟩
  · intro n; rw [h1]; exact upd_proj _ _ _ _ Ns.name rfl
  · intro n; rw [h1]; exact upd_proj _ _ _ _ Ns.fns rfl
  · intro c; rw [h3]; refine upd_proj _ _ _ _ Client.proto3 ?_
    unfold clientCleaned; dsimp only; split <;> rfl
  · intro r; rw [h2]
    by_cases e : r = ref
    · subst e; right; exact ⟨hc, by simp⟩
    · left; rw [upd_ne _ _ e]

/-- The state in `_onclose` just before `_cleanup`. -/
def closing (cfg : Cfg) (w : W) (ref : Nat) (reason : String) : W :=
  persist cfg ((cfg.hook ref).foldl (act cfg) (obs w (.disconnecting ref reason))) ref reason

theorem onclose_pos (cfg : Cfg) {w : W} {ref : Nat} (reason : String) (h : (w.socks ref).connected = true) :
    onclose cfg w ref reason = obs (shut cfg (closing cfg w ref reason) ref) (.disconnect ref reason) := by
  rw [onclose_eq, if_pos h]; rfl

theorem onclose_neg (cfg : Cfg) {w : W} {ref : Nat} (reason : String) (h : ¬ (w.socks ref).connected = true) :
    onclose cfg w ref reason = w := by
  rw [onclose_eq, if_neg h]

theorem act_socks (cfg : Cfg) (w : W) (a : Act) :
    (act cfg w a).socks = w.socks ∧ (act cfg w a).clients = w.clients ∧ (act cfg w a).log = w.log ∧
    (act cfg w a).nsps = w.nsps := by
  cases a <;> simp only [act, join, leave] <;> (repeat' split) <;> exact ⟨rfl, rfl, rfl, rfl⟩

theorem acts_socks (cfg : Cfg) (l : List Act) (w : W) :
    (l.foldl (act cfg) w).socks = w.socks ∧ (l.foldl (act cfg) w).clients = w.clients ∧
    (l.foldl (act cfg) w).log = w.log ∧ (l.foldl (act cfg) w).nsps = w.nsps := by
  induction l generalizing w with
  | nil => exact ⟨rfl, rfl, rfl, rfl⟩
  | cons a l ih =>
    obtain ⟨h1, h2, h3, h4⟩ := ih (act cfg w a)
    obtain ⟨g1, g2, g3, g4⟩ := act_socks cfg w a
    exact ⟨h1.trans g1, h2.trans g2, h3.trans g3, h4.trans g4⟩

theorem persist_socks (cfg : Cfg) (w : W) (ref : Nat) (reason : String) :
    (persist cfg w ref reason).socks = w.socks ∧ (persist cfg w ref reason).clients = w.clients ∧
    (persist cfg w ref reason).nsps = w.nsps := by
  unfold persist; split <;> exact ⟨rfl, rfl, rfl⟩

theorem closing_socks (cfg : Cfg) (w : W) (ref : Nat) (reason : String) :
    (closing cfg w ref reason).socks = w.socks ∧ (closing cfg w ref reason).clients = w.clients ∧
    (closing cfg w ref reason).nsps = w.nsps := by
  obtain ⟨h1, h2, h3⟩ := persist_socks cfg ((cfg.hook ref).foldl (act cfg) (obs w (.disconnecting ref reason))) ref reason
  obtain ⟨g1, g2, _, g4⟩ := acts_socks cfg (cfg.hook ref) (obs w (.disconnecting ref reason))
  exact ⟨h1.trans g1, h2.trans g2, h3.trans g4⟩

theorem calm_closing (cfg : Cfg) (w : W) (ref : Nat) (reason : String) : Calm w (closing cfg w ref reason) :=
  ((calm_obs w _).trans (calm_foldl _ (calm_act cfg) _ _)).trans (calm_persist _ _ _ _)

theorem calm_onclose (cfg : Cfg) (w : W) (ref : Nat) (reason : String) : Calm w (onclose cfg w ref reason) := by
  by_cases h : (w.socks ref).connected = true
  · rw [onclose_pos cfg reason h]
    refine ((calm_closing cfg w ref reason).trans (calm_shut cfg _ ref ?_)).trans (calm_obs _ _)
    rw [(closing_socks cfg w ref reason).1]; exact h
  · rw [onclose_neg cfg reason h]; exact .refl w

theorem calm_disconnectNs (cfg : Cfg) (w : W) (ref : Nat) : Calm w (disconnectNs cfg w ref) := by
  unfold disconnectNs; split
  · exact (calm_sockPacket _ _ _).trans (calm_onclose _ _ _ _)
  · exact .refl w

theorem calm_eachSocket (c : Nat) (body : W → Nat → W) (h : ∀ w r, Calm w (body w r)) (w : W) (sid : Sid) :
    Calm w (eachSocket c body w sid) := by
  unfold eachSocket; split
  · exact h _ _
  · exact .refl w

theorem calm_clientOnclose (cfg : Cfg) (w : W) (c : Nat) (reason : String) : Calm w (clientOnclose cfg w c reason) := by
  unfold clientOnclose
  refine Calm.trans (b := setClient w c fun k => { k with listening := false, timer := false })
    (calm_setClient _ _ _ rfl) ?_
  exact (calm_foldl _ (calm_eachSocket c _ fun w r => calm_onclose cfg w r reason) _ _).trans
    (calm_setClient _ _ _ rfl)

theorem calm_connClose (cfg : Cfg) (w : W) (c : Nat) : Calm w (connClose cfg w c) := by
  unfold connClose; split
  · have h1 : Calm w (setClient w c fun k => { k with conn := .closing }) := calm_setClient _ _ _ rfl
    dsimp only; split
    · split
      · exact h1.trans (calm_clientOnclose _ _ _ _)
      · exact h1
    · exact h1
  · exact .refl w

theorem calm_clientClose (cfg : Cfg) (w : W) (c : Nat) : Calm w (clientClose cfg w c) := by
  unfold clientClose; split
  · exact (calm_connClose _ _ _).trans (calm_clientOnclose _ _ _ _)
  · exact .refl w

theorem calm_clientDisconnect (cfg : Cfg) (w : W) (c : Nat) : Calm w (clientDisconnect cfg w c) := by
  unfold clientDisconnect
  refine Calm.trans ?_ (calm_clientClose _ _ _)
  exact (calm_foldl _ (calm_eachSocket c _ (calm_disconnectNs cfg)) _ _).trans (calm_setClient _ _ _ rfl)

theorem calm_disconnect (cfg : Cfg) (status : Bool) (w : W) (ref : Nat) : Calm w (disconnect cfg status w ref) := by
  unfold disconnect; split
  · split
    · exact calm_clientDisconnect _ _ _
    · exact calm_disconnectNs _ _ _
  · exact .refl w

/-! ### `apply` -/

theorem applyIds_rel {σ ρ : Type} {V : View σ ρ} {cb : σ → ρ → σ} (R : σ → σ → Prop) (rf : ∀ s, R s s)
    (tr : ∀ {a b c}, R a b → R b c → R a c) (h : ∀ s id p, V.sock s id = some p → R s (cb s p)) (ex : List Sid)
    (l : List Sid) (st : σ × List Sid) : R st.1 (applyIds V cb ex l st).1 := by
  induction l generalizing st with
  | nil => exact rf _
  | cons a l ih =>
    obtain ⟨s, ids⟩ := st
    unfold applyIds
    split
    · exact ih _
    · split
      · rename_i p hp; exact tr (h s a p hp) (ih (cb s p, ids ++ [a]))
      · exact ih _

theorem applyRooms_rel {σ ρ : Type} {V : View σ ρ} {cb : σ → ρ → σ} (R : σ → σ → Prop) (rf : ∀ s, R s s)
    (tr : ∀ {a b c}, R a b → R b c → R a c) (h : ∀ s id p, V.sock s id = some p → R s (cb s p)) (ex : List Sid)
    (l : List Room) (st : σ × List Sid) : R st.1 (applyRooms V cb ex l st).1 := by
  induction l generalizing st with
  | nil => exact rf _
  | cons a l ih =>
    obtain ⟨s, ids⟩ := st
    unfold applyRooms
    split
    · rename_i x _; exact tr (applyIds_rel R rf tr h ex x (s, ids)) (ih _)
    · exact ih _

theorem applyAll_rel {σ ρ : Type} {V : View σ ρ} {cb : σ → ρ → σ} (R : σ → σ → Prop) (rf : ∀ s, R s s)
    (tr : ∀ {a b c}, R a b → R b c → R a c) (h : ∀ s id p, V.sock s id = some p → R s (cb s p)) (ex : List Sid)
    (l : List Sid) (st : σ × List Sid) : R st.1 (applyAll V cb ex l st).1 := by
  induction l generalizing st with
  | nil => exact rf _
  | cons a l ih =>
    obtain ⟨s, ids⟩ := st
    unfold applyAll
    split
    · exact ih _
    · split
      · exact ih _
      · split
        · rename_i p hp; exact tr (h s a p hp) (ih (cb s p, ids ++ [a]))
        · exact ih _

/-- A reflexive and transitive relation that every callback respects holds from the start to the end of
`apply`. -/
theorem apply_rel {σ ρ : Type} {V : View σ ρ} {cb : σ → ρ → σ} (R : σ → σ → Prop) (rf : ∀ s, R s s)
    (tr : ∀ {a b c}, R a b → R b c → R a c) (h : ∀ s id p, V.sock s id = some p → R s (cb s p))
    (opts : Option Opts) (s : σ) : R s (apply V opts cb s).1 := by
  unfold apply; dsimp only; split
  · exact applyRooms_rel R rf tr h _ _ (s, [])
  · exact applyAll_rel R rf tr h _ _ (s, [])

/-- What every callback preserves, `apply` preserves. -/
theorem apply_pres {σ ρ : Type} {V : View σ ρ} {cb : σ → ρ → σ} (P : σ → Prop)
    (h : ∀ s id p, P s → V.sock s id = some p → P (cb s p)) (opts : Option Opts) (s : σ) (hs : P s) :
    P (apply V opts cb s).1 :=
  apply_rel (fun a b => P a → P b) (fun _ h => h) (fun h1 h2 h => h2 (h1 h)) (fun s id p hp hP => h s id p hP hp)
    opts s hs

/-! ## The structural invariant -/

structure InvS (w : W) : Prop where
  sock : ∀ r, r < w.nSock → (w.socks r).ns < w.nNs ∧ (w.socks r).client < w.nClient
  conn : ∀ r, (w.socks r).connected = true → r < w.nSock
  ad : ∀ n, Inv (w.nss n).ad
  nsWf : ∀ n, (w.nss n).sockets.WF
  reg : ∀ n sid r, (w.nss n).sockets.get? sid = some r →
    (w.socks r).ns = n ∧ (w.socks r).sid = sid ∧ (w.socks r).connected = true
  live : ∀ n sid, sid ∈ (w.nss n).ad.sids.keys → ∃ r, r < w.nSock ∧ (w.socks r).ns = n ∧ (w.socks r).sid = sid ∧
    (w.socks r).canJoin = true
  clWf : ∀ c, (w.clients c).sockets.WF
  cl : ∀ c sid r, (w.clients c).sockets.get? sid = some r →
    (w.socks r).client = c ∧ (w.socks r).sid = sid ∧ (w.socks r).connected = true
  clNs : ∀ c name r, (w.clients c).nsps.get? name = some r →
    r < w.nSock ∧ (w.socks r).client = c ∧ (w.nss (w.socks r).ns).name = name
  timer : ∀ c, (w.clients c).timer = true → (w.clients c).nsps = [] ∧ (w.clients c).listening = true
  names : ∀ name n, w.nsps.get? name = some n → n < w.nNs ∧ (w.nss n).name = name
  nspsWf : w.nsps.WF

theorem invS_obs {w : W} (h : InvS w) (o : Obs) : InvS (obs w o) :=
  ⟨h.sock, h.conn, h.ad, h.nsWf, h.reg, h.live, h.clWf, h.cl, h.clNs, h.timer, h.names, h.nspsWf⟩

theorem invS_tasks {w : W} (h : InvS w) (t : List Task) : InvS { w with tasks := t } :=
  ⟨h.sock, h.conn, h.ad, h.nsWf, h.reg, h.live, h.clWf, h.cl, h.clNs, h.timer, h.names, h.nspsWf⟩

theorem invS_chains {w : W} (h : InvS w) (t : List Chain) : InvS { w with chains := t } :=
  ⟨h.sock, h.conn, h.ad, h.nsWf, h.reg, h.live, h.clWf, h.cl, h.clNs, h.timer, h.names, h.nspsWf⟩

theorem invS_now {w : W} (h : InvS w) (t : Int) : InvS { w with now := t } :=
  ⟨h.sock, h.conn, h.ad, h.nsWf, h.reg, h.live, h.clWf, h.cl, h.clNs, h.timer, h.names, h.nspsWf⟩

/-- A change of one namespace's adapter, session store or middlewares. -/
theorem invS_setNs {w : W} (h : InvS w) (n : Nat) (f : Ns → Ns) (hn : (f (w.nss n)).name = (w.nss n).name)
    (hs : (f (w.nss n)).sockets = (w.nss n).sockets) (ha : Inv (f (w.nss n)).ad)
    (hk : ∀ sid, sid ∈ (f (w.nss n)).ad.sids.keys → sid ∈ (w.nss n).ad.sids.keys ∨
      ∃ r, r < w.nSock ∧ (w.socks r).ns = n ∧ (w.socks r).sid = sid ∧ (w.socks r).canJoin = true) :
    InvS (setNs w n f) where
  sock := h.sock
  conn := h.conn
  ad k := by
    simp only [setNs, upd_apply]; split
    · exact ha
    · exact h.ad k
  nsWf k := by
    simp only [setNs]; rw [upd_proj w.nss n k _ Ns.sockets hs]; exact h.nsWf k
  reg k := by
    simp only [setNs]; rw [upd_proj w.nss n k _ Ns.sockets hs]; exact h.reg k
  live k sid := by
    simp only [setNs, upd_apply]; split
    · rename_i e; subst e; intro hm
      rcases hk sid hm with hm | hm
      · exact h.live k sid hm
      · exact hm
    · exact h.live k sid
  clWf := h.clWf
  cl := h.cl
  clNs c name r hg := by
    simp only [setNs]; rw [upd_proj w.nss n _ _ Ns.name hn]; exact h.clNs c name r hg
  timer := h.timer
  names name k hg := by
    simp only [setNs]; rw [upd_proj w.nss n _ _ Ns.name hn]; exact h.names name k hg
  nspsWf := h.nspsWf

/-- A change of one client in which no socket is added. -/
theorem invS_setClient {w : W} (h : InvS w) (c : Nat) (f : Client → Client)
    (h1 : (f (w.clients c)).sockets.WF)
    (h2 : ∀ sid r, (f (w.clients c)).sockets.get? sid = some r →
      (w.socks r).client = c ∧ (w.socks r).sid = sid ∧ (w.socks r).connected = true)
    (h3 : ∀ name r, (f (w.clients c)).nsps.get? name = some r → 
      r < w.nSock ∧ (w.socks r).client = c ∧ (w.nss (w.socks r).ns).name = name)
    (h5 : (f (w.clients c)).timer = true → (f (w.clients c)).nsps = [] ∧ (f (w.clients c)).listening = true) :
    InvS (setClient w c f) where
  sock := h.sock
  conn := h.conn
  ad := h.ad
  nsWf := h.nsWf
  reg := h.reg
  live := h.live
  clWf k := by simp only [setClient, upd_apply]; split; exact h1; exact h.clWf k
  cl k sid r := by
    simp only [setClient, upd_apply]; split
    · rename_i e; subst e; exact h2 sid r
    · exact h.cl k sid r
  clNs k name r := by
    simp only [setClient, upd_apply]; split
    · rename_i e; subst e; exact h3 name r
    · exact h.clNs k name r
  timer k := by simp only [setClient, upd_apply]; split; exact h5; exact h.timer k
  names := h.names
  nspsWf := h.nspsWf

theorem invS_clientPacket {w : W} (h : InvS w) (c : Nat) (ref : Option Nat) (p : Pkt) :
    InvS (clientPacket w c ref p) := by
  unfold clientPacket; split
  · exact invS_obs h _
  · exact h

theorem invS_sockPacket {w : W} (h : InvS w) (ref : Nat) (p : Pkt) : InvS (sockPacket w ref p) :=
  invS_clientPacket h _ _ _

theorem invS_join {w : W} (h : InvS w) {ref : Nat} (hr : ref < w.nSock) (rooms : List Room) :
    InvS (join w ref rooms) := by
  unfold join; split
  · rename_i hj
    obtain ⟨h1, _, h3⟩ := addAll_spec (h.ad (w.socks ref).ns) (w.socks ref).sid rooms
    refine invS_setNs h _ _ rfl rfl h1 fun sid hm => ?_
    rcases (h3 sid).1 hm with e | e
    · exact .inr ⟨ref, hr, rfl, e.symm, hj⟩
    · exact .inl e
  · exact h

theorem invS_leave {w : W} (h : InvS w) (cfg : Cfg) (ref : Nat) (room : Room) : InvS (leave cfg w ref room) := by
  obtain ⟨h1, _, h3⟩ := del_spec (h.ad (w.socks ref).ns) cfg.delRet (w.socks ref).sid room
  exact invS_setNs h _ _ rfl rfl h1 fun sid hm => .inl ((h3 sid).1 hm)

theorem invS_act {w : W} (h : InvS w) (cfg : Cfg) (a : Act) : InvS (act cfg w a) := by
  cases a <;> simp only [act] <;> split
  · rename_i hr; exact invS_join h hr _
  · exact h
  · exact invS_leave h _ _ _
  · exact h

theorem foldl_pres {α : Type} {P : W → Prop} {f : W → α → W} (hf : ∀ w a, P w → P (f w a)) (l : List α) {w : W}
    (h : P w) : P (l.foldl f w) := by
  induction l generalizing w with
  | nil => exact h
  | cons a l ih => exact ih (hf w a h)

theorem invS_sess {w : W} (h : InvS w) (n : Nat) (f : Ns → Session.St) :
    InvS (setNs w n fun k => { k with sess := f k }) :=
  invS_setNs h _ _ rfl rfl (h.ad n) fun _ hm => .inl hm

theorem invS_persist {w : W} (h : InvS w) (cfg : Cfg) (ref : Nat) (reason : String) :
    InvS (persist cfg w ref reason) := by
  unfold persist; split
  · exact invS_obs (invS_sess h _ _) _
  · exact h

theorem invS_closing {w : W} (h : InvS w) (cfg : Cfg) (ref : Nat) (reason : String) :
    InvS (closing cfg w ref reason) := by
  unfold closing
  exact invS_persist (foldl_pres (P := InvS) (fun _ a h => invS_act h cfg a) _ (invS_obs h _)) _ _ _

theorem names_erase {w : W} (h : InvS w) {m : FMap String Nat} {x : String} (e : m = w.nsps ∨ m = w.nsps.erase x) :
    m.WF ∧ ∀ name n, m.get? name = some n → w.nsps.get? name = some n := by
  rcases e with e | e <;> subst e
  · exact ⟨h.nspsWf, fun _ _ h => h⟩
  · refine ⟨FMap.wf_erase h.nspsWf _, fun name n hg => ?_⟩
    rw [FMap.get?_erase] at hg; split at hg
    · simp at hg
    · exact hg

/-- The part of the invariant about the namespaces, after `_cleanup` (with whatever happens to the socket). -/
theorem cleaned_ns {w : W} (h : InvS w) (cfg : Cfg) (ref : Nat) (n : Nat) (x : Sock)
    (e1 : x.ns = (w.socks ref).ns) (e2 : x.sid = (w.socks ref).sid) :
    Inv (upd w.nss (w.socks ref).ns (nsCleaned cfg w ref) n).ad ∧
    (upd w.nss (w.socks ref).ns (nsCleaned cfg w ref) n).sockets.WF ∧
    (∀ sid r, (upd w.nss (w.socks ref).ns (nsCleaned cfg w ref) n).sockets.get? sid = some r →
      (upd w.socks ref x r).ns = n ∧ (upd w.socks ref x r).sid = sid ∧ (upd w.socks ref x r).connected = true) ∧
    (∀ sid, sid ∈ (upd w.nss (w.socks ref).ns (nsCleaned cfg w ref) n).ad.sids.keys →
      ∃ r, r < w.nSock ∧ (upd w.socks ref x r).ns = n ∧ (upd w.socks ref x r).sid = sid ∧
        (upd w.socks ref x r).canJoin = true) := by
  obtain ⟨h1, _, h3⟩ := delAll_spec (h.ad (w.socks ref).ns) cfg.delRet (w.socks ref).sid
  by_cases e : n = (w.socks ref).ns
  · subst e
    rw [upd_same]
    refine ⟨h1, FMap.wf_erase (h.nsWf _) _, fun sid r hg => ?_, fun sid hm => ?_⟩
    · simp only [nsCleaned, FMap.get?_erase] at hg
      split at hg
      · simp at hg
      · rename_i hne
        obtain ⟨a, b, c⟩ := h.reg _ _ _ hg
        have : r ≠ ref := fun e => hne (by rw [← b, e])
        rw [upd_ne _ _ this]; exact ⟨a, b, c⟩
    · obtain ⟨hm, hne⟩ := (h3 sid).1 hm
      obtain ⟨r, a, b, c, d⟩ := h.live _ _ hm
      have : r ≠ ref := fun e => hne (by rw [← c, e])
      exact ⟨r, a, by rw [upd_ne _ _ this]; exact ⟨b, c, d⟩⟩
  · rw [upd_ne _ _ e]
    refine ⟨h.ad n, h.nsWf n, fun sid r hg => ?_, fun sid hm => ?_⟩
    · obtain ⟨a, b, c⟩ := h.reg _ _ _ hg
      have : r ≠ ref := by rintro rfl; exact e a.symm
      rw [upd_ne _ _ this]; exact ⟨a, b, c⟩
    · obtain ⟨r, a, b, c, d⟩ := h.live _ _ hm
      have : r ≠ ref := by rintro rfl; exact e b.symm
      exact ⟨r, a, by rw [upd_ne _ _ this]; exact ⟨b, c, d⟩⟩

theorem invS_cleanup {w : W} (h : InvS w) (cfg : Cfg) (ref : Nat) : InvS (cleanup cfg w ref) := by
  obtain ⟨h1, h2, h3, h4, h5, h6, h7, h8, h9, h10, h11⟩ := cleanup_fields cfg w ref
  have hp {β : Type} (p : Sock → β) (hp : p { w.socks ref with canJoin := false } = p (w.socks ref)) (r : Nat) :
      p ((cleanup cfg w ref).socks r) = p (w.socks r) := by
    rw [h2]; exact upd_proj _ _ _ _ p hp
  have hnm (n : Nat) : ((cleanup cfg w ref).nss n).name = (w.nss n).name := by
    rw [h1]; exact upd_proj _ _ _ _ Ns.name rfl
  have hn := fun n => cleaned_ns h cfg ref n { w.socks ref with canJoin := false } rfl rfl
  obtain ⟨hw, hns⟩ := names_erase h h11
  refine ⟨?_, ?_, ?_, ?_, ?_, ?_, ?_, ?_, ?_, ?_, ?_, hw⟩
  · intro r; rw [h4, h5, h6, hp Sock.ns rfl, hp Sock.client rfl]; exact h.sock r
  · intro r; rw [h5, hp Sock.connected rfl]; exact h.conn r
  · intro n; rw [h1]; exact (hn n).1
  · intro n; rw [h1]; exact (hn n).2.1
  · intro n; rw [h1, h2]; exact (hn n).2.2.1
  · intro n; rw [h1, h2, h5]; exact (hn n).2.2.2
  · rw [h3]; exact h.clWf
  · intro c sid r; rw [h3, hp Sock.client rfl, hp Sock.sid rfl, hp Sock.connected rfl]; exact h.cl c sid r
  · intro c name r; rw [h3, h5, hp Sock.client rfl, hp Sock.ns rfl, hnm]; exact h.clNs c name r
  · rw [h3]; exact h.timer
  · intro name n hg; rw [h4, hnm]; exact h.names name n (hns name n hg)

theorem clientCleaned_sockets (w : W) (ref : Nat) (sid : Sid) (r : Nat) :
    (clientCleaned w ref).sockets.get? sid = some r ↔
      (w.clients (w.socks ref).client).sockets.get? sid = some r ∧ sid ≠ (w.socks ref).sid := by
  unfold clientCleaned; dsimp only
  split
  · rw [FMap.get?_erase]; split
    · rename_i e; simp [e]
    · rename_i e; simp [Ne.symm e]
  · rename_i hg
    constructor
    · intro h; refine ⟨h, ?_⟩; rintro rfl; rw [hg] at h; simp at h
    · exact fun h => h.1

theorem clientCleaned_nsps (w : W) (ref : Nat) (name : String) (r : Nat)
    (h : (clientCleaned w ref).nsps.get? name = some r) :
    (w.clients (w.socks ref).client).nsps.get? name = some r := by
  unfold clientCleaned at h; dsimp only at h
  split at h
  · rw [FMap.get?_erase] at h; split at h
    · simp at h
    · exact h
  · exact h

theorem invS_shut {w : W} (h : InvS w) (cfg : Cfg) (ref : Nat) : InvS (shut cfg w ref) := by
  obtain ⟨h1, h2, h3, h4, h5, h6, h7, h8, h9, h10, h11⟩ := shut_fields cfg w ref
  have hp {β : Type} (p : Sock → β) (hp : p (closed (w.socks ref)) = p (w.socks ref)) (r : Nat) :
      p ((shut cfg w ref).socks r) = p (w.socks r) := by
    rw [h2]; exact upd_proj _ _ _ _ p hp
  have hnm (n : Nat) : ((shut cfg w ref).nss n).name = (w.nss n).name := by
    rw [h1]; exact upd_proj _ _ _ _ Ns.name rfl
  have hn := fun n => cleaned_ns h cfg ref n (closed (w.socks ref)) rfl rfl
  obtain ⟨hw, hns⟩ := names_erase h h11
  refine ⟨?_, ?_, ?_, ?_, ?_, ?_, ?_, ?_, ?_, ?_, ?_, hw⟩
  · intro r; rw [h4, h5, h6, hp Sock.ns rfl, hp Sock.client rfl]; exact h.sock r
  · intro r; rw [h5, h2, upd_apply]; split
    · simp [closed]
    · exact h.conn r
  · intro n; rw [h1]; exact (hn n).1
  · intro n; rw [h1]; exact (hn n).2.1
  · intro n; rw [h1, h2]; exact (hn n).2.2.1
  · intro n; rw [h1, h2, h5]; exact (hn n).2.2.2
  · intro c; rw [h3, upd_apply]; split
    · unfold clientCleaned; dsimp only; split
      · exact FMap.wf_erase (h.clWf _) _
      · exact h.clWf _
    · exact h.clWf c
  · intro c sid r; rw [h3, upd_apply]; intro hg
    have key : (w.clients c).sockets.get? sid = some r ∧ r ≠ ref := by
      split at hg
      · rename_i e
        obtain ⟨a, b⟩ := (clientCleaned_sockets w ref sid r).1 hg
        rw [← e] at a
        exact ⟨a, by rintro rfl; exact b (h.cl _ _ _ a).2.1.symm⟩
      · rename_i e; exact ⟨hg, by rintro rfl; exact e (h.cl _ _ _ hg).1.symm⟩
    rw [h2, upd_ne _ _ key.2]; exact h.cl c sid r key.1
  · intro c name r; rw [h3, h5, hp Sock.client rfl, hp Sock.ns rfl, hnm, upd_apply]; intro hg
    split at hg
    · rename_i e; subst e; exact h.clNs _ name r (clientCleaned_nsps w ref name r hg)
    · exact h.clNs c name r hg
  · intro c; rw [h3, upd_apply]; split
    · intro hl
      have hl' : (w.clients (w.socks ref).client).timer = true := by
        revert hl; unfold clientCleaned; dsimp only; split <;> exact id
      obtain ⟨a, b⟩ := h.timer _ hl'
      unfold clientCleaned; dsimp only; split
      · exact ⟨by rw [a]; rfl, b⟩
      · exact ⟨a, b⟩
    · exact h.timer c
  · intro name n hg; rw [h4, hnm]; exact h.names name n (hns name n hg)

theorem invS_onclose {w : W} (h : InvS w) (cfg : Cfg) (ref : Nat) (reason : String) :
    InvS (onclose cfg w ref reason) := by
  by_cases hc : (w.socks ref).connected = true
  · rw [onclose_pos cfg reason hc]; exact invS_obs (invS_shut (invS_closing h _ _ _) _ _) _
  · rw [onclose_neg cfg reason hc]; exact h

theorem invS_disconnectNs {w : W} (h : InvS w) (cfg : Cfg) (ref : Nat) : InvS (disconnectNs cfg w ref) := by
  unfold disconnectNs; split
  · exact invS_onclose (invS_sockPacket h _ _) _ _ _
  · exact h

theorem invS_eachSocket (c : Nat) {body : W → Nat → W} (hb : ∀ w r, InvS w → InvS (body w r)) (w : W) (sid : Sid)
    (h : InvS w) : InvS (eachSocket c body w sid) := by
  unfold eachSocket; split
  · exact hb _ _ h
  · exact h

/-- Emptying a client's table of sockets, or changing its connection. -/
theorem invS_client {w : W} (h : InvS w) (c : Nat) (f : Client → Client)
    (h1 : (f (w.clients c)).sockets = (w.clients c).sockets ∨ (f (w.clients c)).sockets = [])
    (h2 : (f (w.clients c)).nsps = (w.clients c).nsps)
    (h3 : (f (w.clients c)).timer = true → (f (w.clients c)).listening = (w.clients c).listening ∧ (w.clients c).timer = true) :
    InvS (setClient w c f) := by
  refine invS_setClient h c f ?_ ?_ ?_ ?_
  · rcases h1 with e | e <;> rw [e]
    · exact h.clWf c
    · exact FMap.wf_nil
  · intro sid r hg; rcases h1 with e | e <;> rw [e] at hg
    · exact h.cl c sid r hg
    · simp at hg
  · rw [h2]; exact h.clNs c
  · intro ht; obtain ⟨a, b⟩ := h3 ht; rw [h2, a]; exact h.timer c b

theorem invS_clientOnclose {w : W} (h : InvS w) (cfg : Cfg) (c : Nat) (reason : String) :
    InvS (clientOnclose cfg w c reason) := by
  unfold clientOnclose
  refine invS_client (foldl_pres (P := InvS) (invS_eachSocket c fun w r h => invS_onclose h cfg r reason) _
    (invS_client h c _ (.inl rfl) rfl (by simp))) c _ (.inr rfl) rfl fun h => ⟨rfl, h⟩

theorem invS_connClose {w : W} (h : InvS w) (cfg : Cfg) (c : Nat) : InvS (connClose cfg w c) := by
  unfold connClose; split
  · have h1 : InvS (setClient w c fun k => { k with conn := .closing }) :=
      invS_client h c _ (.inl rfl) rfl fun h => ⟨rfl, h⟩
    dsimp only; split
    · split
      · exact invS_clientOnclose h1 _ _ _
      · exact h1
    · exact h1
  · exact h

theorem invS_clientClose {w : W} (h : InvS w) (cfg : Cfg) (c : Nat) : InvS (clientClose cfg w c) := by
  unfold clientClose; split
  · exact invS_clientOnclose (invS_connClose h _ _) _ _ _
  · exact h

theorem invS_clientDisconnect {w : W} (h : InvS w) (cfg : Cfg) (c : Nat) : InvS (clientDisconnect cfg w c) := by
  unfold clientDisconnect
  exact invS_clientClose (invS_client (foldl_pres (P := InvS) (invS_eachSocket c fun w r h => invS_disconnectNs h cfg r) _ h)
    c _ (.inr rfl) rfl fun h => ⟨rfl, h⟩) _ _

theorem invS_disconnect {w : W} (h : InvS w) (cfg : Cfg) (status : Bool) (ref : Nat) :
    InvS (disconnect cfg status w ref) := by
  unfold disconnect; split
  · split
    · exact invS_clientDisconnect h _ _
    · exact invS_disconnectNs h _ _
  · exact h

/-! ### Connecting -/

/-- The packet sent by `_onconnect`. -/
def connectPkt (w : W) (ref : Nat) : Pkt :=
  { type := .connect
    data := if (w.clients (w.socks ref).client).proto3 then .nil else .connect (w.socks ref).sid (w.socks ref).pid
    nsp := (w.nss (w.socks ref).ns).name }

/-- The namespace after `_doConnect`. -/
def nsConnected (w : W) (ref : Nat) : Ns :=
  let n := w.nss (w.socks ref).ns
  { n with
    sockets := n.sockets.insert (w.socks ref).sid ref
    ad := if (w.socks ref).canJoin then (addAll n.ad (w.socks ref).sid [(w.socks ref).sid]).1 else n.ad }

theorem upd_self {α : Type} (f : Nat → α) (i : Nat) : upd f i (f i) = f := by
  funext j; by_cases h : j = i <;> simp [upd, h]

theorem doConnect_fields (w : W) (ref : Nat) :
    (doConnect w ref).nss = upd w.nss (w.socks ref).ns (nsConnected w ref) ∧
    (doConnect w ref).socks = upd w.socks ref { w.socks ref with connected := true } ∧
    (doConnect w ref).clients = upd w.clients (w.socks ref).client
      { w.clients (w.socks ref).client with
        sockets := (w.clients (w.socks ref).client).sockets.insert (w.socks ref).sid ref
        nsps := (w.clients (w.socks ref).client).nsps.insert (w.nss (w.socks ref).ns).name ref
        timer := false } ∧
    (doConnect w ref).nNs = w.nNs ∧ (doConnect w ref).nSock = w.nSock ∧
    (doConnect w ref).nClient = w.nClient ∧ (doConnect w ref).tasks = w.tasks ∧
    (doConnect w ref).chains = w.chains ∧ (doConnect w ref).now = w.now ∧
    (doConnect w ref).nsps = w.nsps ∧
    ((w.clients (w.socks ref).client).conn = .opened → (doConnect w ref).log =
      w.log ++ [.packet (w.socks ref).client (some ref) (connectPkt w ref), .connection ref]) := by
  by_cases hj : (w.socks ref).canJoin = true
  · have e1 : (join (setSock (setNs w (w.socks ref).ns fun k =>
        { k with sockets := k.sockets.insert (w.socks ref).sid ref }) ref fun s => { s with connected := true })
          ref [(w.socks ref).sid]) =
        { w with nss := upd w.nss (w.socks ref).ns (nsConnected w ref)
                 socks := upd w.socks ref { w.socks ref with connected := true } } := by
      simp [join, setSock, setNs, hj, upd_upd, nsConnected]
    unfold doConnect; dsimp only; rw [e1]
    simp only [sockPacket, clientPacket, setClient, obs, upd_same]
    split <;> rename_i ho
    · refine ⟨rfl, rfl, ?_, rfl, rfl, rfl, rfl, rfl, rfl, rfl, ?_⟩
      · simp [nsConnected]
      · intro _; simp [connectPkt, nsConnected]
    · refine ⟨rfl, rfl, ?_, rfl, rfl, rfl, rfl, rfl, rfl, rfl, ?_⟩
      · simp [nsConnected]
      · intro h; exact absurd h ho
  · have e1 : (join (setSock (setNs w (w.socks ref).ns fun k =>
        { k with sockets := k.sockets.insert (w.socks ref).sid ref }) ref fun s => { s with connected := true })
          ref [(w.socks ref).sid]) =
        { w with nss := upd w.nss (w.socks ref).ns (nsConnected w ref)
                 socks := upd w.socks ref { w.socks ref with connected := true } } := by
      simp [join, setSock, setNs, hj, nsConnected]
    unfold doConnect; dsimp only; rw [e1]
    simp only [sockPacket, clientPacket, setClient, obs, upd_same]
    split <;> rename_i ho
    · refine ⟨rfl, rfl, ?_, rfl, rfl, rfl, rfl, rfl, rfl, rfl, ?_⟩
      · simp [nsConnected]
      · intro _; simp [connectPkt, nsConnected]
    · refine ⟨rfl, rfl, ?_, rfl, rfl, rfl, rfl, rfl, rfl, rfl, ?_⟩
      · simp [nsConnected]
      · intro h; exact absurd h ho

theorem invS_doConnect {w : W} (h : InvS w) {ref : Nat} (hr : ref < w.nSock) : InvS (doConnect w ref) := by
  obtain ⟨h1, h2, h3, h4, h5, h6, h7, h8, h9, h10, h11⟩ := doConnect_fields w ref
  have hp {β : Type} (p : Sock → β) (hp : p { w.socks ref with connected := true } = p (w.socks ref)) (r : Nat) :
      p ((doConnect w ref).socks r) = p (w.socks r) := by
    rw [h2]; exact upd_proj _ _ _ _ p hp
  have hcn (r : Nat) (hc : (w.socks r).connected = true) : ((doConnect w ref).socks r).connected = true := by
    rw [h2, upd_apply]; split
    · rfl
    · exact hc
  have hself : ((doConnect w ref).socks ref).connected = true := by rw [h2]; simp
  have hnm (n : Nat) : ((doConnect w ref).nss n).name = (w.nss n).name := by
    rw [h1]; exact upd_proj _ _ _ _ Ns.name rfl
  have haa := addAll_spec (h.ad (w.socks ref).ns) (w.socks ref).sid [(w.socks ref).sid]
  refine ⟨?_, ?_, ?_, ?_, ?_, ?_, ?_, ?_, ?_, ?_, ?_, by rw [h10]; exact h.nspsWf⟩
  · intro r; rw [h4, h5, h6, hp Sock.ns rfl, hp Sock.client rfl]; exact h.sock r
  · intro r; rw [h5, h2, upd_apply]; split
    · rename_i e; intro _; rw [e]; exact hr
    · exact h.conn r
  · intro n; rw [h1, upd_apply]; split
    · unfold nsConnected; dsimp only; split
      · exact haa.1
      · exact h.ad _
    · exact h.ad n
  · intro n; rw [h1, upd_apply]; split
    · exact FMap.wf_insert (h.nsWf _) _ _
    · exact h.nsWf n
  · intro n sid r; rw [hp Sock.ns rfl, hp Sock.sid rfl, h1, upd_apply]; split
    · rename_i e; intro hg; simp only [nsConnected, FMap.get?_insert] at hg
      split at hg
      · rename_i e'; cases hg; exact ⟨e.symm, e', hself⟩
      · obtain ⟨a, b, c⟩ := h.reg _ _ _ hg; exact ⟨a.trans e.symm, b, hcn _ c⟩
    · intro hg; obtain ⟨a, b, c⟩ := h.reg _ _ _ hg; exact ⟨a, b, hcn _ c⟩
  · intro n sid hm
    have hm' : sid ∈ (w.nss n).ad.sids.keys ∨ (n = (w.socks ref).ns ∧ sid = (w.socks ref).sid ∧ (w.socks ref).canJoin = true) := by
      rw [h1, upd_apply] at hm; split at hm
      · rename_i e; unfold nsConnected at hm; dsimp only at hm; split at hm
        · rename_i hj; rcases (haa.2.2 sid).1 hm with e' | e'
          · exact .inr ⟨e, e', hj⟩
          · exact .inl (e ▸ e')
        · exact .inl (e ▸ hm)
      · exact .inl hm
    rcases hm' with hm | ⟨e1, e2, e3⟩
    · obtain ⟨r, a, b, c, d⟩ := h.live n sid hm
      exact ⟨r, by rw [h5]; exact a, by rw [hp Sock.ns rfl]; exact b, by rw [hp Sock.sid rfl]; exact c,
        by rw [hp Sock.canJoin rfl]; exact d⟩
    · exact ⟨ref, by rw [h5]; exact hr, by rw [hp Sock.ns rfl]; exact e1.symm, by rw [hp Sock.sid rfl]; exact e2.symm,
        by rw [hp Sock.canJoin rfl]; exact e3⟩
  · intro c; rw [h3, upd_apply]; split
    · exact FMap.wf_insert (h.clWf _) _ _
    · exact h.clWf c
  · intro c sid r; rw [hp Sock.client rfl, hp Sock.sid rfl, h3, upd_apply]; split
    · rename_i e; intro hg; rw [FMap.get?_insert] at hg
      split at hg
      · rename_i e'; cases hg; exact ⟨e.symm, e', hself⟩
      · obtain ⟨a, b, c⟩ := h.cl _ _ _ hg; exact ⟨a.trans e.symm, b, hcn _ c⟩
    · intro hg; obtain ⟨a, b, c⟩ := h.cl _ _ _ hg; exact ⟨a, b, hcn _ c⟩
  · intro c name r; rw [h5, hp Sock.client rfl, hp Sock.ns rfl, hnm, h3, upd_apply]; split
    · rename_i e; intro hg; rw [FMap.get?_insert] at hg
      split at hg
      · rename_i e'; cases hg; exact ⟨hr, e.symm, e'⟩
      · obtain ⟨a, b, c⟩ := h.clNs _ _ _ hg; exact ⟨a, b.trans e.symm, c⟩
    · exact h.clNs c name r
  · intro c; rw [h3, upd_apply]; split
    · simp
    · exact h.timer c
  · intro name n; rw [h10, h4, hnm]; exact h.names name n

theorem invS_alloc {w : W} (h : InvS w) (s : Sock) (h1 : s.ns < w.nNs) (h2 : s.client < w.nClient)
    (h3 : s.connected = false) : InvS (alloc w s) := by
  have hne (r : Nat) (hc : (w.socks r).connected = true) : r ≠ w.nSock := Nat.ne_of_lt (h.conn r hc)
  refine ⟨?_, ?_, h.ad, h.nsWf, ?_, ?_, h.clWf, ?_, ?_, h.timer, h.names, h.nspsWf⟩
  · intro r hr; simp only [alloc, upd_apply] at hr ⊢; split
    · exact ⟨h1, h2⟩
    · exact h.sock r (by omega)
  · intro r; simp only [alloc, upd_apply]; split
    · simp [h3]
    · intro hc; have := h.conn r hc; omega
  · intro n sid r hg
    have := h.reg n sid r hg
    simp only [alloc]; rw [upd_ne _ _ (hne r this.2.2)]; exact this
  · intro n sid hm
    obtain ⟨r, a, b⟩ := h.live n sid hm
    refine ⟨r, Nat.lt_succ_of_lt a, ?_⟩
    simp only [alloc]; rw [upd_ne _ _ (Nat.ne_of_lt a)]; exact b
  · intro c sid r hg
    have := h.cl c sid r hg
    simp only [alloc]; rw [upd_ne _ _ (hne r this.2.2)]; exact this
  · intro c name r hg
    obtain ⟨a, b⟩ := h.clNs c name r hg
    refine ⟨Nat.lt_succ_of_lt a, ?_⟩
    simp only [alloc]; rw [upd_ne _ _ (Nat.ne_of_lt a)]; exact b

theorem invS_newSocket {w : W} (h : InvS w) (cfg : Cfg) (n c : Nat) (hn : n < w.nNs) (hc : c < w.nClient) :
    InvS (newSocket cfg w n c) := invS_alloc h _ hn hc rfl

theorem invS_joins {w : W} (ref : Nat) (rooms : List Room) (h : InvS w) (hr : ref < w.nSock) :
    InvS (rooms.foldl (fun w r => join w ref [r]) w) := by
  induction rooms generalizing w with
  | nil => exact h
  | cons a l ih => exact ih (invS_join h hr _) (by rw [(calm_join w ref [a]).nSock]; exact hr)

theorem invS_recoverSocket {w : W} (h : InvS w) (n c : Nat) (hn : n < w.nNs) (hc : c < w.nClient) (s : Session.Sess)
    (missed : List (List Val)) : InvS (recoverSocket w n c s missed) := by
  unfold recoverSocket
  exact foldl_pres (P := InvS) (fun w l h => invS_sockPacket h _ _) _
    (invS_joins _ _ (invS_alloc h _ hn hc rfl) (Nat.lt_succ_self _))

/-- Nothing exists less than before. -/
structure Grows (w w' : W) : Prop where
  nNs : w.nNs ≤ w'.nNs
  nSock : w.nSock ≤ w'.nSock
  nClient : w.nClient ≤ w'.nClient

theorem createSocket_nSock (cfg : Cfg) (w : W) (n c : Nat) (auth : Option (Session.Pid × String)) :
    (createSocket cfg w n c auth).nSock = w.nSock + 1 := by
  have hr (w : W) (s : Session.Sess) (missed : List (List Val)) : (recoverSocket w n c s missed).nSock = w.nSock + 1 := by
    unfold recoverSocket
    rw [(calm_foldl _ (fun w l => calm_sockPacket w _ _) _ _).nSock, (calm_foldl _ (fun w r => calm_join w _ _) _ _).nSock]
    rfl
  unfold createSocket; split
  · dsimp only; split
    · rw [hr]; rfl
    · rfl
  · rfl

theorem invS_createSocket {w : W} (h : InvS w) (cfg : Cfg) (n c : Nat) (hn : n < w.nNs) (hc : c < w.nClient)
    (auth : Option (Session.Pid × String)) : InvS (createSocket cfg w n c auth) := by
  unfold createSocket; split
  · dsimp only; split
    · exact invS_recoverSocket (invS_sess h _ _) _ _ hn hc _ _
    · exact invS_newSocket (invS_sess h _ _) _ _ _ hn hc
  · exact invS_newSocket h _ _ _ hn hc

theorem invS_add {w : W} (h : InvS w) (cfg : Cfg) (n c : Nat) (hn : n < w.nNs) (hc : c < w.nClient)
    (auth : Option (Session.Pid × String)) : InvS (add cfg w n c auth) := by
  have h1 := invS_createSocket h cfg n c hn hc auth
  have h2 := createSocket_nSock cfg w n c auth
  unfold add; dsimp only; split
  · exact invS_doConnect h1 (by omega)
  · split
    · exact invS_tasks h1 _
    · exact invS_chains h1 _

theorem invS_newNs {w : W} (h : InvS w) (s : Ns) (h1 : s.ad = {}) (h2 : s.sockets = []) : InvS (newNs w s) := by
  refine ⟨fun r hr => ⟨Nat.lt_succ_of_lt (h.sock r hr).1, (h.sock r hr).2⟩, h.conn, ?_, ?_, ?_, ?_, h.clWf, h.cl, ?_, h.timer,
    ?_, FMap.wf_insert h.nspsWf _ _⟩
  · intro n; simp only [newNs, upd_apply]; split
    · rw [h1]; exact inv_empty
    · exact h.ad n
  · intro n; simp only [newNs, upd_apply]; split
    · rw [h2]; exact FMap.wf_nil
    · exact h.nsWf n
  · intro n sid r; simp only [newNs, upd_apply]; split
    · rw [h2]; simp
    · exact h.reg n sid r
  · intro n sid; simp only [newNs, upd_apply]; split
    · rw [h1]; simp [FMap.keys]
    · exact h.live n sid
  · intro c name r hg
    obtain ⟨a, b, d⟩ := h.clNs c name r hg
    refine ⟨a, b, ?_⟩
    simp only [newNs]; rw [upd_ne _ _ (Nat.ne_of_lt (h.sock r a).1)]; exact d
  · intro name n hg
    simp only [newNs, FMap.get?_insert] at hg ⊢
    split at hg
    · rename_i e; cases hg; exact ⟨Nat.lt_succ_self _, by simp [e]⟩
    · obtain ⟨a, b⟩ := h.names name n hg
      exact ⟨Nat.lt_succ_of_lt a, by rw [upd_ne _ _ (Nat.ne_of_lt a)]; exact b⟩

theorem invS_connect {w : W} (h : InvS w) (cfg : Cfg) (c : Nat) (hc : c < w.nClient) (name : String)
    (auth : Option (Session.Pid × String)) : InvS (connect cfg w c name auth) := by
  unfold connect; split
  · rename_i n hn; exact invS_add h cfg n c (h.names _ _ hn).1 hc auth
  · split
    · exact invS_add (invS_newNs h _ rfl rfl) cfg _ c (Nat.lt_succ_self _) hc auth
    · exact invS_clientPacket h _ _ _

theorem invS_ondecoded {w : W} (h : InvS w) (cfg : Cfg) (c : Nat) (hc : c < w.nClient) (type : PType) (name : String)
    (auth : Option (Session.Pid × String)) : InvS (ondecoded cfg w c type name auth) := by
  unfold ondecoded; split
  · split
    · exact invS_connect h _ _ hc _ _
    · exact invS_clientClose h _ _
  · split
    · exact invS_tasks h _
    · exact invS_clientClose h _ _

theorem invS_next {w : W} (h : InvS w) (k i : Nat) (err : Option Err) : InvS (next w k i err) := by
  unfold next; split
  · exact h
  · split
    · dsimp only; split
      · exact ⟨h.sock, h.conn, h.ad, h.nsWf, h.reg, h.live, h.clWf, h.cl, h.clNs, h.timer, h.names, h.nspsWf⟩
      · exact invS_chains h _
    · exact h

theorem invS_result {w : W} (h : InvS w) (cfg : Cfg) {ref : Nat} (hr : ref < w.nSock) (err : Option Err) :
    InvS (result cfg w ref err) := by
  unfold result; dsimp only; split
  · exact invS_cleanup h _ _
  · split
    · exact invS_sockPacket (invS_cleanup h _ _) _ _
    · exact invS_doConnect h hr

theorem invS_onpacket {w : W} (h : InvS w) (cfg : Cfg) (ref : Nat) (type : PType) :
    InvS (onpacket cfg w ref type) := by
  unfold onpacket; split
  · exact invS_onclose h _ _ _
  · exact invS_obs h _

theorem invS_broadcast {w : W} (h : InvS w) (cfg : Cfg) (n : Nat) (p : Pkt) (opts : Option Opts) :
    InvS (broadcast cfg w n p opts) := by
  unfold broadcast; split
  · exact apply_pres InvS (fun _ _ _ h _ => invS_sockPacket h _ _) _ _ (invS_sess h _ _)
  · exact apply_pres InvS (fun _ _ _ h _ => invS_sockPacket h _ _) _ _ h

theorem invS_emit {w : W} (h : InvS w) (cfg : Cfg) (ref : Nat) (args : List Val) (flags : Flags) :
    InvS (emit cfg w ref args flags) := by
  unfold emit; split
  · exact invS_broadcast h _ _ _ _
  · exact invS_sockPacket h _ _

theorem invS_closeNs {w : W} (h : InvS w) (cfg : Cfg) (name : String) : InvS (closeNs cfg w name) := by
  unfold closeNs; split
  · exact h
  · refine foldl_pres (P := InvS) (fun w sid h => ?_) _ h
    split
    · exact invS_onclose h _ _ _
    · exact h

theorem invS_serverClose {w : W} (h : InvS w) (cfg : Cfg) : InvS (serverClose cfg w) :=
  foldl_pres (P := InvS) (fun _ name h => invS_closeNs h cfg name) _ h

theorem invS_accept {w : W} (h : InvS w) (cfg : Cfg) (p : Bool) : InvS (accept cfg w p) := by
  have h1 : InvS { w with
      clients := upd w.clients w.nClient { proto3 := p, conn := .opened, timer := true, listening := true }
      nClient := w.nClient + 1 } := by
    refine ⟨fun r hr => ⟨(h.sock r hr).1, Nat.lt_succ_of_lt (h.sock r hr).2⟩, h.conn, h.ad, h.nsWf, h.reg, h.live,
      ?_, ?_, ?_, ?_, h.names, h.nspsWf⟩
    · intro c; simp only [upd_apply]; split
      · exact FMap.wf_nil
      · exact h.clWf c
    · intro c sid r; simp only [upd_apply]; split
      · simp
      · exact h.cl c sid r
    · intro c name r; simp only [upd_apply]; split
      · simp
      · exact h.clNs c name r
    · intro c; simp only [upd_apply]; split
      · simp
      · exact h.timer c
  unfold accept; dsimp only; split
  · exact invS_connect h1 _ _ (Nat.lt_succ_self _) _ _
  · exact h1

theorem invS_timer {w : W} (h : InvS w) (cfg : Cfg) (c : Nat) : InvS (timerFires cfg w c) := by
  unfold timerFires; split
  · have h1 : InvS (setClient w c fun k => { k with timer := false }) :=
      invS_client h c _ (.inl rfl) rfl (by simp)
    dsimp only; split
    · exact invS_clientClose h1 _ _
    · exact h1
  · exact h

/-! ### Goroutines and chains refer to sockets that exist -/

def Task.ref : Task → Nat
  | .result r _ => r
  | .packet r _ => r

structure Refs (w : W) : Prop where
  tasks : ∀ t ∈ w.tasks, t.ref < w.nSock
  chains : ∀ ch ∈ w.chains, ch.ref < w.nSock

theorem Refs.calm {w w' : W} (h : Refs w) (c : Calm w w') : Refs w' := by
  refine ⟨?_, ?_⟩
  · rw [c.tasks, c.nSock]; exact h.tasks
  · rw [c.chains, c.nSock]; exact h.chains

theorem calm_broadcast (cfg : Cfg) (w : W) (n : Nat) (p : Pkt) (opts : Option Opts) :
    Calm w (broadcast cfg w n p opts) := by
  have ha (w : W) (p : Pkt) : Calm w (apply (view n) opts (fun w ref => sockPacket w ref p) w).1 :=
    apply_rel Calm Calm.refl Calm.trans (fun _ _ _ _ => calm_sockPacket _ _ _) _ _
  unfold broadcast; split
  · exact (calm_setNs _ _ _ rfl rfl).trans (ha _ _)
  · exact ha _ _

theorem calm_emit (cfg : Cfg) (w : W) (ref : Nat) (args : List Val) (flags : Flags) :
    Calm w (emit cfg w ref args flags) := by
  unfold emit; split
  · exact calm_broadcast _ _ _ _ _
  · exact calm_sockPacket _ _ _

theorem calm_closeNs (cfg : Cfg) (w : W) (name : String) : Calm w (closeNs cfg w name) := by
  unfold closeNs; split
  · exact .refl w
  · refine calm_foldl _ (fun w sid => ?_) _ _
    split
    · exact calm_onclose _ _ _ _
    · exact .refl w

theorem calm_serverClose (cfg : Cfg) (w : W) : Calm w (serverClose cfg w) := calm_foldl _ (calm_closeNs cfg) _ _

theorem calm_timer (cfg : Cfg) (w : W) (c : Nat) : Calm w (timerFires cfg w c) := by
  unfold timerFires; split
  · have h1 : Calm w (setClient w c fun k => { k with timer := false }) := calm_setClient _ _ _ rfl
    dsimp only; split
    · exact h1.trans (calm_clientClose _ _ _)
    · exact h1
  · exact .refl w

theorem calm_nsps (w : W) (m : FMap String Nat) : Calm w { w with nsps := m } :=
  .of_socks rfl rfl rfl rfl rfl rfl (fun _ => rfl) (fun _ => rfl) (fun _ => rfl) rfl

/-- The events after which nothing new exists. -/
def Ev.calm : Ev → Bool
  | .transportClose .. | .connError _ | .timer _ | .join .. | .leave .. | .disconnect .. | .disconnectSockets ..
  | .socketsJoin .. | .socketsLeave ..
  | .broadcast .. | .emit .. | .tick _ | .serverClose | .reorderClient .. | .reorderNs .. | .reorderNsps _ => true
  | _ => false

theorem calm_step (cfg : Cfg) (w : W) (e : Ev) (he : e.calm = true) : Calm w (step cfg w e) := by
  cases e <;> simp only [Ev.calm, Bool.false_eq_true] at he <;> simp only [step]
  case transportClose c reason =>
    split
    · split
      · exact (calm_setClient w c _ (by rfl)).trans (calm_clientOnclose _ _ _ _)
      · exact calm_setClient _ _ _ rfl
    · exact .refl w
  case connError c => split; exact calm_connClose _ _ _; exact .refl w
  case timer c => split; exact calm_timer _ _ _; exact .refl w
  case join => exact calm_act _ _ _
  case leave => exact calm_act _ _ _
  case disconnect => split; exact calm_disconnect _ _ _ _; exact .refl w
  case disconnectSockets => exact apply_rel Calm Calm.refl Calm.trans (fun _ _ _ _ => calm_disconnect _ _ _ _) _ _
  case socketsJoin => exact apply_rel Calm Calm.refl Calm.trans (fun _ _ _ _ => calm_join _ _ _) _ _
  case socketsLeave =>
    exact apply_rel Calm Calm.refl Calm.trans (fun _ _ _ _ => calm_foldl _ (fun _ _ => calm_leave _ _ _ _) _ _) _ _
  case broadcast => split; exact calm_broadcast _ _ _ _ _; exact .refl w
  case emit => split; exact calm_emit _ _ _ _ _; exact .refl w
  case tick => split; exact calm_setNs _ _ _ rfl rfl; exact .refl w
  case serverClose => exact calm_serverClose _ _
  case reorderClient => split; exact calm_setClient _ _ _ rfl; exact .refl w
  case reorderNs => split; exact calm_setNs _ _ _ rfl rfl; exact .refl w
  case reorderNsps => split; exact calm_nsps _ _; exact .refl w

theorem calm_recover (w : W) (n c : Nat) (s : Session.Sess) (missed : List (List Val)) :
    Calm (alloc w { ns := n, client := c, sid := s.sid, pid := s.pid, data := s.data, recovered := true })
      (recoverSocket w n c s missed) := by
  unfold recoverSocket
  exact (calm_foldl (fun w1 r => join w1 w.nSock [r]) (fun w1 r => calm_join w1 w.nSock [r]) s.rooms _).trans
    (calm_foldl _ (fun w1 l => calm_sockPacket w1 w.nSock { type := .event, data := .args l }) missed _)

theorem calm_alloc_sess (w : W) (n : Nat) (f : Ns → Session.St) (s : Sock) :
    Calm (alloc w s) (alloc (setNs w n fun k => { k with sess := f k }) s) :=
  .of_socks rfl rfl rfl rfl rfl rfl (fun _ => upd_proj _ _ _ _ Ns.name rfl) (fun _ => upd_proj _ _ _ _ Ns.fns rfl)
    (fun _ => rfl) rfl

/-- `_createSocket` allocates one socket, that is not connected. -/
theorem createSocket_alloc (cfg : Cfg) (w : W) (n c : Nat) (auth : Option (Session.Pid × String)) :
    ∃ s : Sock, Calm (alloc w s) (createSocket cfg w n c auth) ∧ s.ns = n ∧ s.client = c ∧ s.connected = false ∧
      s.canJoin = true := by
  unfold createSocket; split
  · dsimp only; split
    · exact ⟨_, (calm_alloc_sess w n _ _).trans (calm_recover _ _ _ _ _), rfl, rfl, rfl, rfl⟩
    · exact ⟨_, calm_alloc_sess w n _ _, rfl, rfl, rfl, rfl⟩
  · exact ⟨_, .refl _, rfl, rfl, rfl, rfl⟩

theorem refs_add {w : W} (h : Refs w) (cfg : Cfg) (n c : Nat) (auth : Option (Session.Pid × String)) :
    Refs (add cfg w n c auth) ∧ (add cfg w n c auth).nSock = w.nSock + 1 := by
  have h2 := createSocket_nSock cfg w n c auth
  obtain ⟨x, hx, -⟩ := createSocket_alloc cfg w n c auth
  have h3 : (createSocket cfg w n c auth).tasks = w.tasks ∧ (createSocket cfg w n c auth).chains = w.chains :=
    ⟨hx.tasks, hx.chains⟩
  unfold add; dsimp only; split
  · obtain ⟨-, -, -, -, d5, -, d7, d8, -⟩ := doConnect_fields (createSocket cfg w n c auth) w.nSock
    refine ⟨⟨?_, ?_⟩, ?_⟩
    · rw [d7, d5, h3.1, h2]; exact fun t ht => Nat.lt_succ_of_lt (h.tasks t ht)
    · rw [d8, d5, h3.2, h2]; exact fun t ht => Nat.lt_succ_of_lt (h.chains t ht)
    · rw [d5, h2]
  · split
    · refine ⟨⟨?_, ?_⟩, h2⟩
      · simp only [h2, h3.1]; intro t ht
        rcases List.mem_append.1 ht with ht | ht
        · exact Nat.lt_succ_of_lt (h.tasks t ht)
        · rw [List.mem_singleton.1 ht]; exact Nat.lt_succ_self _
      · simp only [h2, h3.2]; exact fun t ht => Nat.lt_succ_of_lt (h.chains t ht)
    · refine ⟨⟨?_, ?_⟩, h2⟩
      · simp only [h2, h3.1]; exact fun t ht => Nat.lt_succ_of_lt (h.tasks t ht)
      · simp only [h2, h3.2]; intro t ht
        rcases List.mem_append.1 ht with ht | ht
        · exact Nat.lt_succ_of_lt (h.chains t ht)
        · rw [List.mem_singleton.1 ht]; exact Nat.lt_succ_self _

theorem refs_connect {w : W} (h : Refs w) (cfg : Cfg) (c : Nat) (name : String)
    (auth : Option (Session.Pid × String)) : Refs (connect cfg w c name auth) := by
  unfold connect; split
  · exact (refs_add h _ _ _ _).1
  · split
    · exact (refs_add (w := newNs w { name := name, fns := cfg.childFns, auto := cfg.autoClean })
        ⟨h.tasks, h.chains⟩ _ _ _ _).1
    · exact h.calm (calm_clientPacket _ _ _ _)

theorem invS_reg_perm {w : W} (h : InvS w) (n : Nat) (l : FMap Sid Nat) (hp : l.Perm (w.nss n).sockets) :
    InvS (setNs w n fun k => { k with sockets := l }) := by
  have hwf : l.WF := by
    have := h.nsWf n; unfold FMap.WF FMap.keys at *; exact (hp.map _).nodup_iff.2 this
  have hg (sid : Sid) : l.get? sid = (w.nss n).sockets.get? sid := FMap.get?_perm hwf hp sid
  have hnm (k : Nat) : ((setNs w n fun k => { k with sockets := l }).nss k).name = (w.nss k).name :=
    upd_proj _ _ _ _ Ns.name rfl
  have had (k : Nat) : ((setNs w n fun k => { k with sockets := l }).nss k).ad = (w.nss k).ad :=
    upd_proj _ _ _ _ Ns.ad rfl
  refine ⟨h.sock, h.conn, ?_, ?_, ?_, ?_, h.clWf, h.cl, ?_, h.timer, ?_, h.nspsWf⟩
  · intro k; rw [had]; exact h.ad k
  · intro k; simp only [setNs, upd_apply]; split
    · exact hwf
    · exact h.nsWf k
  · intro k sid r; simp only [setNs, upd_apply]; split
    · rename_i e; subst e; simp only [hg]; exact h.reg k sid r
    · exact h.reg k sid r
  · intro k; rw [had]; exact h.live k
  · intro c name r hc; rw [hnm]; exact h.clNs c name r hc
  · intro name k hk; rw [hnm]; exact h.names name k hk

theorem inv_step {w : W} (h : InvS w) (hr : Refs w) (cfg : Cfg) (e : Ev) :
    InvS (step cfg w e) ∧ Refs (step cfg w e) := by
  by_cases he : e.calm = true
  · refine ⟨?_, hr.calm (calm_step cfg w e he)⟩
    cases e <;> simp only [Ev.calm, Bool.false_eq_true] at he <;> simp only [step]
    case transportClose c reason =>
      split
      · split
        · exact invS_clientOnclose (invS_client h c _ (.inl rfl) rfl fun h => ⟨rfl, h⟩) _ _ _
        · exact invS_client h c _ (.inl rfl) rfl fun h => ⟨rfl, h⟩
      · exact h
    case connError c => split; exact invS_connClose h _ _; exact h
    case timer c => split; exact invS_timer h _ _; exact h
    case join => exact invS_act h _ _
    case leave => exact invS_act h _ _
    case disconnect => split; exact invS_disconnect h _ _ _; exact h
    case disconnectSockets => exact apply_pres InvS (fun _ _ _ h _ => invS_disconnect h _ _ _) _ _ h
    case socketsJoin n rooms except flags target =>
      exact apply_pres InvS (fun w id r h hs => invS_join h (h.conn r (h.reg _ _ _ hs).2.2) _) _ _ h
    case socketsLeave =>
      exact apply_pres InvS (fun _ _ _ h _ => foldl_pres (P := InvS) (fun _ _ h => invS_leave h _ _ _) _ h) _ _ h
    case broadcast => split; exact invS_broadcast h _ _ _ _; exact h
    case emit => split; exact invS_emit h _ _ _ _; exact h
    case tick => split; exact invS_sess h _ _; exact h
    case serverClose => exact invS_serverClose h _
    case reorderClient c l =>
      split
      · rename_i hp
        have hp := List.isPerm_iff.1 hp
        have hwf : l.WF := by
          have := h.clWf c; unfold FMap.WF FMap.keys at *; exact (hp.map _).nodup_iff.2 this
        refine invS_setClient h c _ hwf ?_ (h.clNs c) (h.timer c)
        intro sid r hg; exact h.cl c sid r ((FMap.get?_perm hwf hp sid).symm.trans hg)
      · exact h
    case reorderNs n l => split; exact invS_reg_perm h n l (List.isPerm_iff.1 (by assumption)); exact h
    case reorderNsps l =>
      split
      · rename_i hp
        have hp := List.isPerm_iff.1 hp
        have hwf : l.WF := by
          have := h.nspsWf; unfold FMap.WF FMap.keys at *; exact (hp.map _).nodup_iff.2 this
        exact ⟨h.sock, h.conn, h.ad, h.nsWf, h.reg, h.live, h.clWf, h.cl, h.clNs, h.timer,
          fun name n hg => h.names name n ((FMap.get?_perm hwf hp name).symm.trans hg), hwf⟩
      · exact h
  · cases e <;> simp only [Ev.calm, not_true_eq_false] at he <;> simp only [step]
    case accept p =>
      refine ⟨invS_accept h _ _, ?_⟩
      unfold accept; dsimp only; split
      · exact refs_connect (w := { w with
          clients := upd w.clients w.nClient { proto3 := p, conn := .opened, timer := true, listening := true }
          nClient := w.nClient + 1 }) ⟨hr.tasks, hr.chains⟩ _ _ _ _
      · exact ⟨hr.tasks, hr.chains⟩
    case recv c type name auth =>
      split
      · rename_i hc
        refine ⟨invS_ondecoded h _ _ hc.1 _ _ _, ?_⟩
        unfold ondecoded; split
        · split
          · exact refs_connect hr _ _ _ _
          · exact hr.calm (calm_clientClose _ _ _)
        · rename_i ref hg
          split
          · refine ⟨?_, hr.chains⟩
            intro t ht
            rcases List.mem_append.1 ht with ht | ht
            · exact hr.tasks t ht
            · rw [List.mem_singleton.1 ht]; exact (h.clNs _ _ _ hg).1
          · exact hr.calm (calm_clientClose _ _ _)
      · exact ⟨h, hr⟩
    case task k =>
      split
      · rename_i t ht
        have h1 : InvS { w with tasks := w.tasks.eraseIdx k } := invS_tasks h _
        have h2 : Refs { w with tasks := w.tasks.eraseIdx k } :=
          ⟨fun t ht => hr.tasks t (List.mem_of_mem_eraseIdx ht), hr.chains⟩
        have h3 : t.ref < w.nSock := hr.tasks t (List.mem_of_getElem? ht)
        cases t with
        | result ref err =>
          refine ⟨invS_result h1 _ h3 _, ?_⟩
          obtain ⟨-, -, -, -, c5, -, c7, c8, -⟩ := cleanup_fields cfg { w with tasks := w.tasks.eraseIdx k } ref
          have hcl : Refs (cleanup cfg { w with tasks := w.tasks.eraseIdx k } ref) :=
            ⟨by rw [c7, c5]; exact h2.tasks, by rw [c8, c5]; exact h2.chains⟩
          simp only [runTask, result]; split
          · exact hcl
          · split
            · exact hcl.calm (calm_sockPacket _ _ _)
            · obtain ⟨-, -, -, -, d5, -, d7, d8, -⟩ := doConnect_fields { w with tasks := w.tasks.eraseIdx k } ref
              exact ⟨by rw [d7, d5]; exact h2.tasks, by rw [d8, d5]; exact h2.chains⟩
        | packet ref type =>
          refine ⟨invS_onpacket h1 _ _ _, ?_⟩
          simp only [runTask, onpacket]; split
          · exact h2.calm (calm_onclose _ _ _ _)
          · exact h2.calm (calm_obs _ _)
      · exact ⟨h, hr⟩
    case next k i err =>
      refine ⟨invS_next h _ _ _, ?_⟩
      unfold next; split
      · exact hr
      · rename_i ch hk
        have hch : ch.ref < w.nSock := hr.chains ch (List.mem_of_getElem? hk)
        have hcs (ch' : Chain) (e : ch'.ref = ch.ref) : ∀ x ∈ w.chains.set k ch', x.ref < w.nSock := by
          intro x hx; rcases mem_of_set hx with hx | hx
          · exact hr.chains x hx
          · rw [hx, e]; exact hch
        split
        · dsimp only; split
          · refine ⟨?_, hcs _ rfl⟩
            intro t ht
            rcases List.mem_append.1 ht with ht | ht
            · exact hr.tasks t ht
            · rw [List.mem_singleton.1 ht]; exact hch
          · exact ⟨hr.tasks, hcs _ rfl⟩
        · exact hr
    case «of» name =>
      split
      · exact ⟨h, hr⟩
      · exact ⟨invS_newNs h _ rfl rfl, hr.tasks, hr.chains⟩
    case use n =>
      split
      · exact ⟨invS_setNs h _ _ rfl rfl (h.ad n) fun _ hm => .inl hm, hr.tasks, hr.chains⟩
      · exact ⟨h, hr⟩
    case setData ref v =>
      split
      · refine ⟨?_, hr.tasks, hr.chains⟩
        have hp {β : Type} (p : Sock → β) (hp : p { w.socks ref with data := some v } = p (w.socks ref)) (r : Nat) :
            p ((setSock w ref fun s => { s with data := some v }).socks r) = p (w.socks r) :=
          upd_proj _ _ _ _ p hp
        refine ⟨?_, ?_, h.ad, h.nsWf, ?_, ?_, h.clWf, ?_, ?_, h.timer, h.names, h.nspsWf⟩
        · intro r; rw [hp Sock.ns rfl, hp Sock.client rfl]; exact h.sock r
        · intro r; rw [hp Sock.connected rfl]; exact h.conn r
        · intro n sid r; rw [hp Sock.ns rfl, hp Sock.sid rfl, hp Sock.connected rfl]; exact h.reg n sid r
        · intro n sid hm; obtain ⟨r, a, b, c, d⟩ := h.live n sid hm
          exact ⟨r, a, by rw [hp Sock.ns rfl, hp Sock.sid rfl, hp Sock.canJoin rfl]; exact ⟨b, c, d⟩⟩
        · intro c sid r; rw [hp Sock.client rfl, hp Sock.sid rfl, hp Sock.connected rfl]; exact h.cl c sid r
        · intro c name r; rw [hp Sock.client rfl, hp Sock.ns rfl]; exact h.clNs c name r
      · exact ⟨h, hr⟩
    case clock t => exact ⟨invS_now h t, hr.tasks, hr.chains⟩

theorem inv_init : InvS init ∧ Refs init := by
  refine ⟨invS_newNs ?_ _ rfl rfl, ?_, ?_⟩
  · refine ⟨?_, ?_, ?_, ?_, ?_, ?_, ?_, ?_, ?_, ?_, ?_, ?_⟩
    · intro r hr; exact absurd hr (Nat.not_lt_zero _)
    · intro r hr; exact absurd hr (by simp)
    · exact fun _ => inv_empty
    · exact fun _ => FMap.wf_nil
    · intro n sid r hg; simp at hg
    · intro n sid hm; simp [FMap.keys] at hm
    · exact fun _ => FMap.wf_nil
    · intro n sid r hg; simp at hg
    · intro n sid r hg; simp at hg
    · intro c hc; simp at hc
    · intro name n hg; simp at hg
    · exact FMap.wf_nil
  · intro t ht; simp [init, newNs] at ht
  · intro t ht; simp [init, newNs] at ht

theorem run_snoc (cfg : Cfg) (h : List Ev) (e : Ev) : run cfg (h ++ [e]) = step cfg (run cfg h) e := by
  simp [run]

theorem inv_run (cfg : Cfg) (h : List Ev) : InvS (run cfg h) ∧ Refs (run cfg h) := by
  induction h using snocRec with
  | nil => exact inv_init
  | append_singleton h e ih => rw [run_snoc]; exact inv_step ih.1 ih.2 cfg e

end Verif.World
