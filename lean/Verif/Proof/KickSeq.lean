import Verif.Proof.KickRace
import Verif.Proof.CastSeq
import Verif.Proof.RoomSeq
import Verif.Proof.BulkSeq
import Verif.Spec.KickSeq

/-! `DisconnectSockets` of `Model/KickRace` during which nothing else happens does what that of `Model/Delivery` does. -/

namespace Verif.KickRace
open Verif Verif.Spec Verif.World Verif.Delivery

/-- `n` steps of the call. -/
def advs : Nat → St → St
  | 0, s => s
  | n + 1, s => advs n (step s .adv)

def Leads (s s' : St) : Prop := ∃ n, advs n s = s'

theorem advs_add (n m : Nat) (s : St) : advs (n + m) s = advs m (advs n s) := by
  induction n generalizing s with
  | zero => simp [advs]
  | succ n ih => rw [Nat.succ_add]; exact ih _

theorem Leads.refl (s : St) : Leads s s := ⟨0, rfl⟩

theorem Leads.trans {s t u : St} : Leads s t → Leads t u → Leads s u := by
  rintro ⟨n, rfl⟩ ⟨m, rfl⟩; exact ⟨n + m, advs_add _ _ _⟩

theorem Leads.next {s t : St} (h : Leads (step s .adv) t) : Leads s t := by
  obtain ⟨n, e⟩ := h; exact ⟨n + 1, e⟩

theorem advs_run (n : Nat) (s : St) : (List.replicate n Ev.adv).foldl step s = advs n s := by
  induction n generalizing s with
  | zero => rfl
  | succ n ih => simpa [List.replicate_succ, advs] using ih _

/-- A step of the loop that reaches nobody. -/
theorem adv_quiet {s : St} (hf : (s.cast.tab.th 0).2 = .done) (ht : s.pc = none) {pc : CastRace.PC}
    (h : CastRace.act s.cast s.cast.pc = (s.cast, pc)) : step s .adv = { s with cast := { s.cast with pc := pc } } := by
  simp [step, does, other, hf, ht, CastRace.step, h, BulkRace.reached]

/-- A step of the loop that reaches a socket. -/
theorem adv_reach {s : St} (hf : (s.cast.tab.th 0).2 = .done) (ht : s.pc = none) {pc : CastRace.PC} {id : Nat}
    (h : CastRace.act s.cast s.cast.pc = ({ s.cast with sent := s.cast.sent ++ [id] }, pc)) :
    step s .adv = { s with cast := { s.cast with sent := s.cast.sent ++ [id], pc := pc }, pc := some (id, .first) } := by
  simp [step, does, other, hf, ht, CastRace.step, h, BulkRace.reached]

theorem advs_idle (n : Nat) (s : St) (h : s.idle = true) : advs n s = s := by
  obtain ⟨h1, h2, h3⟩ := (idle_iff s).1 h
  induction n with
  | zero => rfl
  | succ n ih =>
    have : step s .adv = s := by
      rw [adv_quiet h3 h2 (pc := .idle) (by rw [h1]; rfl)]
      rw [← h1]
    rw [advs, this]; exact ih

theorem advs_unique {n m : Nat} {s : St} (h : (advs n s).idle = true) (h' : (advs m s).idle = true) : advs n s = advs m s := by
  rcases Nat.le_total n m with hl | hl
  · obtain ⟨d, rfl⟩ := Nat.exists_eq_add_of_le hl
    rw [advs_add, advs_idle _ _ h]
  · obtain ⟨d, rfl⟩ := Nat.exists_eq_add_of_le hl
    rw [advs_add, advs_idle _ _ h']

/-- The steps of one call of the adapter. -/
theorem leads_turns (s : St) (f : Nat → Nat × RoomRace.PC) (id n : Nat) (t t' : RoomRace.St) (pc : RoomRace.PC)
    (h : RoomRace.turns id n (t, pc) = (t', .done)) :
    Leads { s with cast := { s.cast with tab := { t with th := upd f 0 (id, pc) } } }
      { s with cast := { s.cast with tab := { t' with th := upd f 0 (id, .done) } } } := by
  induction n generalizing t pc with
  | zero =>
    simp only [RoomRace.turns, Prod.mk.injEq] at h
    obtain ⟨rfl, rfl⟩ := h
    exact .refl _
  | succ n ih =>
    by_cases hp : pc = .done
    · subst hp
      rw [RoomRace.turns_done] at h
      cases h
      exact .refl _
    · rw [RoomRace.turns] at h
      have := ih _ _ h
      refine .next ?_
      have e : upd f 0 (id, pc) 0 = (id, pc) := by simp [upd]
      have e2 : step { s with cast := { s.cast with tab := { t with th := upd f 0 (id, pc) } } } .adv =
          { s with cast := { s.cast with tab := { (RoomRace.act t id pc).1 with th := upd f 0 (id, (RoomRace.act t id pc).2) } } } := by
        simp only [step, does, other, e, hp, ne_eq, not_false_eq_true, if_true, List.foldl_cons, List.foldl_nil, CastRace.step,
          RoomRace.step, RoomRace.advance, RoomRace.act_put, BulkRace.upd_upd]
      rw [e2]
      exact this

variable (d : Bool) (ρ : Nat → Room) (σ : Nat → Sid) (w : List (Sid × Bool))

/-- The two models show the same while goroutine 0 is in no call of the adapter; `w` is who had been disconnected before. -/
structure R (s : St) (n : Nsp) : Prop where
  tab : RoomRace.Same ρ σ s.cast.tab n.ad
  reg : ∀ id, (n.sockets.get? (σ id)).isSome = s.cast.reg id
  own : ∀ id ref, n.sockets.get? (σ id) = some ref → n.sidOf ref = σ id ∧ n.canJoin ref = s.canJoin id ∧ s.connected id = true
  free : (s.cast.tab.th 0).2 = .done
  told : n.kicked.map (fun x => (n.sidOf x.1, x.2)) = w ++ s.cast.sent.map fun id => (σ id, false)
  log : s.log = s.cast.sent.flatMap goodbye

variable {d ρ σ w}

theorem R.pc {s : St} {n : Nsp} (r : R ρ σ w s n) (pc : CastRace.PC) : R ρ σ w { s with cast := { s.cast with pc := pc } } n :=
  ⟨r.tab, r.reg, r.own, r.free, r.told, r.log⟩

/-- The state after a socket has been disconnected. -/
def off (s : St) (id : Nat) (t : RoomRace.St) : St :=
  { s with
    cast := { s.cast with tab := { t with th := upd s.cast.tab.th 0 (id, .done) }, known := s.cast.known ++ [id], reg := upd s.cast.reg id false }
    canJoin := upd s.canJoin id false, connected := upd s.connected id false, pc := none, log := s.log ++ goodbye id }

/-- The steps of `Disconnect`. -/
theorem leads_off {s : St} {id : Nat} (hf : (s.cast.tab.th 0).2 = .done) (hp : s.pc = some (id, .first)) (hc : s.connected id = true)
    {t : RoomRace.St} (h : RoomRace.Leads id (s.cast.tab, RoomRace.Call.leaveAll.start) (t, .done)) : Leads s (off s id t) := by
  obtain ⟨m, h⟩ := h
  have e1 : step s .adv = { s with pc := some (id, .packet) } := by simp [step, does, other, hf, hp, work, hc]
  have e2 : step { s with pc := some (id, .packet) } .adv = { s with pc := some (id, .check), log := s.log ++ [.packet id] } := by
    simp [step, does, other, hf, work]
  have e3 : step { s with pc := some (id, .check), log := s.log ++ [.packet id] } .adv =
      { s with pc := some (id, .disconnecting), log := s.log ++ [.packet id] } := by
    simp [step, does, other, hf, work, hc]
  have e4 : step { s with pc := some (id, .disconnecting), log := s.log ++ [.packet id] } .adv =
      { s with pc := some (id, .leave), log := s.log ++ [.packet id, .disconnecting id] } := by
    simp [step, does, other, hf, work]
  let s5 : St := { s with pc := some (id, .remove), log := s.log ++ [.packet id, .disconnecting id],
                          cast := { s.cast with known := s.cast.known ++ [id] } }
  have e5 : step { s with pc := some (id, .leave), log := s.log ++ [.packet id, .disconnecting id] } .adv =
      { s5 with cast := { s5.cast with tab := { s.cast.tab with th := upd s.cast.tab.th 0 (id, RoomRace.Call.leaveAll.start) } } } := by
    simp [step, does, other, hf, work, CastRace.step, RoomRace.step, s5]
  have l := leads_turns s5 s.cast.tab.th id m s.cast.tab t _ h
  refine .next ?_; rw [e1]
  refine .next ?_; rw [e2]
  refine .next ?_; rw [e3]
  refine .next ?_; rw [e4]
  refine .next ?_; rw [e5]
  refine l.trans (.next (.next (.next (.next ?_))))
  refine ⟨0, ?_⟩
  simp [advs, step, does, other, work, CastRace.step, s5, off, goodbye, upd]

/-- The loop comes to a socket. -/
theorem leads_reach (hρ : ∀ i j, ρ i = ρ j → i = j) (hσ : ∀ i j, σ i = σ j → i = j) {s : St} {n : Nsp} (r : R ρ σ w s n)
    (ht : s.pc = none) {pc : CastRace.PC} {id ref : Nat} (hr : n.sockets.get? (σ id) = some ref)
    (h : CastRace.act s.cast s.cast.pc = ({ s.cast with sent := s.cast.sent ++ [id] }, pc)) :
    ∃ s', Leads s s' ∧ R ρ σ w s' (Delivery.kick d false n ref) ∧ s'.pc = none ∧ s'.cast.pc = pc ∧ s'.cast.sent = s.cast.sent ++ [id] := by
  have e := adv_reach r.free ht h
  obtain ⟨o1, o2, o3⟩ := r.own _ _ hr
  obtain ⟨t, h1, h2, -⟩ := RoomRace.call_done hρ hσ r.tab d id .leaveAll
  have l := leads_off (s := step s .adv) (id := id) (t := t) (by rw [e]; exact r.free) (by rw [e]) (by rw [e]; exact o3) (by rw [e]; exact h1)
  refine ⟨_, .next l, ⟨?_, ?_, ?_, ?_, ?_, ?_⟩, rfl, by rw [e]; rfl, by rw [e]; rfl⟩
  · have h3 : Delivery.kick d false n ref = { Delivery.kick d false n ref with ad := (atOnce d ρ σ n.ad (id, .leaveAll)).1 } := by
      simp [Delivery.kick, atOnce, o1]
    rw [h3]
    exact RoomRace.same_th h2 _
  · intro j
    rw [e]
    simp only [Delivery.kick, off, o1, FMap.get?_erase, upd_apply]
    by_cases hj : j = id
    · subst hj; simp
    · rw [if_neg hj, if_neg fun x => hj (hσ _ _ x).symm]; exact r.reg j
  · intro j ref' hj
    rw [e]
    simp only [Delivery.kick, off, o1, FMap.get?_erase] at hj ⊢
    split at hj
    · cases hj
    · next hn =>
      have hji : j ≠ id := fun x => hn (by rw [x])
      obtain ⟨p1, p2, p3⟩ := r.own _ _ hj
      have href : ref' ≠ ref := fun x => hji (hσ _ _ (by rw [← p1, x, o1]))
      rw [if_neg href, upd_ne _ _ hji, upd_ne _ _ hji]
      exact ⟨p1, p2, p3⟩
  · simp [off]
  · rw [e]
    simp only [Delivery.kick, off, List.map_append, r.told, List.append_assoc]
    simp [o1]
  · rw [e]
    simp only [off, List.flatMap_append, r.log]
    simp

/-- A step of the loop that reaches nobody. -/
theorem leads_quiet {s : St} {n : Nsp} (r : R ρ σ w s n) (ht : s.pc = none) {pc : CastRace.PC}
    (h : CastRace.act s.cast s.cast.pc = (s.cast, pc)) :
    ∃ s', Leads s s' ∧ R ρ σ w s' n ∧ s'.pc = none ∧ s'.cast = { s.cast with pc := pc } :=
  ⟨_, .next (.refl _), by rw [adv_quiet r.free ht h]; exact r.pc _, by rw [adv_quiet r.free ht h]; exact ht,
    by rw [adv_quiet r.free ht h]⟩

theorem mem_map_inj (hσ : ∀ i j, σ i = σ j → i = j) (l : List Nat) (id : Nat) : σ id ∈ l.map σ ↔ id ∈ l :=
  CastRace.mem_map_inj hσ l id

/-- The rooms to leave out. -/
theorem leads_x (hσ : ∀ i j, σ i = σ j → i = j) {n : Nsp} (ex rooms : List Nat) (acc : List Nat) (x : List Sid)
    (hx : ∀ id, σ id ∈ x ↔ id ∈ acc) {s : St} (r : R ρ σ w s n) (ht : s.pc = none) (hp : s.cast.pc = .x ex rooms acc) :
    ∃ s' acc', Leads s s' ∧ R ρ σ w s' n ∧ s'.pc = none ∧ s'.cast = { s.cast with pc := .x [] rooms acc' } ∧
      ∀ id, σ id ∈ (ex.map ρ).foldl (Adapter.exceptStep n.ad) x ↔ id ∈ acc' := by
  induction ex generalizing acc x s with
  | nil => exact ⟨s, acc, .refl _, r, ht, by rw [← hp], hx⟩
  | cons q ex ih =>
    simp only [List.map_cons, List.foldl_cons, Adapter.exceptStep, r.tab.rooms]
    cases hq : s.cast.tab.rooms q with
    | none =>
      obtain ⟨s1, l1, r1, t1, e1⟩ := leads_quiet r ht (pc := .x ex rooms acc) (by simp [hp, CastRace.act, hq])
      obtain ⟨s', acc', l, h1, h2, h3, h4⟩ := ih acc x hx r1 t1 (by rw [e1])
      exact ⟨s', acc', l1.trans l, h1, h2, by rw [h3, e1], by simpa using h4⟩
    | some t =>
      obtain ⟨s1, l1, r1, t1, e1⟩ := leads_quiet r ht (pc := .xk q t ex rooms acc) (by simp [hp, CastRace.act, hq])
      obtain ⟨s2, l2, r2, t2, e2⟩ := leads_quiet r1 t1 (pc := .x ex rooms (acc ++ s.cast.tab.rset t)) (by simp [e1, CastRace.act])
      obtain ⟨s', acc', l, h1, h2, h3, h4⟩ := ih (acc ++ s.cast.tab.rset t) (LSet.addAll x ((s.cast.tab.rset t).map σ)) (by
        intro id
        rw [LSet.mem_addAll, hx, List.mem_append, mem_map_inj hσ]) r2 t2 (by rw [e2])
      exact ⟨s', acc', l1.trans (l2.trans l), h1, h2, by rw [h3, e2, e1], by simpa using h4⟩

theorem sock_eq (n : Nsp) (x : Sid) : Delivery.view.sock n x = n.sockets.get? x := rfl

/-- The sockets of one room. -/
theorem leads_ri (hρ : ∀ i j, ρ i = ρ j → i = j) (hσ : ∀ i j, σ i = σ j → i = j) (keys rooms acc done : List Nat) (x : List Sid)
    (hx : ∀ id, σ id ∈ x ↔ id ∈ acc) {s : St} {n : Nsp} (r : R ρ σ w s n) (ht : s.pc = none)
    (hp : s.cast.pc = .ri keys rooms acc done) (hd : s.cast.sent = done) :
    ∃ s' n' done', Leads s s' ∧ R ρ σ w s' n' ∧ s'.pc = none ∧ s'.cast.pc = .r rooms acc done' ∧ s'.cast.sent = done' ∧
      Adapter.applyIds view (Delivery.kick d false) x (keys.map σ) (n, done.map σ) = (n', done'.map σ) := by
  induction keys generalizing done s n with
  | nil =>
    obtain ⟨s1, l1, r1, t1, e1⟩ := leads_quiet r ht (pc := .r rooms acc done) (by simp [hp, CastRace.act])
    exact ⟨s1, n, done, l1, r1, t1, by rw [e1], by rw [e1]; exact hd, rfl⟩
  | cons id keys ih =>
    simp only [List.map_cons, Adapter.applyIds, mem_map_inj hσ, hx]
    by_cases hc : id ∈ done ∨ id ∈ acc
    · obtain ⟨s1, l1, r1, t1, e1⟩ := leads_quiet r ht (pc := .ri keys rooms acc done) (by simp [hp, CastRace.act, hc])
      obtain ⟨s', n', d', l, h1, h2, h3, h4, h5⟩ := ih done r1 t1 (by rw [e1]) (by rw [e1]; exact hd)
      exact ⟨s', n', d', l1.trans l, h1, h2, h3, h4, by rw [if_pos hc]; exact h5⟩
    · have hr := r.reg id
      cases hs : n.sockets.get? (σ id) with
      | none =>
        rw [hs] at hr
        obtain ⟨s1, l1, r1, t1, e1⟩ := leads_quiet r ht (pc := .ri keys rooms acc done) (by simp [hp, CastRace.act, hc, ← hr])
        obtain ⟨s', n', d', l, h1, h2, h3, h4, h5⟩ := ih done r1 t1 (by rw [e1]) (by rw [e1]; exact hd)
        exact ⟨s', n', d', l1.trans l, h1, h2, h3, h4, by rw [if_neg hc]; simp only [sock_eq, hs]; exact h5⟩
      | some ref =>
        rw [hs] at hr
        obtain ⟨s1, l1, r1, t1, p1, q1⟩ := leads_reach (d := d) hρ hσ r ht hs (pc := .ri keys rooms acc (done ++ [id]))
          (by simp [hp, CastRace.act, hc, ← hr])
        obtain ⟨s', n', d', l, h1, h2, h3, h4, h5⟩ := ih (done ++ [id]) r1 t1 p1 (by rw [q1, hd])
        exact ⟨s', n', d', l1.trans l, h1, h2, h3, h4, by rw [if_neg hc]; simp only [sock_eq, hs]; simpa using h5⟩

/-- The rooms. -/
theorem leads_r (hρ : ∀ i j, ρ i = ρ j → i = j) (hσ : ∀ i j, σ i = σ j → i = j) (rooms acc done : List Nat) (x : List Sid)
    (hx : ∀ id, σ id ∈ x ↔ id ∈ acc) {s : St} {n : Nsp} (r : R ρ σ w s n) (ht : s.pc = none)
    (hp : s.cast.pc = .r rooms acc done) (hd : s.cast.sent = done) :
    ∃ s' n' done', Leads s s' ∧ R ρ σ w s' n' ∧ s'.pc = none ∧ s'.cast.pc = .idle ∧ s'.cast.sent = done' ∧
      Adapter.applyRooms view (Delivery.kick d false) x (rooms.map ρ) (n, done.map σ) = (n', done'.map σ) := by
  induction rooms generalizing done s n with
  | nil =>
    obtain ⟨s1, l1, r1, t1, e1⟩ := leads_quiet r ht (pc := .idle) (by simp [hp, CastRace.act])
    exact ⟨s1, n, done, l1, r1, t1, by rw [e1], by rw [e1]; exact hd, rfl⟩
  | cons q rooms ih =>
    simp only [List.map_cons, Adapter.applyRooms]
    have hm : (view.ad n).rooms.get? (ρ q) = _ := r.tab.rooms q
    rw [hm]
    cases hq : s.cast.tab.rooms q with
    | none =>
      obtain ⟨s1, l1, r1, t1, e1⟩ := leads_quiet r ht (pc := .r rooms acc done) (by simp [hp, CastRace.act, hq])
      obtain ⟨s', n', d', l, h1, h2, h3, h4, h5⟩ := ih done r1 t1 (by rw [e1]) (by rw [e1]; exact hd)
      exact ⟨s', n', d', l1.trans l, h1, h2, h3, h4, by simpa using h5⟩
    | some t =>
      obtain ⟨s1, l1, r1, t1, e1⟩ := leads_quiet r ht (pc := .rk q t rooms acc done) (by simp [hp, CastRace.act, hq])
      obtain ⟨s2, l2, r2, t2, e2⟩ := leads_quiet r1 t1 (pc := .ri (s.cast.tab.rset t) rooms acc done) (by simp [e1, CastRace.act])
      obtain ⟨s3, n3, d3, l3, r3, t3, p3, q3, a3⟩ := leads_ri (d := d) hρ hσ (s.cast.tab.rset t) rooms acc done x hx r2 t2 (by rw [e2])
        (by rw [e2, e1]; exact hd)
      obtain ⟨s', n', d', l, h1, h2, h3, h4, h5⟩ := ih d3 r3 t3 p3 q3
      exact ⟨s', n', d', l1.trans (l2.trans (l3.trans l)), h1, h2, h3, h4, by simp only [Option.map_some, a3]; exact h5⟩

/-- All sockets. -/
theorem leads_all (hρ : ∀ i j, ρ i = ρ j → i = j) (hσ : ∀ i j, σ i = σ j → i = j) (keys acc done : List Nat) (x : List Sid)
    (hx : ∀ id, σ id ∈ x ↔ id ∈ acc) {s : St} {n : Nsp} (r : R ρ σ w s n) (ht : s.pc = none)
    (hp : s.cast.pc = .all keys acc) (hd : s.cast.sent = done) :
    ∃ s' n' done', Leads s s' ∧ R ρ σ w s' n' ∧ s'.pc = none ∧ s'.cast.pc = .idle ∧ s'.cast.sent = done' ∧
      Adapter.applyAll view (Delivery.kick d false) x (keys.map σ) (n, done.map σ) = (n', done'.map σ) := by
  induction keys generalizing done s n with
  | nil =>
    obtain ⟨s1, l1, r1, t1, e1⟩ := leads_quiet r ht (pc := .idle) (by simp [hp, CastRace.act])
    exact ⟨s1, n, done, l1, r1, t1, by rw [e1], by rw [e1]; exact hd, rfl⟩
  | cons id keys ih =>
    simp only [List.map_cons, Adapter.applyAll, hx]
    have hm : (view.ad n).sids.get? (σ id) = _ := r.tab.sids id
    rw [hm]
    have hr := r.reg id
    by_cases hc : (s.cast.tab.sids id).isSome ∧ id ∉ acc ∧ s.cast.reg id
    · obtain ⟨c1, c2, c3⟩ := hc
      rw [c3] at hr
      obtain ⟨ref, hs⟩ := Option.isSome_iff_exists.1 hr
      obtain ⟨z, hz⟩ := Option.isSome_iff_exists.1 c1
      obtain ⟨s1, l1, r1, t1, p1, q1⟩ := leads_reach (d := d) hρ hσ r ht hs (pc := .all keys acc)
        (by simp [hp, CastRace.act, c1, c2, c3])
      obtain ⟨s', n', d', l, h1, h2, h3, h4, h5⟩ := ih (done ++ [id]) r1 t1 p1 (by rw [q1, hd])
      refine ⟨s', n', d', l1.trans l, h1, h2, h3, h4, ?_⟩
      simp only [hz, Option.map_some, if_neg c2, sock_eq, hs]
      simpa using h5
    · obtain ⟨s1, l1, r1, t1, e1⟩ := leads_quiet r ht (pc := .all keys acc) (by simp only [hp, CastRace.act, if_neg hc])
      obtain ⟨s', n', d', l, h1, h2, h3, h4, h5⟩ := ih done r1 t1 (by rw [e1]) (by rw [e1]; exact hd)
      refine ⟨s', n', d', l1.trans l, h1, h2, h3, h4, ?_⟩
      cases hz : s.cast.tab.sids id with
      | none => exact h5
      | some z =>
        by_cases c2 : id ∈ acc
        · simp only [Option.map_some, if_pos c2]; exact h5
        · cases hs : n.sockets.get? (σ id) with
          | none => simp only [Option.map_some, if_neg c2, sock_eq, hs]; exact h5
          | some ref => exact absurd ⟨by rw [hz]; rfl, c2, by rw [← hr, hs]; rfl⟩ hc

/-- The whole call. -/
theorem leads_kick (hρ : ∀ i j, ρ i = ρ j → i = j) (hσ : ∀ i j, σ i = σ j → i = j) {s : St} {n : Nsp} (hi : s.idle = true)
    (r : R ρ σ w { s with cast := { s.cast with sent := [] }, log := [] } n) (rooms except order : List Nat)
    (hk : n.ad.sids.keys = order.map σ) (hw : n.ad.sids.WF) :
    ∃ s', Leads (step s (.kick rooms except order)) s' ∧ s'.idle = true ∧
      R ρ σ w s' (Delivery.disconnectSockets d n (some { rooms := some (rooms.map ρ), except := some (except.map ρ) }) false) := by
  unfold Delivery.disconnectSockets
  rw [kick_start hi]
  obtain ⟨i1, i2, i3⟩ := (idle_iff s).1 hi
  have r0 : R ρ σ w { s with cast := { s.cast with pc := .x except rooms [], order := order, sent := [] }, log := [] } n :=
    ⟨r.tab, r.reg, r.own, r.free, r.told, r.log⟩
  obtain ⟨s1, acc, l1, r1, t1, e1, h1⟩ := leads_x hσ except rooms [] [] (by simp) r0 i2 rfl
  cases rooms with
  | nil =>
    have hn : order.Nodup := by
      have : (order.map σ).Nodup := hk ▸ hw
      exact List.Pairwise.of_map σ (fun a b h e => h (e ▸ rfl)) this
    have hin : ∀ i, (s.cast.tab.sids i).isSome ↔ i ∈ order := by
      intro i
      rw [← mem_map_inj hσ, ← hk, FMap.mem_keys_isSome, r.tab.sids i, Option.isSome_map]
    have e : CastRace.once ((order ++ s.cast.known).filter fun i => (s.cast.tab.sids i).isSome) = order := by
      rw [List.filter_append, List.filter_eq_self.2 fun i h => (hin i).2 h]
      exact CastRace.once_cover hn fun x hx => (hin x).1 (by simpa using (List.mem_filter.1 hx).2)
    obtain ⟨s2, l2, r2, t2, e2⟩ := leads_quiet r1 t1 (pc := .all order acc) (by rw [e1]; simp only [CastRace.act, e])
    obtain ⟨s', n', d', l, h2, h3, h4, h5, h6⟩ := leads_all (d := d) hρ hσ order acc [] _ h1 r2 t2 (by rw [e2]) (by rw [e2, e1])
    have ea : Adapter.apply view (some { rooms := some ([].map ρ), except := some (except.map ρ) }) (Delivery.kick d false) n = (n', d'.map σ) := by
      simp only [Adapter.apply, Adapter.normOpts, Adapter.computeExceptSids, List.map_nil]
      rw [show (view.ad n).sids.keys = order.map σ from hk, show (n, ([] : List Sid)) = (n, [].map σ) from rfl]
      exact h6
    rw [ea]
    exact ⟨s', l1.trans (l2.trans l), (idle_iff _).2 ⟨h4, h3, h2.free⟩, h2⟩
  | cons q rooms =>
    obtain ⟨s2, l2, r2, t2, e2⟩ := leads_quiet r1 t1 (pc := .r (q :: rooms) acc []) (by rw [e1]; simp only [CastRace.act])
    obtain ⟨s', n', d', l, h2, h3, h4, h5, h6⟩ := leads_r (d := d) hρ hσ (q :: rooms) acc [] _ h1 r2 t2 (by rw [e2]) (by rw [e2, e1])
    have ea : Adapter.apply view (some { rooms := some ((q :: rooms).map ρ), except := some (except.map ρ) }) (Delivery.kick d false) n = (n', d'.map σ) := by
      simp only [Adapter.apply, Adapter.normOpts, Adapter.computeExceptSids, List.map_cons]
      rw [show (n, ([] : List Sid)) = (n, [].map σ) from rfl]
      exact h6
    rw [ea]
    exact ⟨s', l1.trans (l2.trans l), (idle_iff _).2 ⟨h4, h3, h2.free⟩, h2⟩

end Verif.KickRace
