import Verif.Proof.BulkRace
import Verif.Proof.CastSeq
import Verif.Proof.RoomSeq
import Verif.Spec.BulkSeq

/-! A bulk call of `Model/BulkRace` during which nothing else happens does what that of `Model/Delivery` does. -/

namespace Verif.BulkRace
open Verif Verif.Spec Verif.World Verif.Delivery

/-- `n` steps of the bulk call. -/
def advs : Nat → St → St
  | 0, s => s
  | n + 1, s => advs n (step s .adv)

def Leads (s s' : St) : Prop := ∃ n, advs n s = s'

theorem advs_add (n m : Nat) (s : St) : advs (n + m) s = advs m (advs n s) := by
  induction n generalizing s with
  | zero => simp [advs]
  | succ n ih => rw [Nat.succ_add]; exact ih _

theorem Leads.refl (s : St) : Leads s s := ⟨0, rfl⟩

theorem Leads.trans {s t u : St} : Leads s t → Leads t u → Leads s u := by
  rintro ⟨n, rfl⟩ ⟨m, rfl⟩; exact ⟨n + m, advs_add _ _ _⟩

theorem Leads.next {s t : St} (h : Leads (step s .adv) t) : Leads s t := by
  obtain ⟨n, e⟩ := h; exact ⟨n + 1, e⟩

theorem advs_run (n : Nat) (s : St) : (List.replicate n Ev.adv).foldl step s = advs n s := by
  induction n generalizing s with
  | zero => rfl
  | succ n ih => simpa [List.replicate_succ, advs] using ih _

/-- A step of the loop that reaches nobody. -/
theorem adv_quiet {s : St} (hf : (s.cast.tab.th 0).2 = .done) (ht : s.todo = []) {pc : CastRace.PC}
    (h : CastRace.act s.cast s.cast.pc = (s.cast, pc)) : step s .adv = { s with cast := { s.cast with pc := pc } } := by
  simp [step, does, hf, ht, CastRace.step, h, reached]

/-- A step of the loop that reaches a socket. -/
theorem adv_reach {s : St} (hf : (s.cast.tab.th 0).2 = .done) (ht : s.todo = []) {pc : CastRace.PC} {id : Nat}
    (h : CastRace.act s.cast s.cast.pc = ({ s.cast with sent := s.cast.sent ++ [id] }, pc)) :
    step s .adv = { s with cast := { s.cast with sent := s.cast.sent ++ [id], pc := pc }, now := id, todo := s.act.calls (s.shut id) } := by
  simp [step, does, hf, ht, CastRace.step, h, reached]

theorem advs_idle (n : Nat) (s : St) (h : s.idle = true) : advs n s = s := by
  obtain ⟨h1, h2, h3⟩ := (idle_iff s).1 h
  induction n with
  | zero => rfl
  | succ n ih =>
    have : step s .adv = s := by
      rw [adv_quiet h3 h2 (pc := .idle) (by rw [h1]; rfl)]
      rw [← h1]
    rw [advs, this]; exact ih

theorem advs_unique {n m : Nat} {s : St} (h : (advs n s).idle = true) (h' : (advs m s).idle = true) : advs n s = advs m s := by
  rcases Nat.le_total n m with hl | hl
  · obtain ⟨d, rfl⟩ := Nat.exists_eq_add_of_le hl
    rw [advs_add, advs_idle _ _ h]
  · obtain ⟨d, rfl⟩ := Nat.exists_eq_add_of_le hl
    rw [advs_add, advs_idle _ _ h']

variable (d : Bool) (ρ : Nat → Room) (σ : Nat → Sid) (a : Act)

/-- The two models show the same while goroutine 0 is in no call of the adapter. -/
structure R (s : St) (n : Nsp) : Prop where
  tab : RoomRace.Same ρ σ s.cast.tab n.ad
  reg : ∀ id, (n.sockets.get? (σ id)).isSome = s.cast.reg id
  own : ∀ id ref, n.sockets.get? (σ id) = some ref → n.sidOf ref = σ id ∧ n.canJoin ref = !s.shut id
  act : s.act = a
  free : (s.cast.tab.th 0).2 = .done

/-- The calls made for one socket, at once. -/
def calls (id : Nat) (n : Nsp) (cs : List RoomRace.Call) : Nsp :=
  cs.foldl (fun n c => { n with ad := (atOnce d ρ σ n.ad (id, c)).1 }) n

/-- The callback. -/
def cb (n : Nsp) (ref : Nat) : Nsp :=
  match a with
  | .join rs => join (rs.map ρ) n ref
  | .leave rs => leaveEach d (rs.map ρ) n ref

variable {d ρ σ a}

theorem cb_calls {n : Nsp} {ref id : Nat} {shut : Bool} (h1 : n.sidOf ref = σ id) (h2 : n.canJoin ref = !shut) :
    cb d ρ a n ref = calls d ρ σ id n (a.calls shut) := by
  cases a with
  | join rs => cases shut <;> simp [cb, Delivery.join, h1, h2, calls, Act.calls, atOnce]
  | leave rs =>
    simp only [cb, Delivery.leaveEach, calls, Act.calls]
    clear h2
    induction rs generalizing n with
    | nil => rfl
    | cons r rs ih =>
      simp only [List.map_cons, List.foldl_cons]
      rw [ih (by exact h1)]
      simp [Delivery.leave, atOnce, h1]

theorem upd_upd {α : Type} (f : Nat → α) (k : Nat) (x y : α) : upd (upd f k x) k y = upd f k y := by
  funext j; unfold upd; split <;> rfl

/-- The steps of one call of the adapter. -/
theorem leads_turns (s : St) (f : Nat → Nat × RoomRace.PC) (id n : Nat) (t t' : RoomRace.St) (pc : RoomRace.PC)
    (h : RoomRace.turns id n (t, pc) = (t', .done)) :
    Leads { s with cast := { s.cast with tab := { t with th := upd f 0 (id, pc) } } }
      { s with cast := { s.cast with tab := { t' with th := upd f 0 (id, .done) } } } := by
  induction n generalizing t pc with
  | zero =>
    simp only [RoomRace.turns, Prod.mk.injEq] at h
    obtain ⟨rfl, rfl⟩ := h
    exact .refl _
  | succ n ih =>
    by_cases hp : pc = .done
    · subst hp
      rw [RoomRace.turns_done] at h
      cases h
      exact .refl _
    · rw [RoomRace.turns] at h
      have := ih _ _ h
      refine .next ?_
      have e : upd f 0 (id, pc) 0 = (id, pc) := by simp [upd]
      have e2 : step { s with cast := { s.cast with tab := { t with th := upd f 0 (id, pc) } } } .adv =
          { s with cast := { s.cast with tab := { (RoomRace.act t id pc).1 with th := upd f 0 (id, (RoomRace.act t id pc).2) } } } := by
        simp only [step, does, e, hp, ne_eq, not_false_eq_true, if_true, List.foldl_cons, List.foldl_nil, CastRace.step,
          RoomRace.step, RoomRace.advance, RoomRace.act_put, upd_upd]
      rw [e2]
      exact this

/-- The calls of the adapter for one socket. -/
theorem leads_calls (hρ : ∀ i j, ρ i = ρ j → i = j) (hσ : ∀ i j, σ i = σ j → i = j) (cs : List RoomRace.Call) {s : St} {n : Nsp}
    (r : R ρ σ a s n) (ht : s.todo = cs) :
    ∃ s', Leads s s' ∧ R ρ σ a s' (calls d ρ σ s.now n cs) ∧ s'.todo = [] ∧ s'.cast.pc = s.cast.pc ∧ s'.cast.sent = s.cast.sent := by
  induction cs generalizing s n with
  | nil => exact ⟨s, .refl _, r, ht, rfl, rfl⟩
  | cons c cs ih =>
    obtain ⟨t', ⟨m, h1⟩, h2, -⟩ := RoomRace.call_done hρ hσ r.tab d s.now c
    let s1 : St := { s with cast := { s.cast with known := s.cast.known ++ [s.now] }, todo := cs }
    have e : step s .adv =
        { s1 with cast := { s1.cast with tab := { s.cast.tab with th := upd s.cast.tab.th 0 (s.now, c.start) } } } := by
      simp [step, does, r.free, ht, CastRace.step, RoomRace.step, s1]
    have l := leads_turns s1 s.cast.tab.th s.now m s.cast.tab t' c.start h1
    rw [← e] at l
    obtain ⟨s', l', r', q1, q2, q3⟩ := ih (s := { s1 with cast := { s1.cast with tab := { t' with th := upd s.cast.tab.th 0 (s.now, .done) } } })
      (n := { n with ad := (atOnce d ρ σ n.ad (s.now, c)).1 })
      ⟨RoomRace.same_th h2 _, r.reg, r.own, r.act, by simp [upd]⟩ rfl
    exact ⟨s', .trans (.next l) l', r', q1, q2, q3⟩

theorem R.pc {s : St} {n : Nsp} (r : R ρ σ a s n) (pc : CastRace.PC) : R ρ σ a { s with cast := { s.cast with pc := pc } } n :=
  ⟨r.tab, r.reg, r.own, r.act, r.free⟩

/-- The loop comes to a socket. -/
theorem leads_reach (hρ : ∀ i j, ρ i = ρ j → i = j) (hσ : ∀ i j, σ i = σ j → i = j) {s : St} {n : Nsp} (r : R ρ σ a s n)
    (ht : s.todo = []) {pc : CastRace.PC} {id ref : Nat} (hr : n.sockets.get? (σ id) = some ref)
    (h : CastRace.act s.cast s.cast.pc = ({ s.cast with sent := s.cast.sent ++ [id] }, pc)) :
    ∃ s', Leads s s' ∧ R ρ σ a s' (cb d ρ a n ref) ∧ s'.todo = [] ∧ s'.cast.pc = pc ∧ s'.cast.sent = s.cast.sent ++ [id] := by
  have e := adv_reach r.free ht h
  have r1 : R ρ σ a (step s .adv) n := by rw [e]; exact ⟨r.tab, r.reg, r.own, r.act, r.free⟩
  obtain ⟨s', h1, h2, h3, h4, h5⟩ := leads_calls (d := d) hρ hσ _ r1 rfl
  obtain ⟨o1, o2⟩ := r.own _ _ hr
  refine ⟨s', .next h1, ?_, h3, by rw [h4, e], by rw [h5, e]⟩
  rw [cb_calls o1 o2]
  have e1 : (step s .adv).now = id := by rw [e]
  have e2 : (step s .adv).todo = a.calls (s.shut id) := by rw [e, ← r.act]
  rw [e1, e2] at h2
  exact h2

/-- A step of the loop that reaches nobody. -/
theorem leads_quiet {s : St} {n : Nsp} (r : R ρ σ a s n) (ht : s.todo = []) {pc : CastRace.PC}
    (h : CastRace.act s.cast s.cast.pc = (s.cast, pc)) :
    ∃ s', Leads s s' ∧ R ρ σ a s' n ∧ s'.todo = [] ∧ s'.cast = { s.cast with pc := pc } :=
  ⟨_, .next (.refl _), by rw [adv_quiet r.free ht h]; exact r.pc _, by rw [adv_quiet r.free ht h]; exact ht,
    by rw [adv_quiet r.free ht h]⟩

theorem mem_map_inj (hσ : ∀ i j, σ i = σ j → i = j) (l : List Nat) (id : Nat) : σ id ∈ l.map σ ↔ id ∈ l :=
  CastRace.mem_map_inj hσ l id

/-- The rooms to leave out. -/
theorem leads_x (hσ : ∀ i j, σ i = σ j → i = j) {n : Nsp} (ex rooms : List Nat) (acc : List Nat) (x : List Sid)
    (hx : ∀ id, σ id ∈ x ↔ id ∈ acc) {s : St} (r : R ρ σ a s n) (ht : s.todo = []) (hp : s.cast.pc = .x ex rooms acc) :
    ∃ s' acc', Leads s s' ∧ R ρ σ a s' n ∧ s'.todo = [] ∧ s'.cast = { s.cast with pc := .x [] rooms acc' } ∧
      ∀ id, σ id ∈ (ex.map ρ).foldl (Adapter.exceptStep n.ad) x ↔ id ∈ acc' := by
  induction ex generalizing acc x s with
  | nil => exact ⟨s, acc, .refl _, r, ht, by rw [← hp], hx⟩
  | cons q ex ih =>
    simp only [List.map_cons, List.foldl_cons, Adapter.exceptStep, r.tab.rooms]
    cases hq : s.cast.tab.rooms q with
    | none =>
      obtain ⟨s1, l1, r1, t1, e1⟩ := leads_quiet r ht (pc := .x ex rooms acc) (by simp [hp, CastRace.act, hq])
      obtain ⟨s', acc', l, h1, h2, h3, h4⟩ := ih acc x hx r1 t1 (by rw [e1])
      exact ⟨s', acc', l1.trans l, h1, h2, by rw [h3, e1], by simpa using h4⟩
    | some t =>
      obtain ⟨s1, l1, r1, t1, e1⟩ := leads_quiet r ht (pc := .xk q t ex rooms acc) (by simp [hp, CastRace.act, hq])
      obtain ⟨s2, l2, r2, t2, e2⟩ := leads_quiet r1 t1 (pc := .x ex rooms (acc ++ s.cast.tab.rset t)) (by simp [e1, CastRace.act])
      obtain ⟨s', acc', l, h1, h2, h3, h4⟩ := ih (acc ++ s.cast.tab.rset t) (LSet.addAll x ((s.cast.tab.rset t).map σ)) (by
        intro id
        rw [LSet.mem_addAll, hx, List.mem_append, mem_map_inj hσ]) r2 t2 (by rw [e2])
      exact ⟨s', acc', l1.trans (l2.trans l), h1, h2, by rw [h3, e2, e1], by simpa using h4⟩

theorem sock_eq (n : Nsp) (x : Sid) : Delivery.view.sock n x = n.sockets.get? x := rfl

/-- The sockets of one room. -/
theorem leads_ri (hρ : ∀ i j, ρ i = ρ j → i = j) (hσ : ∀ i j, σ i = σ j → i = j) (keys rooms acc done : List Nat) (x : List Sid)
    (hx : ∀ id, σ id ∈ x ↔ id ∈ acc) {s : St} {n : Nsp} (r : R ρ σ a s n) (ht : s.todo = [])
    (hp : s.cast.pc = .ri keys rooms acc done) (hd : s.cast.sent = done) :
    ∃ s' n' done', Leads s s' ∧ R ρ σ a s' n' ∧ s'.todo = [] ∧ s'.cast.pc = .r rooms acc done' ∧ s'.cast.sent = done' ∧
      Adapter.applyIds view (cb d ρ a) x (keys.map σ) (n, done.map σ) = (n', done'.map σ) := by
  induction keys generalizing done s n with
  | nil =>
    obtain ⟨s1, l1, r1, t1, e1⟩ := leads_quiet r ht (pc := .r rooms acc done) (by simp [hp, CastRace.act])
    exact ⟨s1, n, done, l1, r1, t1, by rw [e1], by rw [e1]; exact hd, rfl⟩
  | cons id keys ih =>
    simp only [List.map_cons, Adapter.applyIds, mem_map_inj hσ, hx]
    by_cases hc : id ∈ done ∨ id ∈ acc
    · obtain ⟨s1, l1, r1, t1, e1⟩ := leads_quiet r ht (pc := .ri keys rooms acc done) (by simp [hp, CastRace.act, hc])
      obtain ⟨s', n', d', l, h1, h2, h3, h4, h5⟩ := ih done r1 t1 (by rw [e1]) (by rw [e1]; exact hd)
      exact ⟨s', n', d', l1.trans l, h1, h2, h3, h4, by rw [if_pos hc]; exact h5⟩
    · have hr := r.reg id
      cases hs : n.sockets.get? (σ id) with
      | none =>
        rw [hs] at hr
        obtain ⟨s1, l1, r1, t1, e1⟩ := leads_quiet r ht (pc := .ri keys rooms acc done) (by simp [hp, CastRace.act, hc, ← hr])
        obtain ⟨s', n', d', l, h1, h2, h3, h4, h5⟩ := ih done r1 t1 (by rw [e1]) (by rw [e1]; exact hd)
        exact ⟨s', n', d', l1.trans l, h1, h2, h3, h4, by rw [if_neg hc]; simp only [sock_eq, hs]; exact h5⟩
      | some ref =>
        rw [hs] at hr
        obtain ⟨s1, l1, r1, t1, p1, q1⟩ := leads_reach (d := d) hρ hσ r ht hs (pc := .ri keys rooms acc (done ++ [id]))
          (by simp [hp, CastRace.act, hc, ← hr])
        obtain ⟨s', n', d', l, h1, h2, h3, h4, h5⟩ := ih (done ++ [id]) r1 t1 p1 (by rw [q1, hd])
        exact ⟨s', n', d', l1.trans l, h1, h2, h3, h4, by rw [if_neg hc]; simp only [sock_eq, hs]; simpa using h5⟩

/-- The rooms. -/
theorem leads_r (hρ : ∀ i j, ρ i = ρ j → i = j) (hσ : ∀ i j, σ i = σ j → i = j) (rooms acc done : List Nat) (x : List Sid)
    (hx : ∀ id, σ id ∈ x ↔ id ∈ acc) {s : St} {n : Nsp} (r : R ρ σ a s n) (ht : s.todo = [])
    (hp : s.cast.pc = .r rooms acc done) (hd : s.cast.sent = done) :
    ∃ s' n' done', Leads s s' ∧ R ρ σ a s' n' ∧ s'.todo = [] ∧ s'.cast.pc = .idle ∧ s'.cast.sent = done' ∧
      Adapter.applyRooms view (cb d ρ a) x (rooms.map ρ) (n, done.map σ) = (n', done'.map σ) := by
  induction rooms generalizing done s n with
  | nil =>
    obtain ⟨s1, l1, r1, t1, e1⟩ := leads_quiet r ht (pc := .idle) (by simp [hp, CastRace.act])
    exact ⟨s1, n, done, l1, r1, t1, by rw [e1], by rw [e1]; exact hd, rfl⟩
  | cons q rooms ih =>
    simp only [List.map_cons, Adapter.applyRooms]
    have hm : (view.ad n).rooms.get? (ρ q) = _ := r.tab.rooms q
    rw [hm]
    cases hq : s.cast.tab.rooms q with
    | none =>
      obtain ⟨s1, l1, r1, t1, e1⟩ := leads_quiet r ht (pc := .r rooms acc done) (by simp [hp, CastRace.act, hq])
      obtain ⟨s', n', d', l, h1, h2, h3, h4, h5⟩ := ih done r1 t1 (by rw [e1]) (by rw [e1]; exact hd)
      exact ⟨s', n', d', l1.trans l, h1, h2, h3, h4, by simpa using h5⟩
    | some t =>
      obtain ⟨s1, l1, r1, t1, e1⟩ := leads_quiet r ht (pc := .rk q t rooms acc done) (by simp [hp, CastRace.act, hq])
      obtain ⟨s2, l2, r2, t2, e2⟩ := leads_quiet r1 t1 (pc := .ri (s.cast.tab.rset t) rooms acc done) (by simp [e1, CastRace.act])
      obtain ⟨s3, n3, d3, l3, r3, t3, p3, q3, a3⟩ := leads_ri (d := d) hρ hσ (s.cast.tab.rset t) rooms acc done x hx r2 t2 (by rw [e2])
        (by rw [e2, e1]; exact hd)
      obtain ⟨s', n', d', l, h1, h2, h3, h4, h5⟩ := ih d3 r3 t3 p3 q3
      exact ⟨s', n', d', l1.trans (l2.trans (l3.trans l)), h1, h2, h3, h4, by simp only [Option.map_some, a3]; exact h5⟩

/-- All sockets. -/
theorem leads_all (hρ : ∀ i j, ρ i = ρ j → i = j) (hσ : ∀ i j, σ i = σ j → i = j) (keys acc done : List Nat) (x : List Sid)
    (hx : ∀ id, σ id ∈ x ↔ id ∈ acc) {s : St} {n : Nsp} (r : R ρ σ a s n) (ht : s.todo = [])
    (hp : s.cast.pc = .all keys acc) (hd : s.cast.sent = done) :
    ∃ s' n' done', Leads s s' ∧ R ρ σ a s' n' ∧ s'.todo = [] ∧ s'.cast.pc = .idle ∧ s'.cast.sent = done' ∧
      Adapter.applyAll view (cb d ρ a) x (keys.map σ) (n, done.map σ) = (n', done'.map σ) := by
  induction keys generalizing done s n with
  | nil =>
    obtain ⟨s1, l1, r1, t1, e1⟩ := leads_quiet r ht (pc := .idle) (by simp [hp, CastRace.act])
    exact ⟨s1, n, done, l1, r1, t1, by rw [e1], by rw [e1]; exact hd, rfl⟩
  | cons id keys ih =>
    simp only [List.map_cons, Adapter.applyAll, hx]
    have hm : (view.ad n).sids.get? (σ id) = _ := r.tab.sids id
    rw [hm]
    have hr := r.reg id
    by_cases hc : (s.cast.tab.sids id).isSome ∧ id ∉ acc ∧ s.cast.reg id
    · obtain ⟨c1, c2, c3⟩ := hc
      rw [c3] at hr
      obtain ⟨ref, hs⟩ := Option.isSome_iff_exists.1 hr
      obtain ⟨z, hz⟩ := Option.isSome_iff_exists.1 c1
      obtain ⟨s1, l1, r1, t1, p1, q1⟩ := leads_reach (d := d) hρ hσ r ht hs (pc := .all keys acc)
        (by simp [hp, CastRace.act, c1, c2, c3])
      obtain ⟨s', n', d', l, h1, h2, h3, h4, h5⟩ := ih (done ++ [id]) r1 t1 p1 (by rw [q1, hd])
      refine ⟨s', n', d', l1.trans l, h1, h2, h3, h4, ?_⟩
      simp only [hz, Option.map_some, if_neg c2, sock_eq, hs]
      simpa using h5
    · obtain ⟨s1, l1, r1, t1, e1⟩ := leads_quiet r ht (pc := .all keys acc) (by simp only [hp, CastRace.act, if_neg hc])
      obtain ⟨s', n', d', l, h1, h2, h3, h4, h5⟩ := ih done r1 t1 (by rw [e1]) (by rw [e1]; exact hd)
      refine ⟨s', n', d', l1.trans l, h1, h2, h3, h4, ?_⟩
      cases hz : s.cast.tab.sids id with
      | none => exact h5
      | some z =>
        by_cases c2 : id ∈ acc
        · simp only [Option.map_some, if_pos c2]; exact h5
        · cases hs : n.sockets.get? (σ id) with
          | none => simp only [Option.map_some, if_neg c2, sock_eq, hs]; exact h5
          | some ref => exact absurd ⟨by rw [hz]; rfl, c2, by rw [← hr, hs]; rfl⟩ hc

/-- The whole bulk call. -/
theorem leads_bulk (hρ : ∀ i j, ρ i = ρ j → i = j) (hσ : ∀ i j, σ i = σ j → i = j) {s : St} {n : Nsp} (hi : s.idle = true)
    (r : ∀ a, R ρ σ a { s with act := a } n) (rooms except order : List Nat)
    (hk : n.ad.sids.keys = order.map σ) (hw : n.ad.sids.WF) :
    ∃ s', Leads (step s (.bulk a rooms except order)) s' ∧ s'.idle = true ∧
      R ρ σ a s' (bulkAtOnce d ρ n a (some { rooms := some (rooms.map ρ), except := some (except.map ρ) })) ∧
      s'.cast.sent.map σ = (Adapter.apply view (some { rooms := some (rooms.map ρ), except := some (except.map ρ) }) (cb d ρ a) n).2 := by
  have hb : ∀ o, bulkAtOnce d ρ n a o = (Adapter.apply view o (cb d ρ a) n).1 := by intro o; cases a <;> rfl
  rw [hb, bulk_start hi]
  obtain ⟨i1, i2, i3⟩ := (idle_iff s).1 hi
  have r0 : R ρ σ a { s with cast := { s.cast with pc := .x except rooms [], order := order, sent := [] }, act := a } n :=
    ⟨(r a).tab, (r a).reg, (r a).own, rfl, (r a).free⟩
  obtain ⟨s1, acc, l1, r1, t1, e1, h1⟩ := leads_x hσ except rooms [] [] (by simp) r0 i2 rfl
  cases rooms with
  | nil =>
    have hn : order.Nodup := by
      have : (order.map σ).Nodup := hk ▸ hw
      exact List.Pairwise.of_map σ (fun a b h e => h (e ▸ rfl)) this
    have hin : ∀ i, (s.cast.tab.sids i).isSome ↔ i ∈ order := by
      intro i
      rw [← mem_map_inj hσ, ← hk, FMap.mem_keys_isSome, (r a).tab.sids i, Option.isSome_map]
    have e : CastRace.once ((order ++ s.cast.known).filter fun i => (s.cast.tab.sids i).isSome) = order := by
      rw [List.filter_append, List.filter_eq_self.2 fun i h => (hin i).2 h]
      exact CastRace.once_cover hn fun x hx => (hin x).1 (by simpa using (List.mem_filter.1 hx).2)
    obtain ⟨s2, l2, r2, t2, e2⟩ := leads_quiet r1 t1 (pc := .all order acc) (by rw [e1]; simp only [CastRace.act, e])
    obtain ⟨s', n', d', l, h2, h3, h4, h5, h6⟩ := leads_all (d := d) hρ hσ order acc [] _ h1 r2 t2 (by rw [e2]) (by rw [e2, e1])
    have ea : Adapter.apply view (some { rooms := some ([].map ρ), except := some (except.map ρ) }) (cb d ρ a) n = (n', d'.map σ) := by
      simp only [Adapter.apply, Adapter.normOpts, Adapter.computeExceptSids, List.map_nil]
      rw [show (view.ad n).sids.keys = order.map σ from hk, show (n, ([] : List Sid)) = (n, [].map σ) from rfl]
      exact h6
    rw [ea]
    exact ⟨s', l1.trans (l2.trans l), (idle_iff _).2 ⟨h4, h3, h2.free⟩, h2, by rw [h5]⟩
  | cons q rooms =>
    obtain ⟨s2, l2, r2, t2, e2⟩ := leads_quiet r1 t1 (pc := .r (q :: rooms) acc []) (by rw [e1]; simp only [CastRace.act])
    obtain ⟨s', n', d', l, h2, h3, h4, h5, h6⟩ := leads_r (d := d) hρ hσ (q :: rooms) acc [] _ h1 r2 t2 (by rw [e2]) (by rw [e2, e1])
    have ea : Adapter.apply view (some { rooms := some ((q :: rooms).map ρ), except := some (except.map ρ) }) (cb d ρ a) n = (n', d'.map σ) := by
      simp only [Adapter.apply, Adapter.normOpts, Adapter.computeExceptSids, List.map_cons]
      rw [show (n, ([] : List Sid)) = (n, [].map σ) from rfl]
      exact h6
    rw [ea]
    exact ⟨s', l1.trans (l2.trans l), (idle_iff _).2 ⟨h4, h3, h2.free⟩, h2, by rw [h5]⟩

end Verif.BulkRace
