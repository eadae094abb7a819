import Verif.Spec.BeatEnd
import Verif.Lib.ListExtra
import Verif.Proof.Returns

/-! # Heartbeats that go on -/

namespace Verif.BeatRace
open Verif Verif.Spec

/-- The call has not yet seen to the timer. -/
def early : Pc → Bool
  | .load => true
  | .refresh _ => true
  | .create => true
  | _ => false

def left : Pc → Nat
  | .load => 5
  | .refresh _ => 3
  | .create => 4
  | .store _ => 3
  | .send => 2
  | .clear => 1
  | .done => 0

/-- As long as nobody closes: no timer is stopped, and the calls know of no others than there are. -/
structure Open (s : St) : Prop where
  running : ∀ t ∈ s.timers, t ≠ .stopped
  field : ∀ t, s.field = some t → t < s.timers.length
  calls : ∀ c ∈ s.ths, c.msg ≠ .goodbye ∧ c.pc ≠ .clear ∧ (∀ t, c.pc = .refresh t ∨ c.pc = .store t → t < s.timers.length)

/-- Something will send a heartbeat: a timer, or a call that has not yet seen to the timer. -/
def Live (s : St) : Prop := .armed ∈ s.timers ∨ ∃ c ∈ s.ths, early c.pc = true

theorem refreshed_ne (revive : Bool) {t : Timer} (h : t ≠ .stopped) : refreshed revive t = .armed := by
  cases t <;> first | rfl | exact absurd rfl h

theorem modify_mem {l : List Timer} {t : Nat} {f : Timer → Timer} {x : Timer} (h : x ∈ l.modify t f) : x ∈ l ∨ ∃ y ∈ l, x = f y := by
  obtain ⟨i, hi⟩ := List.getElem?_of_mem h
  rw [List.getElem?_modify] at hi
  cases hl : l[i]? with
  | none => simp [hl] at hi
  | some y =>
    simp only [hl, Option.map_eq_map, Option.map_some, Option.some.injEq] at hi
    split at hi
    · exact .inr ⟨y, List.mem_of_getElem? hl, hi.symm⟩
    · exact .inl (by rw [← hi]; exact List.mem_of_getElem? hl)

theorem armed_stays {revive : Bool} {l : List Timer} (t : Nat) {i : Nat} (h : l[i]? = some .armed) : (l.modify t (refreshed revive))[i]? = some .armed := by
  rw [List.getElem?_modify, h]
  simp only [Option.map_eq_map, Option.map_some]
  split <;> rfl

/-- One step of a call. -/
structure Stepped (s : St) (m : Msg) (pc : Pc) (r : St × Pc) : Prop where
  ths : r.1.ths = s.ths
  running : ∀ t ∈ r.1.timers, t ≠ .stopped
  field : ∀ t, r.1.field = some t → t < r.1.timers.length
  more : s.timers.length ≤ r.1.timers.length
  noClear : r.2 ≠ .clear
  knows : ∀ t, r.2 = .refresh t ∨ r.2 = .store t → t < r.1.timers.length
  armed : ∀ i : Nat, s.timers[i]? = some .armed → r.1.timers[i]? = some .armed
  seen : early pc = true → early r.2 = true ∨ Timer.armed ∈ r.1.timers
  log : r.1.log = s.log ∨ pc = .send ∧ r.1.log = s.log ++ [m]
  sends : pc = .send → r.1.log = s.log ++ [m]
  less : pc ≠ .done → left r.2 < left pc
  alive : pc ≠ .done → r.2 = .done → pc = .send

theorem stepped {revive : Bool} {s : St} (o : Open s) {m : Msg} (hm : m ≠ .goodbye) {pc : Pc} (hc : pc ≠ .clear)
    (hk : ∀ t, pc = .refresh t ∨ pc = .store t → t < s.timers.length) : Stepped s m pc (advance revive s m pc) := by
  cases pc with
  | load =>
    refine ⟨rfl, o.running, o.field, Nat.le_refl _, ?_, ?_, fun _ h => h, ?_, .inl rfl, fun h => (by cases h), fun _ => ?_, fun _ h => ?_⟩
    · simp only [advance]; cases s.field <;> simp
    · intro t ht
      simp only [advance] at ht
      cases hf : s.field with
      | none => simp [hf] at ht
      | some t' =>
        simp only [hf, Pc.refresh.injEq, reduceCtorEq, or_false] at ht
        subst ht
        exact o.field _ hf
    · intro _; simp only [advance]; cases s.field <;> exact .inl rfl
    · simp only [advance]; cases s.field <;> simp [left]
    · simp only [advance] at h; cases hf : s.field <;> simp [hf] at h
  | refresh t =>
    have hl := hk t (.inl rfl)
    refine ⟨rfl, ?_, ?_, by simp [advance], by simp [advance], by simp [advance], ?_, ?_, .inl rfl, fun h => (by cases h), fun _ => (by simp [advance, left]),
      fun _ h => (by simp [advance] at h)⟩
    · intro x hx
      rcases modify_mem hx with h | ⟨y, hy, rfl⟩
      · exact o.running x h
      · rw [refreshed_ne revive (o.running y hy)]; simp
    · intro t' ht'
      simp only [advance, List.length_modify]
      exact o.field t' ht'
    · intro i hi; exact armed_stays t hi
    · intro _
      refine .inr (List.mem_of_getElem? (i := t) ?_)
      simp only [advance]
      rw [List.getElem?_modify, List.getElem?_eq_getElem hl]
      simp [refreshed_ne revive (o.running _ (List.getElem_mem hl))]
  | create =>
    refine ⟨rfl, ?_, ?_, by simp [advance], by simp [advance], ?_, ?_, ?_, .inl rfl, fun h => (by cases h), fun _ => (by simp [advance, left]),
      fun _ h => (by simp [advance] at h)⟩
    · intro x hx
      simp only [advance, List.mem_append, List.mem_singleton] at hx
      rcases hx with hx | rfl
      · exact o.running x hx
      · simp
    · intro t' ht'
      have := o.field t' ht'
      simp only [advance, List.length_append, List.length_singleton]
      omega
    · intro t ht
      simp only [advance, Pc.store.injEq, reduceCtorEq, false_or] at ht
      subst ht
      simp [advance]
    · intro i hi
      simp only [advance]
      rw [List.getElem?_append_left (List.getElem?_eq_some_iff.1 hi).1]
      exact hi
    · intro _
      exact .inr (by simp [advance])
  | store t =>
    refine ⟨rfl, o.running, ?_, Nat.le_refl _, by simp [advance], by simp [advance], fun _ h => h, fun h => (by cases h), .inl rfl, fun h => (by cases h),
      fun _ => (by simp [advance, left]), fun _ h => (by simp [advance] at h)⟩
    intro t' ht'
    simp only [advance, Option.some.injEq] at ht'
    subst ht'
    exact hk t (.inr rfl)
  | send =>
    refine ⟨rfl, o.running, o.field, Nat.le_refl _, by simp [advance, hm], by simp [advance, hm], fun _ h => h, fun h => (by cases h), .inr ⟨rfl, rfl⟩, fun _ => rfl,
      fun _ => (by simp [advance, hm, left]), fun _ _ => rfl⟩
  | clear => exact absurd rfl hc
  | done =>
    exact ⟨rfl, o.running, o.field, Nat.le_refl _, by simp [advance], by simp [advance], fun _ h => h, fun h => (by cases h), .inl rfl, fun h => (by cases h),
      fun h => absurd rfl h, fun h => absurd rfl h⟩

theorem stepped_of {revive : Bool} {s : St} (o : Open s) {k : Nat} {c : Th} (hk : s.ths[k]? = some c) :
    Stepped s c.msg c.pc (advance revive s c.msg c.pc) := by
  obtain ⟨h1, h2, h3⟩ := o.calls c (List.mem_of_getElem? hk)
  exact stepped o h1 h2 h3

theorem open_step {revive : Bool} {s : St} (o : Open s) (e : Ev) (he : e ≠ .close) : Open (step revive s e) := by
  have spawn : ∀ (l : List Timer) (m : Msg), m ≠ .goodbye → (∀ t ∈ l, t ≠ .stopped) → l.length = s.timers.length →
      Open { s with timers := l, ths := s.ths ++ [⟨m, .load⟩] } := by
    intro l m hm hl hn
    refine ⟨hl, fun t ht => by rw [hn]; exact o.field t ht, fun c hc => ?_⟩
    simp only [List.mem_append, List.mem_singleton] at hc
    rw [hn]
    rcases hc with hc | rfl
    · exact o.calls c hc
    · exact ⟨hm, by simp, by simp⟩
  cases e with
  | publish => exact spawn s.timers .message (by simp) o.running rfl
  | close => exact absurd rfl he
  | fire t =>
    simp only [step]
    split
    · refine spawn (s.timers.set t .fired) .heartbeat (by simp) (fun x hx => ?_) (by simp)
      rcases List.mem_or_eq_of_mem_set hx with h | rfl
      · exact o.running x h
      · simp
    · exact o
  | adv k =>
    simp only [step]
    cases hk : s.ths[k]? with
    | none => exact o
    | some c =>
      have p := stepped_of (revive := revive) o hk
      refine ⟨p.running, p.field, fun d hd => ?_⟩
      rcases List.mem_or_eq_of_mem_set hd with hd | rfl
      · obtain ⟨h1, h2, h3⟩ := o.calls d hd
        exact ⟨h1, h2, fun t ht => Nat.lt_of_lt_of_le (h3 t ht) p.more⟩
      · exact ⟨(o.calls c (List.mem_of_getElem? hk)).1, p.noClear, p.knows⟩

theorem live_step {revive : Bool} {s : St} (o : Open s) (e : Ev) (he : e ≠ .close) (h : Live s ∨ e = .publish) : Live (step revive s e) := by
  cases e with
  | publish => exact .inr ⟨⟨.message, .load⟩, by simp [step], rfl⟩
  | close => exact absurd rfl he
  | fire t =>
    have h : Live s := h.resolve_right (by simp)
    simp only [step]
    split
    · exact .inr ⟨⟨.heartbeat, .load⟩, by simp, rfl⟩
    · exact h
  | adv k =>
    have h : Live s := h.resolve_right (by simp)
    simp only [step]
    cases hk : s.ths[k]? with
    | none => exact h
    | some c =>
      have p := stepped_of (revive := revive) o hk
      rcases h with h | ⟨d, hd, he⟩
      · obtain ⟨i, hi⟩ := List.getElem?_of_mem h
        exact .inl (List.mem_of_getElem? (p.armed i hi))
      · obtain ⟨j, hj⟩ := List.getElem?_of_mem hd
        by_cases e : j = k
        · subst e
          rw [hk] at hj
          cases hj
          rcases p.seen he with h | h
          · exact .inr ⟨_, List.mem_of_getElem? (i := j) (List.getElem?_set_self (List.getElem?_eq_some_iff.1 hk).1), h⟩
          · exact .inl h
        · exact .inr ⟨d, List.mem_of_getElem? (i := j) (by rw [← hj]; exact List.getElem?_set_ne (fun h => e h.symm)), he⟩

theorem open_fold {revive : Bool} (l : List Ev) {s : St} (o : Open s) (hc : .close ∉ l) : Open (l.foldl (step revive) s) := by
  induction l generalizing s with
  | nil => exact o
  | cons e l ih =>
    simp only [List.mem_cons, not_or] at hc
    exact ih (open_step o e (fun h => hc.1 h.symm)) hc.2

theorem live_fold {revive : Bool} (l : List Ev) {s : St} (o : Open s) (hc : .close ∉ l) (h : Live s ∨ .publish ∈ l) : Live (l.foldl (step revive) s) := by
  induction l generalizing s with
  | nil => exact h.resolve_right (by simp)
  | cons e l ih =>
    simp only [List.mem_cons, not_or] at hc
    have he : e ≠ .close := fun h => hc.1 h.symm
    refine ih (open_step o e he) hc.2 ?_
    rcases h with h | h
    · exact .inl (live_step o e he (.inl h))
    · rcases List.mem_cons.1 h with h | h
      · exact .inl (live_step o e he (.inr h.symm))
      · exact .inr h

/-- Heartbeats sent have been sent. -/
theorem sent_step {revive : Bool} {s : St} (o : Open s) (e : Ev) : heartbeatsSent s ≤ heartbeatsSent (step revive s e) := by
  cases e with
  | publish => exact Nat.le_refl _
  | close => exact Nat.le_refl _
  | fire t => simp only [step]; split <;> exact Nat.le_refl _
  | adv k =>
    simp only [step]
    cases hk : s.ths[k]? with
    | none => exact Nat.le_refl _
    | some c =>
      have p := stepped_of (revive := revive) o hk
      simp only [heartbeatsSent]
      rcases p.log with h | ⟨_, h⟩ <;> rw [h]
      · exact Nat.le_refl _
      · simp

/-- Call `k` is one of the timer, and has not returned. -/
def Beats (k : Nat) (s : St) : Prop := ∃ c, s.ths[k]? = some c ∧ c.msg = .heartbeat ∧ c.pc ≠ .done

theorem other_call {revive : Bool} {s : St} {e : Ev} {k : Nat} {c : Th} (he : e ≠ .adv k) (hk : s.ths[k]? = some c) : (step revive s e).ths[k]? = some c := by
  have hl := (List.getElem?_eq_some_iff.1 hk).1
  have app : ∀ x, (s.ths ++ [x])[k]? = some c := by intro x; rw [List.getElem?_append_left hl]; exact hk
  cases e with
  | publish => exact app _
  | close => exact app _
  | fire t => simp only [step]; split <;> first | exact app _ | exact hk
  | adv j =>
    simp only [step]
    cases hj : s.ths[j]? with
    | none => exact hk
    | some d => rw [← hk]; exact List.getElem?_set_ne (fun h => he (by rw [h]))

/-- Along a schedule. -/
structure Along (revive : Bool) (σ : Nat → Ev) (s : St) : Prop where
  isOpen : Open s
  noClose : ∀ n, σ n ≠ .close
  fair : ∀ k, AgainAndAgain (.adv k) σ
  timers : ∀ t, AgainAndAgain (.fire t) σ

variable {revive : Bool} {σ : Nat → Ev} {s : St}

/-- The state after `n` events. -/
def after (revive : Bool) (σ : Nat → Ev) (s : St) (n : Nat) : St := (firstOf σ n).foldl (step revive) s

theorem after_succ (n : Nat) : after revive σ s (n + 1) = step revive (after revive σ s n) (σ n) := by
  simp only [after, Returns.firstOf_succ, List.foldl_append, List.foldl_cons, List.foldl_nil]

theorem Along.open' (a : Along revive σ s) (n : Nat) : Open (after revive σ s n) := by
  induction n with
  | zero => exact a.isOpen
  | succ n ih => rw [after_succ]; exact open_step ih _ (a.noClose n)

theorem Along.live' (a : Along revive σ s) (h : Live s) (n : Nat) : Live (after revive σ s n) := by
  induction n with
  | zero => exact h
  | succ n ih => rw [after_succ]; exact live_step (a.open' n) _ (a.noClose n) (.inl ih)

theorem Along.sent (a : Along revive σ s) (n d : Nat) : heartbeatsSent (after revive σ s n) ≤ heartbeatsSent (after revive σ s (n + d)) := by
  induction d with
  | zero => exact Nat.le_refl _
  | succ d ih => rw [← Nat.add_assoc, after_succ]; exact Nat.le_trans ih (sent_step (a.open' _) _)

/-- A call is not forgotten: whatever holds of it until it takes a step, it takes one. -/
theorem Along.moves (a : Along revive σ s) (k n : Nat) (c : Th) (hk : (after revive σ s n).ths[k]? = some c) :
    ∃ m, n ≤ m ∧ (after revive σ s m).ths[k]? = some c ∧ σ m = .adv k := by
  obtain ⟨m, hm, he⟩ := a.fair k n
  have key : ∀ d, (after revive σ s (n + d)).ths[k]? = some c ∨ ∃ m, n ≤ m ∧ (after revive σ s m).ths[k]? = some c ∧ σ m = .adv k := by
    intro d
    induction d with
    | zero => exact .inl hk
    | succ d ih =>
      rcases ih with ih | ih
      · by_cases e : σ (n + d) = .adv k
        · exact .inr ⟨n + d, by omega, ih, e⟩
        · rw [← Nat.add_assoc, after_succ]
          exact .inl (other_call e ih)
      · exact .inr ih
  obtain ⟨d, rfl⟩ := Nat.exists_eq_add_of_le hm
  rcases key d with h | h
  · exact ⟨n + d, by omega, h, he⟩
  · exact h

/-- The step that a call takes. -/
theorem adv_at {s : St} {k : Nat} {c : Th} (hk : s.ths[k]? = some c) :
    (step revive s (.adv k)).ths[k]? = some { c with pc := (advance revive s c.msg c.pc).2 } ∧
    (step revive s (.adv k)).log = (advance revive s c.msg c.pc).1.log ∧ (step revive s (.adv k)).timers = (advance revive s c.msg c.pc).1.timers := by
  simp only [step, hk]
  exact ⟨List.getElem?_set_self (List.getElem?_eq_some_iff.1 hk).1, trivial, trivial⟩

/-- A call of the timer sends its heartbeat. -/
theorem Along.beat (a : Along revive σ s) (k : Nat) : ∀ (b n : Nat) (c : Th), (after revive σ s n).ths[k]? = some c → c.msg = .heartbeat → c.pc ≠ .done →
    left c.pc ≤ b → ∃ m, n ≤ m ∧ heartbeatsSent (after revive σ s n) < heartbeatsSent (after revive σ s m) := by
  intro b
  induction b with
  | zero =>
    intro n c hk hm hd hb
    have p := stepped_of (revive := revive) (a.open' n) hk
    have := p.less hd
    omega
  | succ b ih =>
    intro n c hk hm hd hb
    obtain ⟨m, hnm, hk', he⟩ := a.moves k n c hk
    have p := stepped_of (revive := revive) (a.open' m) hk'
    obtain ⟨e1, e2, _⟩ := adv_at (revive := revive) hk'
    rw [← he, ← after_succ] at e1 e2
    obtain ⟨d, rfl⟩ := Nat.exists_eq_add_of_le hnm
    have mono := a.sent n d
    by_cases hs : c.pc = .send
    · refine ⟨n + d + 1, by omega, Nat.lt_of_le_of_lt mono ?_⟩
      have : (List.filter (fun m => decide (m = Msg.heartbeat)) [Msg.heartbeat]).length = 1 := rfl
      have e4 := e2.trans (p.sends hs)
      rw [hm] at e4
      simp only [heartbeatsSent, e4, List.filter_append, List.length_append, this]
      omega
    · have hd' : (advance revive (after revive σ s (n + d)) c.msg c.pc).2 ≠ .done := fun h => hs (p.alive hd h)
      have hl := p.less hd
      obtain ⟨m, h1, h2⟩ := ih (n + d + 1) _ e1 hm hd' (by simp only; omega)
      exact ⟨m, by omega, Nat.lt_of_le_of_lt (a.sent n (d + 1)) h2⟩

/-- A timer that runs leads to a heartbeat. -/
theorem Along.armed (a : Along revive σ s) (n t : Nat) (ht : (after revive σ s n).timers[t]? = some .armed) :
    ∃ m, n ≤ m ∧ heartbeatsSent (after revive σ s n) < heartbeatsSent (after revive σ s m) := by
  obtain ⟨m, hm, he⟩ := a.timers t n
  have key : ∀ d, (after revive σ s (n + d)).timers[t]? = some .armed ∨ ∃ m, n ≤ m ∧ (after revive σ s m).timers[t]? = some .armed ∧ σ m = .fire t := by
    intro d
    induction d with
    | zero => exact .inl ht
    | succ d ih =>
      rcases ih with ih | ih
      · by_cases e : σ (n + d) = .fire t
        · exact .inr ⟨n + d, by omega, ih, e⟩
        · refine .inl ?_
          rw [← Nat.add_assoc, after_succ]
          cases hσ : σ (n + d) with
          | publish => exact ih
          | close => exact absurd hσ (a.noClose _)
          | fire u =>
            simp only [step]
            split
            · have : u ≠ t := fun h => e (by rw [hσ, h])
              simp only []
              rw [List.getElem?_set_ne this]; exact ih
            · exact ih
          | adv k =>
            simp only [step]
            cases hk : (after revive σ s (n + d)).ths[k]? with
            | none => exact ih
            | some c => exact (stepped_of (revive := revive) (a.open' (n + d)) hk).armed t ih
      · exact .inr ih
  have : ∃ m, n ≤ m ∧ (after revive σ s m).timers[t]? = some .armed ∧ σ m = .fire t := by
    obtain ⟨d, rfl⟩ := Nat.exists_eq_add_of_le hm
    rcases key d with h | h
    · exact ⟨n + d, by omega, h, he⟩
    · exact h
  obtain ⟨m, hm, h1, h2⟩ := this
  have e1 : (after revive σ s (m + 1)).ths[(after revive σ s m).ths.length]? = some ⟨.heartbeat, .load⟩ := by
    rw [after_succ, h2]
    simp [step, h1]
  obtain ⟨m', h3, h4⟩ := a.beat _ _ (m + 1) _ e1 rfl (by simp) (Nat.le_refl _)
  obtain ⟨d, hd⟩ := Nat.exists_eq_add_of_le (Nat.le_succ_of_le hm)
  rw [Nat.succ_eq_add_one] at hd
  refine ⟨m', by omega, Nat.lt_of_le_of_lt ?_ h4⟩
  rw [hd]
  exact a.sent n d

/-- A call that has not yet seen to the timer leads to one that runs. -/
theorem Along.sees (a : Along revive σ s) (k : Nat) : ∀ (b n : Nat) (c : Th), (after revive σ s n).ths[k]? = some c → early c.pc = true →
    left c.pc ≤ b → ∃ m, n ≤ m ∧ Timer.armed ∈ (after revive σ s m).timers := by
  intro b
  induction b with
  | zero => intro n c _ h1 h2; cases hp : c.pc <;> rw [hp] at h1 h2 <;> simp [early, left] at h1 h2
  | succ b ih =>
    intro n c hk he hb
    obtain ⟨m, hnm, hk', hs⟩ := a.moves k n c hk
    have p := stepped_of (revive := revive) (a.open' m) hk'
    obtain ⟨e1, _, e3⟩ := adv_at (revive := revive) hk'
    rw [← hs, ← after_succ] at e1 e3
    rcases p.seen he with h | h
    · have hl := p.less (by intro h; rw [h] at he; cases he)
      obtain ⟨m', h1, h2⟩ := ih (m + 1) _ e1 h (by simp only; omega)
      exact ⟨m', by omega, h2⟩
    · exact ⟨m + 1, by omega, by rw [e3]; exact h⟩

/-- The next heartbeat. -/
theorem Along.next (a : Along revive σ s) (hl : Live s) (n : Nat) : ∃ m, n ≤ m ∧ heartbeatsSent (after revive σ s n) < heartbeatsSent (after revive σ s m) := by
  have : ∃ m, n ≤ m ∧ Timer.armed ∈ (after revive σ s m).timers := by
    rcases a.live' hl n with h | ⟨c, hc, he⟩
    · exact ⟨n, Nat.le_refl n, h⟩
    · obtain ⟨k, hk⟩ := List.getElem?_of_mem hc
      exact a.sees k _ n c hk he (Nat.le_refl _)
  obtain ⟨m, hm, h⟩ := this
  obtain ⟨t, ht⟩ := List.getElem?_of_mem h
  obtain ⟨m', h1, h2⟩ := a.armed m t ht
  obtain ⟨d, rfl⟩ := Nat.exists_eq_add_of_le hm
  exact ⟨m', by omega, Nat.lt_of_le_of_lt (a.sent n d) h2⟩

end Verif.BeatRace
