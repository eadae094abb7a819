import Verif.Spec.NodeRace
import Verif.Proof.RoomCalls

namespace Verif.NodeRace
open Verif Verif.Spec Verif.World

theorem run_snoc (T : Nat) (h : List Ev) (e : Ev) : run T (h ++ [e]) = step T (run T h) e := by simp [run]

theorem now_step (T : Nat) (s : St) (e : Ev) : s.now ≤ (step T s e).now := by
  cases e with
  | tick d => simp [step]
  | msg u c => simp [step]
  | onMsg k =>
    simp only [step]; split
    · rename_i m _; simp only [actMsg]; split <;> simp
    · simp
  | clean o => simp [step]
  | onClean k =>
    simp only [step]; split
    · rename_i c _
      cases c with
      | start o => simp [actClean]
      | visit n l =>
        cases l with
        | nil => simp [actClean]
        | cons u l => simp only [actClean]; split <;> simp
      | drop n u l => simp [actClean]
    · simp

theorem now_run (T : Nat) (p q : List Ev) : (run T p).now ≤ (run T (p ++ q)).now := by
  induction q using snocRec with
  | nil => simp
  | append_singleton q e ih => rw [← List.append_assoc, run_snoc]; exact Nat.le_trans ih (now_step T _ e)

theorem msgs_other (T : Nat) (s : St) (e : Ev) (k : Nat) (m : Msg) (hk : s.msgs[k]? = some m) (he : e ≠ .onMsg k) :
    (step T s e).msgs[k]? = some m := by
  obtain ⟨hl, _⟩ := List.getElem?_eq_some_iff.1 hk
  cases e with
  | tick d => exact hk
  | clean o => exact hk
  | msg v b => simp only [step]; rw [List.getElem?_append_left hl]; exact hk
  | onMsg j =>
    have hj : j ≠ k := fun h => he (by rw [h])
    simp only [step]; split
    · simp only [List.getElem?_set_ne hj]; exact hk
    · exact hk
  | onClean j =>
    simp only [step]; split
    · rename_i c _
      cases c with
      | start o => exact hk
      | visit n l =>
        cases l with
        | nil => exact hk
        | cons w l => simp only [actClean]; split <;> exact hk
      | drop n w l => exact hk
    · exact hk

theorem msgs_self (T : Nat) (s : St) (k : Nat) (m : Msg) (hk : s.msgs[k]? = some m) :
    (step T s (.onMsg k)).msgs[k]? = some (actMsg s m).2 := by
  obtain ⟨hl, _⟩ := List.getElem?_eq_some_iff.1 hk
  simp only [step, hk]
  rw [List.getElem?_set_self hl]

theorem actMsg_uid (s : St) (m : Msg) : (actMsg s m).2.uid = m.uid := by
  obtain ⟨v, b, pc⟩ := m; cases pc <;> rfl

/-- What a goroutine is about to record, with which time. -/
theorem store_run (T : Nat) (h : List Ev) (k : Nat) (m : Msg) (t : Nat) (hk : (run T h).msgs[k]? = some m) (hpc : m.pc = .store t) :
    ∃ a b m', h = a ++ .onMsg k :: b ∧ (run T a).msgs[k]? = some m' ∧ m'.uid = m.uid ∧ m'.pc = .stamp ∧ t = (run T a).now ∧ .onMsg k ∉ b := by
  induction h using snocRec with
  | nil => simp [run] at hk
  | append_singleton h e ih =>
    rw [run_snoc] at hk
    cases hb : (run T h).msgs[k]? with
    | none =>
      exfalso
      have hl : (run T h).msgs.length ≤ k := List.getElem?_eq_none_iff.1 hb
      cases e with
      | tick d => rw [show (step T (run T h) (.tick d)).msgs = (run T h).msgs from rfl, hb] at hk; cases hk
      | msg u c =>
        simp only [step] at hk
        rcases Nat.lt_or_ge (run T h).msgs.length k with h1 | h1
        · rw [List.getElem?_eq_none (by simp; omega)] at hk; cases hk
        · have : k = (run T h).msgs.length := by omega
          subst this
          simp at hk; subst hk; cases hpc
      | clean o => rw [show (step T (run T h) (.clean o)).msgs = (run T h).msgs from rfl, hb] at hk; cases hk
      | onMsg j =>
        have := List.getElem?_eq_some_iff.1 hk
        obtain ⟨h1, _⟩ := this
        simp only [step] at h1; split at h1
        · simp only [List.length_set] at h1; omega
        · omega
      | onClean j =>
        have : (step T (run T h) (.onClean j)).msgs = (run T h).msgs := by
          simp only [step]; split
          · rename_i c _
            cases c with
            | start o => rfl
            | visit n l =>
              cases l with
              | nil => rfl
              | cons w l => simp only [actClean]; split <;> rfl
            | drop n w l => rfl
          · rfl
        rw [this, hb] at hk; cases hk
    | some d =>
      by_cases he : e = .onMsg k
      · subst he
        rw [msgs_self T _ k d hb] at hk
        cases hk
        obtain ⟨v, c, pc⟩ := d
        cases pc with
        | stamp => simp [actMsg] at hpc; exact ⟨h, [], _, rfl, hb, rfl, rfl, hpc.symm, by simp⟩
        | store t' => cases c <;> simp [actMsg] at hpc
        | drop => simp [actMsg] at hpc
        | done => simp [actMsg] at hpc
      · rw [msgs_other T _ e k d hb he] at hk
        cases hk
        obtain ⟨a, b, m', rfl, h1, h2, h3, h4, h5⟩ := ih hb
        exact ⟨a, b ++ [e], m', by simp, h1, h2, h3, h4, by simpa [h5] using fun h => he h.symm⟩

theorem store_of (T : Nat) (a b : List Ev) (k : Nat) (m : Msg) (hk : (run T a).msgs[k]? = some m) (hpc : m.pc = .stamp) (hb : .onMsg k ∉ b) :
    (run T (a ++ .onMsg k :: b)).msgs[k]? = some { m with pc := .store (run T a).now } := by
  induction b using snocRec with
  | nil => rw [run_snoc, msgs_self T _ k _ hk]; simp [actMsg, hpc]
  | append_singleton b e ih =>
    rw [show a ++ .onMsg k :: (b ++ [e]) = (a ++ .onMsg k :: b) ++ [e] by simp, run_snoc]
    exact msgs_other T _ e k _ (ih (by simp at hb; exact hb.1)) (by rintro rfl; simp at hb)

theorem recordedAt_iff (T : Nat) (h : List Ev) (u t : Nat) :
    NodeRecordedAt T h u t ↔ ∃ a k m, h = a ++ [.onMsg k] ∧ (run T a).msgs[k]? = some m ∧ m.uid = u ∧ m.pc = .store t := by
  constructor
  · rintro ⟨a, b, k, m, rfl, hk, hu, hpc, rfl, hb⟩
    exact ⟨_, k, _, rfl, store_of T a b k m hk hpc hb, hu, rfl⟩
  · rintro ⟨a', k, m, rfl, hk, hu, hpc⟩
    obtain ⟨a, b, m', rfl, h1, h2, h3, h4, h5⟩ := store_run T a' k m t hk hpc
    exact ⟨a, b, k, m', rfl, h1, h2.trans hu, h3, h4, h5⟩

theorem recorded_iff (T : Nat) (h : List Ev) (u : Nat) :
    NodeRecorded T h u ↔ ∃ a k m t, h = a ++ [.onMsg k] ∧ (run T a).msgs[k]? = some m ∧ m.uid = u ∧ m.pc = .store t := by
  constructor
  · rintro ⟨t, h⟩; obtain ⟨a, k, m, h⟩ := (recordedAt_iff T _ u t).1 h; exact ⟨a, k, m, t, h⟩
  · rintro ⟨a, k, m, t, h⟩; exact ⟨t, (recordedAt_iff T _ u t).2 ⟨a, k, m, h⟩⟩

theorem prompt_iff (T D : Nat) (h : List Ev) :
    NodePrompt T D h ↔ ∀ h₁, h₁ <+: h → ∀ m ∈ (run T h₁).msgs, ∀ t, m.pc = .store t → (run T h₁).now ≤ t + D := by
  constructor
  · intro hp h₁ hh m hm t ht
    obtain ⟨k, hk⟩ := List.getElem?_of_mem hm
    obtain ⟨a, b, m', rfl, h1, h2, h3, rfl, h5⟩ := store_run T h₁ k m t hk ht
    exact hp a b k m' hh h1 h3 h5
  · intro hp a b k m hh hk hpc hb
    exact hp _ hh _ (List.mem_of_getElem? (store_of T a b k m hk hpc hb)) _ rfl

/-- The clean-ups under way took the time before. -/
def Past (s : St) : Prop := ∀ c ∈ s.cleans, ∀ n, ((∃ l, c = .visit n l) ∨ ∃ u l, c = .drop n u l) → n ≤ s.now

theorem past_step (T : Nat) (s : St) (e : Ev) (P : Past s) : Past (step T s e) := by
  have hn := now_step T s e
  intro c hc n hv
  have old : c ∈ s.cleans → n ≤ (step T s e).now := fun h => Nat.le_trans (P c h n hv) hn
  cases e with
  | tick d => exact old hc
  | msg u b => exact old hc
  | onMsg k =>
    refine old ?_
    simp only [step] at hc
    split at hc
    · rename_i m _
      simp only [actMsg] at hc; split at hc <;> exact hc
    · exact hc
  | clean o =>
    simp only [step, List.mem_append, List.mem_singleton] at hc
    rcases hc with hc | rfl
    · exact old hc
    · rcases hv with ⟨l, h⟩ | ⟨u, l, h⟩ <;> cases h
  | onClean k =>
    cases hk : s.cleans[k]? with
    | none => simp only [step, hk] at hc; exact old hc
    | some d =>
      have hd := P d (List.mem_of_getElem? hk)
      simp only [step, hk] at hc
      rcases List.mem_or_eq_of_mem_set hc with hc | rfl
      · exact old hc
      · refine Nat.le_trans ?_ hn
        cases d with
        | start o => simp only [actClean] at hv; rcases hv with ⟨l, h⟩ | ⟨u, l, h⟩ <;> cases h; exact Nat.le_refl _
        | visit m l =>
          have hm := hd m (.inl ⟨l, rfl⟩)
          cases l with
          | nil => simp only [actClean] at hv; rcases hv with ⟨l, h⟩ | ⟨u, l, h⟩ <;> cases h; exact hm
          | cons w l =>
            simp only [actClean] at hv
            split at hv
            · rcases hv with ⟨l, h⟩ | ⟨u, l, h⟩ <;> cases h; exact hm
            · simp only at hv
              split at hv <;> rcases hv with ⟨l, h⟩ | ⟨u, l, h⟩ <;> cases h <;> exact hm
        | drop m w l =>
          have hm := hd m (.inr ⟨w, l, rfl⟩)
          simp only [actClean] at hv; rcases hv with ⟨l, h⟩ | ⟨u, l, h⟩ <;> cases h; exact hm

theorem past_run (T : Nat) (h : List Ev) : Past (run T h) := by
  induction h using snocRec with
  | nil => intro c hc; simp [run] at hc
  | append_singleton h e ih => rw [run_snoc]; exact past_step T _ e ih

/-- What one step does to the entry of server `u`. -/
theorem seen_step (T : Nat) (s : St) (e : Ev) (u : Nat) :
    (step T s e).seen u = s.seen u ∨
    (∃ k m t, e = .onMsg k ∧ s.msgs[k]? = some m ∧ m.uid = u ∧ m.pc = .store t ∧ (step T s e).seen u = some t) ∨
    (∃ k m, e = .onMsg k ∧ s.msgs[k]? = some m ∧ m.uid = u ∧ m.pc = .drop ∧ (step T s e).seen u = none) ∨
    (∃ k n l, e = .onClean k ∧ s.cleans[k]? = some (.drop n u l) ∧ (step T s e).seen u = none) := by
  cases e with
  | tick d => exact .inl rfl
  | msg v b => exact .inl rfl
  | clean o => exact .inl rfl
  | onMsg k =>
    cases hk : s.msgs[k]? with
    | none => left; simp [step, hk]
    | some m =>
      obtain ⟨v, b, pc⟩ := m
      by_cases hv : v = u
      · subst hv
        cases pc with
        | stamp => left; simp [step, hk, actMsg]
        | store t => right; left; exact ⟨k, _, t, rfl, hk, rfl, rfl, by simp [step, hk, actMsg, upd_same]⟩
        | drop => right; right; left; exact ⟨k, _, rfl, hk, rfl, rfl, by simp [step, hk, actMsg, upd_same]⟩
        | done => left; simp [step, hk, actMsg]
      · have hv' : u ≠ v := fun h => hv h.symm
        left
        cases pc <;> simp [step, hk, actMsg, upd_ne _ _ hv']
  | onClean k =>
    cases hk : s.cleans[k]? with
    | none => left; simp [step, hk]
    | some c =>
      cases c with
      | start o => left; simp [step, hk, actClean]
      | visit n l =>
        left
        cases l with
        | nil => simp [step, hk, actClean]
        | cons w l => simp only [step, hk, actClean]; split <;> rfl
      | drop n w l =>
        by_cases hw : w = u
        · subst hw; right; right; right; exact ⟨k, n, l, rfl, hk, by simp [step, hk, actClean, upd_same]⟩
        · have hw' : u ≠ w := fun h => hw h.symm
          left; simp [step, hk, actClean, upd_ne _ _ hw']

/-- The messages after a step: none of another server or another kind but those that arrive. -/
theorem msgs_step (T : Nat) (s : St) (e : Ev) (m : Msg) (hm : m ∈ (step T s e).msgs) :
    (∃ m' ∈ s.msgs, m'.uid = m.uid ∧ m'.close = m.close) ∨ e = .msg m.uid m.close := by
  cases e with
  | tick d => exact .inl ⟨m, hm, rfl, rfl⟩
  | msg v b =>
    simp only [step, List.mem_append, List.mem_singleton] at hm
    rcases hm with hm | rfl
    · exact .inl ⟨m, hm, rfl, rfl⟩
    · exact .inr rfl
  | clean o => exact .inl ⟨m, hm, rfl, rfl⟩
  | onMsg k =>
    cases hk : s.msgs[k]? with
    | none => simp only [step, hk] at hm; exact .inl ⟨m, hm, rfl, rfl⟩
    | some d =>
      simp only [step, hk] at hm
      rcases List.mem_or_eq_of_mem_set hm with hm | rfl
      · exact .inl ⟨m, hm, rfl, rfl⟩
      · refine .inl ⟨d, List.mem_of_getElem? hk, ?_⟩
        obtain ⟨v, b, pc⟩ := d
        cases pc <;> simp [actMsg]
  | onClean k =>
    refine .inl ⟨m, ?_, rfl, rfl⟩
    cases hk : s.cleans[k]? with
    | none => simp only [step, hk] at hm; exact hm
    | some c =>
      simp only [step, hk] at hm
      cases c with
      | start o => exact hm
      | visit n l =>
        cases l with
        | nil => exact hm
        | cons w l => simp only [actClean] at hm; split at hm <;> exact hm
      | drop n w l => exact hm

/-- Whoever drops a server had tested it just before. -/
theorem cleans_step (T : Nat) (s : St) (e : Ev) (n u : Nat) (l : List Nat) (hc : CPC.drop n u l ∈ (step T s e).cleans) :
    .drop n u l ∈ s.cleans ∨ ∃ k t, e = .onClean k ∧ s.cleans[k]? = some (.visit n (u :: l)) ∧ s.seen u = some t ∧ n - t > T := by
  cases e with
  | tick d => exact .inl hc
  | msg v b => exact .inl hc
  | clean o =>
    simp only [step, List.mem_append, List.mem_singleton] at hc
    rcases hc with hc | hc
    · exact .inl hc
    · cases hc
  | onMsg k =>
    left
    simp only [step] at hc
    split at hc
    · rename_i m _
      simp only [actMsg] at hc; split at hc <;> exact hc
    · exact hc
  | onClean k =>
    cases hk : s.cleans[k]? with
    | none => simp only [step, hk] at hc; exact .inl hc
    | some d =>
      simp only [step, hk] at hc
      rcases List.mem_or_eq_of_mem_set hc with hc | hc
      · exact .inl hc
      · cases d with
        | start o => cases hc
        | visit m l' =>
          cases l' with
          | nil => cases hc
          | cons w l' =>
            simp only [actClean] at hc
            split at hc
            · cases hc
            · rename_i t ht
              simp only at hc
              split at hc
              · rename_i hgt
                cases hc
                exact .inr ⟨k, t, rfl, hk, ht, hgt⟩
              · cases hc
        | drop m w l' => cases hc

/-- The time in the table is that of a message recorded. -/
theorem seen_run (T : Nat) (h : List Ev) (u t : Nat) (hs : (run T h).seen u = some t) : ∃ h₁, h₁ <+: h ∧ NodeRecordedAt T h₁ u t := by
  induction h using snocRec with
  | nil => cases hs
  | append_singleton h e ih =>
    rw [run_snoc] at hs
    rcases seen_step T (run T h) e u with h' | ⟨k, m, t', rfl, hk, hu, hpc, h'⟩ | ⟨_, _, _, _, _, _, h'⟩ | ⟨_, _, _, _, _, h'⟩
    · rw [h'] at hs
      obtain ⟨h₁, a, b⟩ := ih hs
      exact ⟨h₁, a.trans (List.prefix_append h [e]), b⟩
    · rw [h'] at hs; cases hs
      exact ⟨_, List.prefix_refl _, (recordedAt_iff T _ u t).2 ⟨h, k, m, rfl, hk, hu, hpc⟩⟩
    · rw [h'] at hs; cases hs
    · rw [h'] at hs; cases hs

theorem prefix_snoc {α} {l q : List α} {e : α} (h : l <+: q ++ [e]) : l <+: q ∨ l = q ++ [e] := by
  obtain ⟨r, hr⟩ := h
  rcases List.eq_nil_or_concat r with rfl | ⟨r', x, rfl⟩
  · right; simpa using hr
  · left
    rw [List.concat_eq_append, ← List.append_assoc] at hr
    exact ⟨r', (List.append_inj' hr rfl).1⟩

theorem drop_close (T : Nat) (h : List Ev) : ∀ m ∈ (run T h).msgs, m.pc = .drop → m.close = true := by
  induction h using snocRec with
  | nil => intro m hm; simp [run] at hm
  | append_singleton h e ih =>
    rw [run_snoc]
    intro m hm hp
    cases e with
    | tick d => exact ih m hm hp
    | msg v b =>
      simp only [step, List.mem_append, List.mem_singleton] at hm
      rcases hm with hm | rfl
      · exact ih m hm hp
      · cases hp
    | clean o => exact ih m hm hp
    | onMsg k =>
      cases hk : (run T h).msgs[k]? with
      | none => simp only [step, hk] at hm; exact ih m hm hp
      | some d =>
        simp only [step, hk] at hm
        rcases List.mem_or_eq_of_mem_set hm with hm | rfl
        · exact ih m hm hp
        · have := ih d (List.mem_of_getElem? hk)
          obtain ⟨v, b, pc⟩ := d
          cases pc <;> cases b <;> simp_all [actMsg]
    | onClean k =>
      refine ih m ?_ hp
      cases hk : (run T h).cleans[k]? with
      | none => simp only [step, hk] at hm; exact hm
      | some c =>
        simp only [step, hk] at hm
        cases c with
        | start o => exact hm
        | visit n l =>
          cases l with
          | nil => exact hm
          | cons w l => simp only [actClean] at hm; split at hm <;> exact hm
        | drop n w l => exact hm

/-- A message that has just been recorded. -/
theorem rec_seen (T D : Nat) (h : List Ev) (u : Nat) (hp : NodePrompt T D h) (hr : NodeRecorded T h u) :
    ∃ t, (run T h).seen u = some t ∧ (run T h).now ≤ t + D := by
  obtain ⟨a, k, m, t, rfl, hk, hu, hpc⟩ := (recorded_iff T _ u).1 hr
  refine ⟨t, ?_, ?_⟩
  · rw [run_snoc]
    obtain ⟨v, b, pc⟩ := m
    simp only at hu hpc; subst hu hpc
    simp [step, hk, actMsg, upd_same]
  · have := (prompt_iff T D _).1 hp a ⟨[.onMsg k], rfl⟩ m (List.mem_of_getElem? hk) t hpc
    rw [run_snoc]
    obtain ⟨v, b, pc⟩ := m
    simp only at hu hpc; subst hu hpc
    simpa [step, hk, actMsg] using this

theorem heard_inv (T G D u : Nat) (p q : List Ev) (prompt : NodePrompt T D (p ++ q)) (heard : NodeHeard T G u p q) (slack : G + D ≤ T)
    (free : NodeUnthreatened (run T p) u) (stays : .msg u true ∉ q) (q₁ : List Ev) (hq : q₁ <+: q) :
    NodeUnthreatened (run T (p ++ q₁)) u ∧ ∃ t, (run T (p ++ q₁)).seen u = some t ∧
      ∀ q₀, q₀ <+: q₁ → NodeRecorded T (p ++ q₀) u → (run T (p ++ q₀)).now ≤ t + D := by
  have pr : ∀ r, r <+: q → NodePrompt T D (p ++ r) := fun r hr a b k m h => prompt a b k m (h.trans ((List.prefix_append_right_inj p).2 hr))
  induction q₁ using snocRec with
  | nil =>
    rw [List.append_nil]
    refine ⟨free, ?_⟩
    obtain ⟨q₀, h0, hr, _⟩ := heard [] hq
    have : q₀ = [] := List.prefix_nil.1 h0
    subst this
    rw [List.append_nil] at hr
    have pp := pr [] hq
    rw [List.append_nil] at pp
    obtain ⟨t, ht, hn⟩ := rec_seen T D p u pp hr
    refine ⟨t, ht, fun q₀ h0 _ => ?_⟩
    have : q₀ = [] := List.prefix_nil.1 h0
    subst this
    rw [List.append_nil]; exact hn
  | append_singleton q₁ e ih =>
    have hq' : q₁ <+: q := (List.prefix_append q₁ [e]).trans hq
    obtain ⟨⟨f1, f2⟩, t, ht, hall⟩ := ih hq'
    have hrun : run T (p ++ (q₁ ++ [e])) = step T (run T (p ++ q₁)) e := by rw [← List.append_assoc, run_snoc]
    have he : e ∈ q := hq.subset (by simp)
    refine ⟨⟨?_, ?_⟩, ?_⟩
    · rintro c hc n l rfl
      rw [hrun] at hc
      rcases cleans_step T _ e n u l hc with h | ⟨k, t', _, hk, ht', hgt⟩
      · exact f1 _ h n l rfl
      · rw [ht] at ht'; cases ht'
        have hn := past_run T (p ++ q₁) _ (List.mem_of_getElem? hk) n (.inl ⟨_, rfl⟩)
        obtain ⟨q₀, h0, hr, hg⟩ := heard q₁ hq'
        have := hall q₀ h0 hr
        omega
    · intro m hm hu
      rw [hrun] at hm
      rcases msgs_step T _ e m hm with ⟨m', hm', e1, e2⟩ | h
      · rw [← e2]; exact f2 m' hm' (e1.trans hu)
      · cases hcl : m.close with
        | false => rfl
        | true => rw [hcl, hu] at h; subst h; exact absurd he stays
    · have fin : ∀ t', (run T (p ++ (q₁ ++ [e]))).seen u = some t' →
          (∀ q₀, q₀ <+: q₁ → NodeRecorded T (p ++ q₀) u → (run T (p ++ q₀)).now ≤ t' + D) →
          ∃ t, (run T (p ++ (q₁ ++ [e]))).seen u = some t ∧
            ∀ q₀, q₀ <+: q₁ ++ [e] → NodeRecorded T (p ++ q₀) u → (run T (p ++ q₀)).now ≤ t + D := by
        intro t' ht' hold
        refine ⟨t', ht', fun q₀ h0 hr => ?_⟩
        rcases prefix_snoc h0 with h | rfl
        · exact hold q₀ h hr
        · obtain ⟨t'', h1, h2⟩ := rec_seen T D _ u (pr _ hq) hr
          rw [ht'] at h1; cases h1; exact h2
      rcases seen_step T (run T (p ++ q₁)) e u with h | ⟨k, m, t', _, hk, hu, hpc, h⟩ | ⟨k, m, _, hk, hu, hpc, h⟩ | ⟨k, n, l, _, hk, h⟩
      · exact fin t (by rw [hrun, h]; exact ht) hall
      · refine fin t' (by rw [hrun, h]) fun q₀ h0 hr => ?_
        obtain ⟨r, rfl⟩ := h0
        have h1 : (run T (p ++ q₀)).now ≤ (run T (p ++ (q₀ ++ r))).now := by rw [← List.append_assoc]; exact now_run T _ r
        exact Nat.le_trans h1 ((prompt_iff T D _).1 prompt _ ((List.prefix_append_right_inj p).2 hq') m (List.mem_of_getElem? hk) t' hpc)
      · have := drop_close T _ m (List.mem_of_getElem? hk) hpc
        rw [f2 m (List.mem_of_getElem? hk) hu] at this; cases this
      · exact absurd rfl (f1 _ (List.mem_of_getElem? hk) n l)

/-- The other messages and the other clean-ups are not moved. -/
theorem cleans_other (T : Nat) (s : St) (e : Ev) (k : Nat) (c : CPC) (hk : s.cleans[k]? = some c) (he : e ≠ .onClean k) :
    (step T s e).cleans[k]? = some c := by
  obtain ⟨hl, _⟩ := List.getElem?_eq_some_iff.1 hk
  cases e with
  | tick d => exact hk
  | msg v b => exact hk
  | clean o => simp only [step]; rw [List.getElem?_append_left hl]; exact hk
  | onMsg j =>
    simp only [step]; split
    · rename_i m _; simp only [actMsg]; split <;> exact hk
    · exact hk
  | onClean j =>
    have hj : j ≠ k := fun h => he (by rw [h])
    simp only [step]; split
    · simp only [List.getElem?_set_ne hj]; exact hk
    · exact hk

theorem cleans_self (T : Nat) (s : St) (k : Nat) (c : CPC) (hk : s.cleans[k]? = some c) :
    (step T s (.onClean k)).cleans[k]? = some (actClean T s c).2 := by
  obtain ⟨hl, _⟩ := List.getElem?_eq_some_iff.1 hk
  simp only [step, hk]
  rw [List.getElem?_set_self hl]

/-- The clean-up has still to come to server `u`. -/
def ahead (b u : Nat) : CPC → Prop
  | .start o => u ∈ o
  | .visit n l => b ≤ n ∧ u ∈ l
  | .drop n v l => b ≤ n ∧ (v = u ∨ u ∈ l)

theorem forgotten_inv (T u : Nat) (p : List Ev) (order : List Nat) (q : List Ev) (listed : u ∈ order)
    (old : ∀ t, (run T p).seen u = some t → t + T < (run T p).now) (silent : NodeSilent T u (p ++ [.clean order]) q) :
    ∃ c, (run T (p ++ .clean order :: q)).cleans[(run T p).cleans.length]? = some c ∧
      ((run T (p ++ .clean order :: q)).seen u = none ∨
        ∃ t, (run T (p ++ .clean order :: q)).seen u = some t ∧ t + T < (run T p).now ∧ ahead (run T p).now u c) := by
  induction q using snocRec with
  | nil =>
    rw [run_snoc]
    refine ⟨.start order, by simp [step], ?_⟩
    cases hs : (run T p).seen u with
    | none => exact .inl hs
    | some t => exact .inr ⟨t, hs, old t hs, listed⟩
  | append_singleton q e ih =>
    obtain ⟨c, hc, h⟩ := ih fun q₁ h1 h2 => silent q₁ (h1.trans (List.prefix_append q [e])) h2
    have hrun : run T (p ++ .clean order :: (q ++ [e])) = step T (run T (p ++ .clean order :: q)) e := by simp [run]
    have hnow : (run T p).now ≤ (run T (p ++ .clean order :: q)).now := now_run T p _
    have noRec : ∀ k m t, e = .onMsg k → (run T (p ++ .clean order :: q)).msgs[k]? = some m → m.uid = u → m.pc = .store t → False := by
      rintro k m t rfl hk hu hpc
      refine silent (q ++ [.onMsg k]) (List.prefix_refl _) (by simp) ((recorded_iff T _ u).2 ⟨p ++ .clean order :: q, k, m, t, by simp, hk, hu, hpc⟩)
    rw [hrun]
    generalize run T (p ++ .clean order :: q) = s at *
    have hseen : (step T s e).seen u = s.seen u ∨ (step T s e).seen u = none := by
      rcases seen_step T s e u with h | ⟨k, m, t', he, hk, hu, hpc, _⟩ | ⟨_, _, _, _, _, _, h⟩ | ⟨_, _, _, _, _, h⟩
      · exact .inl h
      · exact absurd hpc (fun hpc => noRec k m t' he hk hu hpc)
      · exact .inr h
      · exact .inr h
    by_cases he : e = .onClean (run T p).cleans.length
    · subst he
      refine ⟨_, cleans_self T s _ c hc, ?_⟩
      rcases hseen with h' | h'
      · rcases h with h | ⟨t, ht, hlt, ha⟩
        · exact .inl (h'.trans h)
        · by_cases hnone : (step T s (.onClean (run T p).cleans.length)).seen u = none
          · exact .inl hnone
          · refine .inr ⟨t, h'.trans ht, hlt, ?_⟩
            cases c with
            | start o => exact ⟨hnow, ha⟩
            | visit n l =>
              cases l with
              | nil => exact ha
              | cons w l =>
                simp only [actClean]
                rcases List.mem_cons.1 ha.2 with rfl | hl
                · rw [ht]; simp only
                  rw [if_pos (by have := ha.1; omega)]
                  exact ⟨ha.1, .inl rfl⟩
                · split
                  · exact ⟨ha.1, hl⟩
                  · simp only; split
                    · exact ⟨ha.1, .inr hl⟩
                    · exact ⟨ha.1, hl⟩
            | drop n w l =>
              rcases ha.2 with rfl | hl
              · exact absurd (by simp [step, hc, actClean, upd_same]) hnone
              · exact ⟨ha.1, hl⟩
      · exact .inl h'
    · refine ⟨c, cleans_other T s e _ c hc he, ?_⟩
      rcases hseen with h' | h'
      · rcases h with h | ⟨t, ht, h⟩
        · exact .inl (h'.trans h)
        · exact .inr ⟨t, h'.trans ht, h⟩
      · exact .inl h'

theorem closed_inv (T u : Nat) (p q : List Ev)
    (last : ∀ q₁ j m t, q₁ ++ [.onMsg j] <+: q → (run T (p ++ .msg u true :: q₁)).msgs[j]? = some m → m.uid = u → m.pc = .store t →
      j = (run T p).msgs.length) :
    ∃ m, (run T (p ++ .msg u true :: q)).msgs[(run T p).msgs.length]? = some m ∧ m.uid = u ∧ m.close = true ∧
      (m.pc = .done → (run T (p ++ .msg u true :: q)).seen u = none) := by
  induction q using snocRec with
  | nil => rw [run_snoc]; exact ⟨{ uid := u, close := true }, by simp [step], rfl, rfl, by simp⟩
  | append_singleton q e ih =>
    obtain ⟨m, hm, hu, hc, hd⟩ := ih fun q₁ j m t h => last q₁ j m t (h.trans (List.prefix_append q [e]))
    have hrun : run T (p ++ .msg u true :: (q ++ [e])) = step T (run T (p ++ .msg u true :: q)) e := by simp [run]
    have only : ∀ j m t, e = .onMsg j → (run T (p ++ .msg u true :: q)).msgs[j]? = some m → m.uid = u → m.pc = .store t →
        j = (run T p).msgs.length := by
      rintro j m t rfl; exact last q j m t (List.prefix_refl _)
    rw [hrun]
    generalize run T (p ++ .msg u true :: q) = s at *
    by_cases he : e = .onMsg (run T p).msgs.length
    · subst he
      refine ⟨_, msgs_self T s _ m hm, ?_⟩
      obtain ⟨v, b, pc⟩ := m
      simp only at hu hc hd; subst hu hc
      cases pc with
      | stamp => simp [actMsg]
      | store t => simp [actMsg]
      | drop => simp [actMsg, step, hm, upd_same]
      | done => simpa [actMsg, step, hm] using hd rfl
    · refine ⟨m, msgs_other T s e _ m hm he, hu, hc, fun hpc => ?_⟩
      rcases seen_step T s e u with h | ⟨k, m', t', he', hk, hu', hpc', _⟩ | ⟨_, _, _, _, _, _, h⟩ | ⟨_, _, _, _, _, h⟩
      · rw [h]; exact hd hpc
      · have := only k m' t' he' hk hu' hpc'
        subst this; exact absurd he' he
      · exact h
      · exact h

end Verif.NodeRace
