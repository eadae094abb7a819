import Verif.Spec.Returns
import Verif.Proof.RoomCalls
import Verif.Proof.SessRace
import Verif.Proof.NodeRace

namespace Verif.Returns
open Verif Verif.Spec Verif.World

theorem firstOf_succ {E : Type} (σ : Nat → E) (n : Nat) : firstOf σ (n + 1) = firstOf σ n ++ [σ n] := by
  simp [firstOf, List.range_succ]

/-- What gets less with every step of its own, and is not changed by others, comes to an end. -/
theorem ends {S E M : Type} (step : S → E → S) (done : S → Prop) (e : E) (μ : S → M) (r : M → M → Prop) (wf : WellFounded r)
    (dec : ∀ s, ¬ done s → done (step s e) ∨ r (μ (step s e)) (μ s))
    (keep : ∀ s e', e' ≠ e → ¬ done s → done (step s e') ∨ μ (step s e') = μ s)
    (σ : Nat → E) (fair : AgainAndAgain e σ) (s : S) : ∃ n, done ((firstOf σ n).foldl step s) := by
  refine Classical.byContradiction fun hno => ?_
  have never : ∀ n, ¬ done ((firstOf σ n).foldl step s) := fun n h => hno ⟨n, h⟩
  have next : ∀ n, (firstOf σ (n + 1)).foldl step s = step ((firstOf σ n).foldl step s) (σ n) := by
    intro n; rw [firstOf_succ]; simp
  have key : ∀ m, ∀ n, μ ((firstOf σ n).foldl step s) = m → False := by
    intro m
    induction m using wf.induction with
    | _ m ih =>
      have inner : ∀ d n, σ (n + d) = e → μ ((firstOf σ n).foldl step s) = m → False := by
        intro d
        induction d with
        | zero =>
          intro n hd hm
          rcases dec _ (never n) with h | h
          · exact never (n + 1) (by rw [next, show σ n = e from hd]; exact h)
          · exact ih _ (by rw [← hm]; exact h) (n + 1) (by rw [next, show σ n = e from hd])
        | succ d ihd =>
          intro n hd hm
          by_cases he : σ n = e
          · rcases dec _ (never n) with h | h
            · exact never (n + 1) (by rw [next, he]; exact h)
            · exact ih _ (by rw [← hm]; exact h) (n + 1) (by rw [next, he])
          · rcases keep _ (σ n) he (never n) with h | h
            · exact never (n + 1) (by rw [next]; exact h)
            · exact ihd (n + 1) (by rw [← hd]; congr 1; omega) (by rw [next, h]; exact hm)
      intro n hm
      obtain ⟨k, hk, he⟩ := fair n
      exact inner (k - n) n (by rw [show n + (k - n) = k by omega]; exact he) hm
  exact key _ 0 rfl

/-- The lexicographic order. -/
abbrev Lex2 : Nat × Nat → Nat × Nat → Prop := Prod.Lex (· < ·) (· < ·)

theorem lex2_wf : WellFounded Lex2 := (Prod.lex Nat.lt_wfRel Nat.lt_wfRel).wf

/-- What a call of the adapter has still to do. -/
def roomLeft : RoomRace.PC → Nat × Nat
  | .j0 _ => (1, 0)
  | .j1 _ rs => (0, 4 * rs.length + 1)
  | .j2 _ _ rs => (0, 4 * rs.length + 4)
  | .j3 _ _ _ rs => (0, 4 * rs.length + 3)
  | .j4 _ _ _ rs => (0, 4 * rs.length + 2)
  | .d0 _ => (0, 6)
  | .d1 _ _ => (0, 5)
  | .d2 _ => (0, 4)
  | .d3 _ _ => (0, 3)
  | .d4 _ _ => (0, 2)
  | .d5 _ => (0, 1)
  | .a0 => (2, 0)
  | .a1 _ => (1, 0)
  | .a2 l => (0, 5 * l.length + 1)
  | .e2 _ l => (0, 5 * l.length + 5)
  | .e3 _ _ l => (0, 5 * l.length + 4)
  | .e4 _ _ l => (0, 5 * l.length + 3)
  | .e5 _ l => (0, 5 * l.length + 2)
  | .done => (0, 0)

theorem lex_fst {a b c d : Nat} (h : a < c) : Lex2 (a, b) (c, d) := Prod.Lex.left _ _ h
theorem lex_snd {a b d : Nat} (h : b < d) : Lex2 (a, b) (a, d) := Prod.Lex.right _ h

theorem room_dec (s : RoomRace.St) (id : Nat) (pc : RoomRace.PC) (h : pc ≠ .done) : Lex2 (roomLeft (RoomRace.act s id pc).2) (roomLeft pc) := by
  cases pc with
  | j0 rs => simp only [RoomRace.act]; split <;> exact lex_fst (by decide)
  | j1 x rs => cases rs <;> exact lex_snd (by simp; try omega)
  | j2 x r rs => simp only [RoomRace.act]; split <;> exact lex_snd (by simp)
  | j3 x r t rs => simp only [RoomRace.act]; split <;> exact lex_snd (by simp)
  | j4 x r t rs => exact lex_snd (by simp)
  | d0 r => simp only [RoomRace.act]; split <;> exact lex_snd (by decide)
  | d1 x r => exact lex_snd (by decide)
  | d2 r => simp only [RoomRace.act]; split <;> exact lex_snd (by decide)
  | d3 r t => exact lex_snd (by decide)
  | d4 r t => simp only [RoomRace.act]; split <;> exact lex_snd (by decide)
  | d5 r => exact lex_snd (by decide)
  | a0 => simp only [RoomRace.act]; split <;> exact lex_fst (by decide)
  | a1 x => exact lex_fst (by decide)
  | a2 l => cases l <;> exact lex_snd (by simp; try omega)
  | e2 r l => simp only [RoomRace.act]; split <;> exact lex_snd (by simp)
  | e3 r t l => exact lex_snd (by simp)
  | e4 r t l => simp only [RoomRace.act]; split <;> exact lex_snd (by simp)
  | e5 r l => exact lex_snd (by simp)
  | done => exact absurd rfl h

theorem act_th (s : RoomRace.St) (id : Nat) (pc : RoomRace.PC) : (RoomRace.act s id pc).1.th = s.th := by
  cases pc <;> simp only [RoomRace.act] <;> try rfl
  all_goals first | (split <;> rfl) | skip
  · rename_i x rs; cases rs <;> rfl
  · simp only [RoomRace.loadAndDelete]; split <;> rfl
  · rename_i l; cases l <;> rfl
  · simp only [RoomRace.loadAndDelete]; split <;> rfl

theorem adv_self (s : RoomRace.St) (k : Nat) :
    ((RoomRace.step s (.adv k)).th k).2 = (RoomRace.act s (s.th k).1 (s.th k).2).2 := by
  simp [RoomRace.step, RoomRace.advance, upd_same]

theorem th_other (s : RoomRace.St) (e : RoomRace.Ev) (k : Nat) (h : BulkRace.who e ≠ k) : (RoomRace.step s e).th k = s.th k := by
  cases e with
  | call j id c =>
    simp only [RoomRace.step]; split
    · simp only; rw [upd_ne]; exact fun h' => h h'.symm
    · rfl
  | adv j =>
    simp only [RoomRace.step, RoomRace.advance]; rw [upd_ne]; exact fun h' => h h'.symm

theorem room_ends (σ : Nat → RoomRace.Ev) (k : Nat) (fair : AgainAndAgain (.adv k) σ) (s : RoomRace.St) :
    ∃ n, (((firstOf σ n).foldl RoomRace.step s).th k).2 = .done := by
  refine ends RoomRace.step (fun s => (s.th k).2 = .done) (.adv k) (fun s => roomLeft (s.th k).2) Lex2 lex2_wf ?_ ?_ σ fair s
  · intro s h; right; rw [adv_self]; exact room_dec s _ _ h
  · intro s e he h
    right
    by_cases hw : BulkRace.who e = k
    · cases e with
      | call j id c =>
        simp only [BulkRace.who] at hw; subst hw
        simp only [RoomRace.step]; rw [if_neg h]
      | adv j => simp only [BulkRace.who] at hw; subst hw; exact absurd rfl he
    · rw [th_other s e k hw]

/-- What a broadcast has still to do. -/
def castLeft : CastRace.PC → Nat × Nat
  | .idle => (0, 0)
  | .x ex rooms _ => (3 * rooms.length + 2, 2 * ex.length + 1)
  | .xk _ _ ex rooms _ => (3 * rooms.length + 2, 2 * ex.length + 2)
  | .r rooms _ _ => (3 * rooms.length + 1, 0)
  | .rk _ _ rooms _ _ => (3 * rooms.length + 3, 0)
  | .ri keys rooms _ _ => (3 * rooms.length + 2, keys.length)
  | .all keys _ => (1, keys.length)

theorem cast_dec (s : CastRace.St) (pc : CastRace.PC) (h : pc ≠ .idle) : Lex2 (castLeft (CastRace.act s pc).2) (castLeft pc) := by
  cases pc with
  | idle => exact absurd rfl h
  | x ex rooms acc =>
    cases ex with
    | nil => cases rooms <;> exact lex_fst (by simp)
    | cons q ex => simp only [CastRace.act]; split <;> exact lex_snd (by simp; try omega)
  | xk q t ex rooms acc => exact lex_snd (by simp)
  | r rooms acc done =>
    cases rooms with
    | nil => exact lex_fst (by simp)
    | cons q rooms => simp only [CastRace.act]; split <;> exact lex_fst (by simp; try omega)
  | rk q t rooms acc done => exact lex_fst (by simp)
  | ri keys rooms acc done =>
    cases keys with
    | nil => exact lex_fst (by simp)
    | cons id keys =>
      simp only [CastRace.act]; split
      · exact lex_snd (by simp)
      · split <;> exact lex_snd (by simp)
  | all keys acc =>
    cases keys with
    | nil => exact lex_fst (by simp)
    | cons id keys => simp only [CastRace.act]; split <;> exact lex_snd (by simp)

theorem cast_ends (σ : Nat → CastRace.Ev) (fair : AgainAndAgain .adv σ) (s : CastRace.St) :
    ∃ n, ((firstOf σ n).foldl CastRace.step s).pc = .idle := by
  refine ends CastRace.step (fun s => s.pc = .idle) .adv (fun s => castLeft s.pc) Lex2 lex2_wf ?_ ?_ σ fair s
  · intro s h; right; exact cast_dec s _ h
  · intro s e he h
    right
    cases e with
    | adv => exact absurd rfl he
    | cast r x o => simp only [CastRace.step]; rw [if_neg h]
    | _ => rfl

abbrev Lex5 : (Nat × Nat) × Nat × Nat × Nat → (Nat × Nat) × Nat × Nat × Nat → Prop := Prod.Lex Lex2 (Prod.Lex (· < ·) Lex2)

theorem lex5_wf : WellFounded Lex5 :=
  (Prod.lex ⟨Lex2, lex2_wf⟩ (Prod.lex Nat.lt_wfRel ⟨Lex2, lex2_wf⟩)).wf

/-- What a bulk call has still to do. -/
def bulkLeft (s : BulkRace.St) : (Nat × Nat) × Nat × Nat × Nat := (castLeft s.cast.pc, s.todo.length, roomLeft (s.cast.tab.th 0).2)

theorem idle_iff (s : BulkRace.St) : s.idle = true ↔ s.cast.pc = .idle ∧ s.todo = [] ∧ (s.cast.tab.th 0).2 = .done := by
  simp [BulkRace.St.idle, and_assoc]

theorem bulk_ends (σ : Nat → BulkRace.Ev) (fair : AgainAndAgain .adv σ) (s : BulkRace.St) :
    ∃ n, ((firstOf σ n).foldl BulkRace.step s).idle = true := by
  refine ends BulkRace.step (fun s => s.idle = true) .adv bulkLeft Lex5 lex5_wf ?_ ?_ σ fair s
  · intro s h
    right
    simp only [BulkRace.step, BulkRace.does]
    by_cases hth : (s.cast.tab.th 0).2 = .done
    · cases ht : s.todo with
      | nil =>
        have hpc : s.cast.pc ≠ .idle := fun hpc => h ((idle_iff s).2 ⟨hpc, ht, hth⟩)
        have hd := cast_dec s.cast s.cast.pc hpc
        simp only [hth, ne_eq, not_true_eq_false, if_false, List.foldl]
        split
        · exact Prod.Lex.left _ _ hd
        · exact Prod.Lex.left _ _ hd
      | cons c cs =>
        simp only [hth, ne_eq, not_true_eq_false, if_false, List.foldl]
        simp only [bulkLeft, CastRace.step, ht]
        exact Prod.Lex.right _ (Prod.Lex.left _ _ (by simp))
    · simp only [ne_eq, hth, not_false_eq_true, if_true, List.foldl]
      simp only [bulkLeft, CastRace.step]
      refine Prod.Lex.right _ (Prod.Lex.right _ ?_)
      rw [adv_self]; exact room_dec _ _ _ hth
  · intro s e he h
    right
    cases e with
    | adv => exact absurd rfl he
    | bulk a r x o => simp only [BulkRace.step]; rw [if_neg h]
    | shut id => rfl
    | connect id => rfl
    | disconnect id => rfl
    | room e =>
      simp only [BulkRace.step, BulkRace.does]
      by_cases hw : BulkRace.who e = 0
      · simp [hw]
      · simp only [hw, if_false, List.foldl, bulkLeft, CastRace.step]
        rw [th_other _ e 0 hw]

/-- What gets less by one at least with every step of its own, and is not made more by others. -/
theorem counted {S E : Type} [DecidableEq E] (step : S → E → S) (P : S → Prop) (μ : S → Nat) (e : E) (stays : ∀ s e', P s → P (step s e'))
    (dec : ∀ s, P s → μ (step s e) ≤ μ s - 1) (keep : ∀ s e', P s → e' ≠ e → μ (step s e') ≤ μ s) (q : List E) (s : S) (hs : P s) :
    μ (q.foldl step s) ≤ μ s - q.count e := by
  induction q generalizing s with
  | nil => simp
  | cons a q ih =>
    have h := ih (step s a) (stays s a hs)
    simp only [List.foldl_cons, List.count_cons]
    by_cases ha : a = e
    · subst ha
      have := dec s hs
      simp; omega
    · have := keep s a hs ha
      simp [ha]; omega

def sessLeft : SessRace.Task → Nat
  | .save _ _ => 2
  | .store _ _ _ => 1
  | .saved => 0
  | .look _ => 3
  | .test _ _ _ => 2
  | .drop _ => 1
  | .got _ _ => 0
  | .clean o => 2 * o.length + 1
  | .visit _ l => 2 * l.length
  | .sweep _ _ l => 2 * l.length + 1

theorem sess_dec (M : Nat) (s : SessRace.St) (a : SessRace.Task) : sessLeft (SessRace.act M s a).2 ≤ sessLeft a - 1 := by
  cases a with
  | look v => simp only [SessRace.act]; split <;> simp [sessLeft]
  | test v n t => simp only [SessRace.act]; split <;> simp [sessLeft]
  | visit st l =>
    cases l with
    | nil => simp [SessRace.act, sessLeft]
    | cons w l => simp only [SessRace.act]; split <;> try (split)
                  all_goals simp [sessLeft]; try omega
  | _ => simp [SessRace.act, sessLeft]

theorem sess_ends (M : Nat) (s : SessRace.St) (k : Nat) (a : SessRace.Task) (hk : s.tasks[k]? = some a) (q : List SessRace.Ev)
    (steps : sessLeft a ≤ q.count (.adv k)) : ∃ b, (q.foldl (SessRace.step M) s).tasks[k]? = some b ∧ sessLeft b = 0 := by
  have stays : ∀ s e', (∃ a, s.tasks[k]? = some a) → ∃ a, (SessRace.step M s e').tasks[k]? = some a := by
    rintro s e' ⟨a, ha⟩
    by_cases he : e' = .adv k
    · subst he; exact ⟨_, SessRace.tasks_self M s k a ha⟩
    · exact ⟨a, SessRace.tasks_other M s e' k a ha he⟩
  have h := counted (SessRace.step M) (fun s => ∃ a, s.tasks[k]? = some a)
    (fun s => match s.tasks[k]? with | some a => sessLeft a | none => 0) (.adv k) stays
    (by rintro s ⟨a, ha⟩
        rw [SessRace.tasks_self M s k a ha, ha]
        exact sess_dec M s a)
    (by rintro s e' ⟨a, ha⟩ he
        rw [SessRace.tasks_other M s e' k a ha he, ha]
        exact Nat.le_refl _) q s ⟨a, hk⟩
  have hall : ∃ a, (q.foldl (SessRace.step M) s).tasks[k]? = some a := by
    clear h steps
    induction q generalizing s a with
    | nil => exact ⟨a, hk⟩
    | cons x q ih =>
      obtain ⟨b, hb⟩ := stays s x ⟨a, hk⟩
      exact ih _ b hb
  obtain ⟨b, hb⟩ := hall
  simp only [hb, hk] at h
  exact ⟨b, hb, by omega⟩

def msgLeft : NodeRace.MPC → Nat
  | .stamp => 3
  | .store _ => 2
  | .drop => 1
  | .done => 0

def cleanLeft : NodeRace.CPC → Nat
  | .start o => 2 * o.length + 1
  | .visit _ l => 2 * l.length
  | .drop _ _ l => 2 * l.length + 1

theorem msg_dec (s : NodeRace.St) (m : NodeRace.Msg) : msgLeft (NodeRace.actMsg s m).2.pc ≤ msgLeft m.pc - 1 := by
  obtain ⟨u, c, pc⟩ := m
  cases pc <;> cases c <;> simp [NodeRace.actMsg, msgLeft]

theorem clean_dec (T : Nat) (s : NodeRace.St) (c : NodeRace.CPC) : cleanLeft (NodeRace.actClean T s c).2 ≤ cleanLeft c - 1 := by
  cases c with
  | start o => simp [NodeRace.actClean, cleanLeft]
  | visit n l =>
    cases l with
    | nil => simp [NodeRace.actClean, cleanLeft]
    | cons u l => simp only [NodeRace.actClean]; split <;> try (simp only; split)
                  all_goals simp [cleanLeft]; try omega
  | drop n u l => simp [NodeRace.actClean, cleanLeft]

theorem msg_ends (T : Nat) (s : NodeRace.St) (k : Nat) (m : NodeRace.Msg) (hk : s.msgs[k]? = some m) (q : List NodeRace.Ev)
    (steps : msgLeft m.pc ≤ q.count (.onMsg k)) : ∃ m', (q.foldl (NodeRace.step T) s).msgs[k]? = some m' ∧ m'.pc = .done := by
  have stays : ∀ s e', (∃ a, s.msgs[k]? = some a) → ∃ a, (NodeRace.step T s e').msgs[k]? = some a := by
    rintro s e' ⟨a, ha⟩
    by_cases he : e' = .onMsg k
    · subst he; exact ⟨_, NodeRace.msgs_self T s k a ha⟩
    · exact ⟨a, NodeRace.msgs_other T s e' k a ha he⟩
  have h := counted (NodeRace.step T) (fun s => ∃ a, s.msgs[k]? = some a)
    (fun s => match s.msgs[k]? with | some a => msgLeft a.pc | none => 0) (.onMsg k) stays
    (by rintro s ⟨a, ha⟩
        rw [NodeRace.msgs_self T s k a ha, ha]
        exact msg_dec s a)
    (by rintro s e' ⟨a, ha⟩ he
        rw [NodeRace.msgs_other T s e' k a ha he, ha]
        exact Nat.le_refl _) q s ⟨m, hk⟩
  have hall : ∃ a, (q.foldl (NodeRace.step T) s).msgs[k]? = some a := by
    clear h steps
    induction q generalizing s m with
    | nil => exact ⟨m, hk⟩
    | cons x q ih =>
      obtain ⟨b, hb⟩ := stays s x ⟨m, hk⟩
      exact ih _ b hb
  obtain ⟨b, hb⟩ := hall
  simp only [hb, hk] at h
  refine ⟨b, hb, ?_⟩
  have h0 : msgLeft b.pc = 0 := by omega
  cases hpc : b.pc <;> simp [hpc, msgLeft] at h0 ⊢

theorem clean_ends (T : Nat) (s : NodeRace.St) (k : Nat) (c : NodeRace.CPC) (hk : s.cleans[k]? = some c) (q : List NodeRace.Ev)
    (steps : cleanLeft c ≤ q.count (.onClean k)) : ∃ n, (q.foldl (NodeRace.step T) s).cleans[k]? = some (.visit n []) := by
  have stays : ∀ s e', (∃ a, s.cleans[k]? = some a) → ∃ a, (NodeRace.step T s e').cleans[k]? = some a := by
    rintro s e' ⟨a, ha⟩
    by_cases he : e' = .onClean k
    · subst he; exact ⟨_, NodeRace.cleans_self T s k a ha⟩
    · exact ⟨a, NodeRace.cleans_other T s e' k a ha he⟩
  have h := counted (NodeRace.step T) (fun s => ∃ a, s.cleans[k]? = some a)
    (fun s => match s.cleans[k]? with | some a => cleanLeft a | none => 0) (.onClean k) stays
    (by rintro s ⟨a, ha⟩
        rw [NodeRace.cleans_self T s k a ha, ha]
        exact clean_dec T s a)
    (by rintro s e' ⟨a, ha⟩ he
        rw [NodeRace.cleans_other T s e' k a ha he, ha]
        exact Nat.le_refl _) q s ⟨c, hk⟩
  have hall : ∃ a, (q.foldl (NodeRace.step T) s).cleans[k]? = some a := by
    clear h steps
    induction q generalizing s c with
    | nil => exact ⟨c, hk⟩
    | cons x q ih =>
      obtain ⟨b, hb⟩ := stays s x ⟨c, hk⟩
      exact ih _ b hb
  obtain ⟨b, hb⟩ := hall
  simp only [hb, hk] at h
  have h0 : cleanLeft b = 0 := by omega
  cases b with
  | start o => simp [cleanLeft] at h0
  | visit n l => cases l with
    | nil => exact ⟨n, hb⟩
    | cons u l => simp [cleanLeft] at h0
  | drop n u l => simp [cleanLeft] at h0

end Verif.Returns
