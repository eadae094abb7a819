import Verif.Spec.AskRace
import Verif.Lib.ListExtra

/-! One request to the cluster. -/

namespace Verif.AskRace
open Verif Verif.Heartbeat Verif.Spec

variable {kind : Kind} {here : List Val}

theorem run_snoc (h : List Ev) (e : Ev) : run kind here (h ++ [e]) = step kind here (run kind here h) e := by simp [run]

/-- What a step of one of the other calls does to the list of them. -/
theorem mem_set_th {l : List Th} {k : Nat} {t t' u : Th} (hk : l[k]? = some t) (hu : u ∈ l.set k t') : u = t' ∨ u ∈ l := by
  rcases List.mem_or_eq_of_mem_set hu with h | h
  · exact .inr h
  · exact .inl h

/-- Between the `Load` and what is left to do in any case. -/
def Busy (pc : Pc) : Prop := pc ≠ .load ∧ pc ≠ .forget ∧ pc ≠ .done

theorem rest_idle (a : Option (List Val)) : ¬ Busy (rest a) := by
  cases a <;> simp [rest, Busy]

theorem rest_ne (a : Option (List Val)) : rest a ≠ .erase ∧ rest a ≠ .resolve ∧ rest a ≠ .clear ∧ rest a ≠ .check ∧ rest a ≠ .delete ∧
    rest a ≠ .push ∧ rest a ≠ .load := by
  cases a <;> simp [rest]

structure Inv (s : St) : Prop where
  lodged : Lodged s → s.stored = true ∨ s.calls ≠ []
  stored : s.stored = true → Lodged s
  busy : ∀ t ∈ s.ths, Busy t.pc → Lodged s
  erase : ∀ t ∈ s.ths, t.pc = .erase → s.calls ≠ []
  terase : s.tmo = .erase → s.calls ≠ []
  cleared : s.timer = .cleared → s.calls ≠ [] ∨ ∃ t ∈ s.ths, t.pc = .resolve
  direct : s.asker = .done → s.asked = none → s.calls ≠ []
  armed : s.asker = .keys ∨ s.asker = .store ∨ Lodged s → s.timer ≠ .unset
  unset : s.asker = .count ∨ s.asker = .timer → s.asked = none
  unasked : s.asker = .count ∨ s.asker = .timer ∨ s.asker = .keys → s.asked = none
  asked : s.asker = .store ∨ s.asker = .publish → s.asked ≠ none

theorem lodged_of_eq {s s' : St} (h1 : s'.asker = s.asker) (h2 : s'.asked = s.asked) : Lodged s' ↔ Lodged s := by
  unfold Lodged; rw [h1, h2]

/-- What the steps of the other calls leave alone. -/
theorem advance_same (s : St) (u : Uid) (a : Option (List Val)) (pc : Pc) :
    (advance s u a pc).1.asker = s.asker ∧ (advance s u a pc).1.asked = s.asked ∧ (advance s u a pc).1.tmo = s.tmo ∧
    (advance s u a pc).1.ths = s.ths := by
  cases pc <;> simp [advance]

theorem calls_mono (s : St) (e : Ev) : s.calls <+: (step kind here s e).calls := by
  cases e with
  | ask =>
    simp only [step, askStep]
    cases s.asker <;> simp only [List.prefix_refl]
    split <;> simp
  | arrive u => simp [step]
  | respond u l => simp only [step]; split <;> simp
  | leave u => simp [step]
  | adv k =>
    simp only [step]
    cases s.ths[k]? with
    | none => simp
    | some t => cases hpc : t.pc <;> simp [advance, hpc]
  | fire => simp only [step]; split <;> simp
  | tick =>
    simp only [step, tmoStep]
    cases s.tmo <;> simp

theorem calls_ne {s : St} (e : Ev) (h : s.calls ≠ []) : (step kind here s e).calls ≠ [] := by
  intro hn
  have := calls_mono (kind := kind) (here := here) s e
  rw [hn] at this
  exact h (List.prefix_nil.mp this)

theorem lodged_step {s : St} (i : Inv s) (e : Ev) (h : Lodged s) : Lodged (step kind here s e) := by
  cases e with
  | ask =>
    rcases h with h | ⟨h1, h2⟩
    · exact .inr ⟨by simp [step, askStep, h], by simp only [step, askStep, h]; exact i.asked (.inr h)⟩
    · exact .inr ⟨by simp [step, askStep, h1], by simpa [step, askStep, h1] using h2⟩
  | arrive u => exact h
  | respond u l => simp only [step]; split <;> exact h
  | leave u => exact h
  | adv k =>
    simp only [step]
    cases s.ths[k]? with
    | none => exact h
    | some t =>
      have := advance_same s t.uid t.answer t.pc
      exact (lodged_of_eq (by simpa using this.1) (by simpa using this.2.1)).mpr h
  | fire => simp only [step]; split <;> exact h
  | tick => simp only [step, tmoStep]; cases s.tmo <;> exact h

theorem inv_init : Inv {} := by
  constructor <;> simp [Lodged]

theorem inv_adv {s : St} (i : Inv s) {k : Nat} {t : Th} (hk : s.ths[k]? = some t) :
    Inv { (advance s t.uid t.answer t.pc).1 with ths := s.ths.set k { t with pc := (advance s t.uid t.answer t.pc).2 } } := by
  have hm : t ∈ s.ths := List.mem_of_getElem? hk
  have hlt : k < s.ths.length := (List.getElem?_eq_some_iff.mp hk).1
  have hmem : ∀ pc, ({ t with pc := pc } : Th) ∈ s.ths.set k { t with pc := pc } := fun pc => List.mem_set hlt _
  have hsame := advance_same s t.uid t.answer t.pc
  have hl : ∀ ths, Lodged { (advance s t.uid t.answer t.pc).1 with ths := ths } ↔ Lodged s :=
    fun ths => lodged_of_eq hsame.1 hsame.2.1
  -- another call at `resolve`, unless it is this one
  have hres : (∃ u ∈ s.ths, u.pc = .resolve) → t.pc ≠ .resolve → ∀ pc, ∃ u ∈ s.ths.set k { t with pc := pc }, u.pc = .resolve := by
    rintro ⟨u, hu, hp⟩ hne pc
    obtain ⟨j, hj⟩ := List.getElem?_of_mem hu
    have : j ≠ k := by rintro rfl; rw [hk] at hj; cases hj; exact hne hp
    exact ⟨u, List.mem_of_getElem? (by rw [List.getElem?_set_ne (Ne.symm this)]; exact hj), hp⟩
  have hcalls : s.calls ≠ [] → (advance s t.uid t.answer t.pc).1.calls ≠ [] := by
    intro h; cases hp : t.pc <;> simp [advance, h]
  constructor
  · intro h
    rcases i.lodged ((hl _).mp h) with h1 | h1
    · cases hp : t.pc <;> simp_all [advance]
      exact i.erase t hm hp
    · exact .inr (hcalls h1)
  · intro h
    refine (hl _).mpr (i.stored ?_)
    cases hp : t.pc <;> simp_all [advance]
  · intro u hu hb
    refine (hl _).mpr ?_
    rcases mem_set_th hk hu with rfl | hu
    · by_cases hbt : Busy t.pc
      · exact i.busy t hm hbt
      · cases hp : t.pc <;> simp_all [advance, Busy]
        by_cases hst : s.stored = true
        · exact i.stored hst
        · exfalso
          simp only [if_neg hst] at hb
          cases ha : t.answer <;> simp [ha, rest] at hb
    · exact i.busy u hu hb
  · intro u hu he
    rcases mem_set_th hk hu with rfl | hu
    · cases hp : t.pc <;> simp only [hp, advance] at he ⊢
      · exfalso; revert he; split
        · cases t.answer <;> simp
        · exact fun h => (rest_ne _).1 h
      all_goals first | (cases he; done) | skip
      · exfalso; revert he; split
        · simp
        · exact fun h => (rest_ne _).1 h
      · simp
      · exact absurd he (rest_ne _).1
    · exact hcalls (i.erase u hu he)
  · intro h
    exact hcalls (i.terase (by rw [← hsame.2.2.1]; exact h))
  · intro h
    by_cases hp : t.pc = .clear
    · right
      exact ⟨_, hmem _, by simp [hp, advance]⟩
    · have h1 : s.timer = .cleared := by cases hp' : t.pc <;> simp_all [advance]
      rcases i.cleared h1 with h2 | h2
      · exact .inl (hcalls h2)
      · by_cases hr : t.pc = .resolve
        · left; simp [hr, advance]
        · exact .inr (hres h2 hr _)
  · intro h1 h2
    exact hcalls (i.direct (by rw [← hsame.1]; exact h1) (by rw [← hsame.2.1]; exact h2))
  · intro h
    have := i.armed (by
      rcases h with h | h | h
      · exact .inl (by rw [← hsame.1]; exact h)
      · exact .inr (.inl (by rw [← hsame.1]; exact h))
      · exact .inr (.inr ((hl _).mp h)))
    cases hp : t.pc <;> simp_all [advance]
    split <;> simp_all
  · intro h
    have := i.unset (by rw [← hsame.1]; exact h)
    rw [← hsame.2.1] at this; exact this
  · intro h
    have := i.unasked (by rw [← hsame.1]; exact h)
    rw [← hsame.2.1] at this; exact this
  · intro h
    have := i.asked (by rw [← hsame.1]; exact h)
    rw [← hsame.2.1] at this; exact this

theorem inv_step {s : St} (i : Inv s) (e : Ev) : Inv (step kind here s e) := by
  cases e with
  | ask =>
    simp only [step, askStep]
    cases ha : s.asker with
    | count =>
      have hu := i.unset (.inl ha)
      have hnl : ¬ Lodged s := by simp [Lodged, ha]
      have hst : s.stored = false := by
        cases h : s.stored with
        | false => rfl
        | true => exact absurd (i.stored h) hnl
      have hb : ∀ t ∈ s.ths, ¬ Busy t.pc := fun t ht h => hnl (i.busy t ht h)
      by_cases hn : s.nodes.length = 0
      · simp only [hn, if_true]
        constructor <;> simp_all [Lodged]
      · simp only [hn, if_false]
        constructor <;> simp_all [Lodged]
        · exact i.erase
        · exact i.terase
        · exact i.cleared
    | timer =>
      have hu := i.unset (.inr ha)
      have hnl : ¬ Lodged s := by simp [Lodged, ha]
      have hst : s.stored = false := by
        cases h : s.stored with
        | false => rfl
        | true => exact absurd (i.stored h) hnl
      have hb : ∀ t ∈ s.ths, ¬ Busy t.pc := fun t ht h => hnl (i.busy t ht h)
      constructor <;> simp_all [Lodged]
      · exact i.erase
      · exact i.terase
    | keys =>
      have hu := i.unasked (.inr (.inr ha))
      have hnl : ¬ Lodged s := by simp [Lodged, ha]
      have hst : s.stored = false := by
        cases h : s.stored with
        | false => rfl
        | true => exact absurd (i.stored h) hnl
      have hb : ∀ t ∈ s.ths, ¬ Busy t.pc := fun t ht h => hnl (i.busy t ht h)
      constructor <;> simp_all [Lodged]
      · exact i.erase
      · exact i.terase
      · exact i.cleared
      · exact i.armed (.inl ha)
    | store =>
      have hnl : ¬ Lodged s := by simp [Lodged, ha]
      have hst : s.stored = false := by
        cases h : s.stored with
        | false => rfl
        | true => exact absurd (i.stored h) hnl
      have hb : ∀ t ∈ s.ths, ¬ Busy t.pc := fun t ht h => hnl (i.busy t ht h)
      have := i.asked (.inl ha)
      constructor <;> simp_all [Lodged]
      · exact i.erase
      · exact i.terase
      · exact i.cleared
      · exact i.armed (.inr (.inl ha))
    | publish =>
      have h1 := i.lodged (.inl ha)
      have h2 := i.armed (.inr (.inr (.inl ha)))
      have := i.asked (.inr ha)
      constructor <;> simp_all [Lodged]
      · exact i.erase
      · exact i.terase
      · exact i.cleared
    | done => simpa [ha] using i
  | arrive u => exact ⟨i.lodged, i.stored, i.busy, i.erase, i.terase, i.cleared, i.direct, i.armed, i.unset, i.unasked, i.asked⟩
  | respond u l =>
    simp only [step]
    split
    · refine ⟨i.lodged, i.stored, ?_, ?_, i.terase, ?_, i.direct, i.armed, i.unset, i.unasked, i.asked⟩
      · intro t ht hb
        rcases List.mem_append.mp ht with ht | ht
        · exact i.busy t ht hb
        · cases List.mem_singleton.mp ht; exact absurd rfl hb.1
      · intro t ht hb
        rcases List.mem_append.mp ht with ht | ht
        · exact i.erase t ht hb
        · cases List.mem_singleton.mp ht; cases hb
      · intro h
        rcases i.cleared h with h | ⟨t, ht, h⟩
        · exact .inl h
        · exact .inr ⟨t, List.mem_append_left _ ht, h⟩
    · exact i
  | leave u =>
    refine ⟨i.lodged, i.stored, ?_, ?_, i.terase, ?_, i.direct, i.armed, i.unset, i.unasked, i.asked⟩
    · intro t ht hb
      rcases List.mem_append.mp ht with ht | ht
      · exact i.busy t ht hb
      · cases List.mem_singleton.mp ht; exact absurd rfl hb.1
    · intro t ht hb
      rcases List.mem_append.mp ht with ht | ht
      · exact i.erase t ht hb
      · cases List.mem_singleton.mp ht; cases hb
    · intro h
      rcases i.cleared h with h | ⟨t, ht, h⟩
      · exact .inl h
      · exact .inr ⟨t, List.mem_append_left _ ht, h⟩
  | adv k =>
    simp only [step]
    cases hk : s.ths[k]? with
    | none => exact i
    | some t => exact inv_adv i hk
  | fire =>
    simp only [step]
    split
    · exact ⟨i.lodged, i.stored, i.busy, i.erase, by simp, by simp, i.direct, by simp, i.unset, i.unasked, i.asked⟩
    · exact i
  | tick =>
    simp only [step, tmoStep]
    cases ht : s.tmo with
    | idle => simpa [ht] using i
    | load =>
      refine ⟨i.lodged, i.stored, i.busy, i.erase, ?_, i.cleared, i.direct, i.armed, i.unset, i.unasked, i.asked⟩
      dsimp only; split <;> simp
    | call =>
      exact ⟨fun _ => .inr (by simp), i.stored, i.busy, fun _ _ _ => by simp, fun _ => by simp, fun _ => .inl (by simp),
        fun _ _ => by simp, i.armed, i.unset, i.unasked, i.asked⟩
    | erase =>
      have hc := i.terase ht
      exact ⟨fun _ => .inr hc, by simp, i.busy, i.erase, by simp, i.cleared, i.direct, i.armed, i.unset, i.unasked, i.asked⟩
    | done => simpa [ht] using i

theorem inv_run (h : List Ev) : Inv (run kind here h) := by
  induction h using snocRec with
  | nil => exact inv_init
  | append_singleton h e ih => rw [run_snoc]; exact inv_step ih e

/-! The timer -/

def Late (s : St) : Prop := s.timer = .fired → Lodged s ∧ s.tmo ≠ .idle ∧ (s.tmo = .done → s.calls ≠ [])

theorem late_of_same {s s' : St} (h : Late s) (hl : Lodged s → Lodged s') (h1 : s'.timer = .fired → s.timer = .fired)
    (h2 : s'.tmo = s.tmo) (h3 : s.calls ≠ [] → s'.calls ≠ []) : Late s' := by
  intro hf
  obtain ⟨a, b, c⟩ := h (h1 hf)
  exact ⟨hl a, by rw [h2]; exact b, fun hd => h3 (c (by rw [← h2]; exact hd))⟩

theorem late_run (h : List Ev) (hf : FiresLate kind here h) : Late (run kind here h) := by
  induction h using snocRec with
  | nil => intro h; cases h
  | append_singleton h e ih =>
    have i := inv_run (kind := kind) (here := here) h
    have l := ih fun a b hab => hf a (b ++ [e]) (by rw [hab]; simp)
    have hls := fun hl => lodged_step (kind := kind) (here := here) i e hl
    have hcs := fun hc => calls_ne (kind := kind) (here := here) (s := run kind here h) e hc
    have hfe := fun he : e = .fire => hf h [] (by rw [he])
    rw [run_snoc]
    cases e with
    | ask =>
      refine late_of_same l hls ?_ ?_ hcs
      · intro hh
        simp only [step, askStep] at hh
        cases ha : (run kind here h).asker <;> simp only [ha] at hh
        · split at hh <;> exact hh
        · cases hh
        all_goals exact hh
      · simp only [step, askStep]
        cases (run kind here h).asker <;> try rfl
        dsimp only
        split <;> rfl
    | arrive u => exact late_of_same l hls id rfl hcs
    | respond u v =>
      refine late_of_same l hls ?_ ?_ hcs
      · simp only [step]; split <;> exact id
      · simp only [step]; split <;> rfl
    | leave u => exact late_of_same l hls id rfl hcs
    | adv k =>
      refine late_of_same l hls ?_ ?_ hcs
      · simp only [step]
        cases (run kind here h).ths[k]? with
        | none => exact id
        | some t =>
          dsimp only
          cases hp : t.pc <;> simp only [advance, imp_self]
          split
          · simp
          · exact id
      · simp only [step]
        cases (run kind here h).ths[k]? with
        | none => rfl
        | some t => exact (advance_same _ _ _ _).2.2.1
    | fire =>
      by_cases ha : (run kind here h).timer = .armed
      · intro _
        have := hfe rfl ha
        refine ⟨hls this, by simp [step, ha], by simp [step, ha]⟩
      · simp only [step, if_neg ha]; exact l
    | tick =>
      intro hh
      have hh' : (run kind here h).timer = .fired := by
        revert hh
        simp only [step, tmoStep]
        cases (run kind here h).tmo <;> exact id
      obtain ⟨a, b, c⟩ := l hh'
      refine ⟨hls a, ?_, ?_⟩
      · simp only [step, tmoStep]
        cases ht : (run kind here h).tmo <;> simp [ht] at b ⊢
        split <;> simp
      · intro hd
        simp only [step, tmoStep] at hd ⊢
        cases ht : (run kind here h).tmo <;> simp only [ht] at hd ⊢
        · cases hd
        · by_cases hst : (run kind here h).stored = true
          · rw [if_pos hst] at hd; cases hd
          · exact (i.lodged a).resolve_left hst
        · cases hd
        · exact i.terase ht
        · exact c ht

theorem called_late (h : List Ev) (hf : FiresLate kind here h) (hr : AtRest (run kind here h)) (ht : (run kind here h).timer ≠ .armed) :
    (run kind here h).calls ≠ [] := by
  have i := inv_run (kind := kind) (here := here) h
  by_cases hn : (run kind here h).asked = none
  · exact i.direct hr.1 hn
  · have hl : Lodged (run kind here h) := .inr ⟨hr.1, hn⟩
    have hu := i.armed (.inr (.inr hl))
    cases hT : (run kind here h).timer with
    | unset => exact absurd hT hu
    | armed => exact absurd hT ht
    | fired =>
      obtain ⟨-, b, c⟩ := late_run h hf hT
      exact c (hr.2.2.resolve_left b)
    | cleared =>
      rcases i.cleared hT with h1 | ⟨t, h1, h2⟩
      · exact h1
      · rw [hr.2.1 t h1] at h2; cases h2

/-! Without the timer -/

def Due (s : St) : Prop := s.asked ≠ none → s.asked ≠ some [] → s.missing = [] →
  s.calls ≠ [] ∨ ∃ t ∈ s.ths, t.pc = .check ∨ t.pc = .clear ∨ t.pc = .resolve

theorem asked_adv (s : St) (k : Nat) : (step kind here s (.adv k)).asked = s.asked := by
  simp only [step]
  cases s.ths[k]? with
  | none => rfl
  | some t => exact (advance_same _ _ _ _).2.1

theorem due_step {s : St} (d : Due s) (e : Ev) : Due (step kind here s e) := by
  by_cases hc : s.calls ≠ []
  · exact fun _ _ _ => .inl (calls_ne e hc)
  cases e with
  | ask =>
    intro h1 h2 h3
    simp only [step, askStep] at h1 h2 h3 ⊢
    cases ha : s.asker <;> simp only [ha] at h1 h2 h3 ⊢
    · split at h1
      · left; rename_i hn; simp [hn]
      · rename_i hn; simp only [hn, if_false] at h2 h3 ⊢; exact d h1 h2 h3
    · exact d h1 h2 h3
    · rw [h3] at h2; exact absurd rfl h2
    · exact d h1 h2 h3
    · exact d h1 h2 h3
    · exact d h1 h2 h3
  | arrive u => exact d
  | respond u l =>
    simp only [step]
    split
    · intro h1 h2 h3
      rcases d h1 h2 h3 with h | ⟨t, ht, h⟩
      · exact .inl h
      · exact .inr ⟨t, List.mem_append_left _ ht, h⟩
    · exact d
  | leave u =>
    intro h1 h2 h3
    rcases d h1 h2 h3 with h | ⟨t, ht, h⟩
    · exact .inl h
    · exact .inr ⟨t, List.mem_append_left _ ht, h⟩
  | adv k =>
    intro h1 h2 h3
    rw [asked_adv] at h1 h2
    simp only [step] at h3 ⊢
    cases hk : s.ths[k]? with
    | none => simp only [hk] at h3 ⊢; exact d h1 h2 h3
    | some t =>
      simp only [hk] at h3 ⊢
      have hlt : k < s.ths.length := (List.getElem?_eq_some_iff.mp hk).1
      have hmem : ∀ pc, ({ t with pc := pc } : Th) ∈ s.ths.set k { t with pc := pc } := fun pc => List.mem_set hlt _
      by_cases hp : t.pc = .delete
      · exact .inr ⟨_, hmem _, by simp [hp, advance]⟩
      · by_cases hr : t.pc = .resolve
        · left; simp [hr, advance]
        · have h3' : s.missing = [] := by cases hp' : t.pc <;> simp_all [advance]
          rcases d h1 h2 h3' with h | ⟨u, hu, h⟩
          · exact absurd h hc
          · right
            obtain ⟨j, hj⟩ := List.getElem?_of_mem hu
            by_cases hjk : j = k
            · subst hjk
              rw [hk] at hj; cases hj
              refine ⟨_, hmem _, ?_⟩
              rcases h with h | h | h
              · simp [h, advance, h3']
              · simp [h, advance]
              · exact absurd h hr
            · exact ⟨u, List.mem_of_getElem? (by rw [List.getElem?_set_ne (Ne.symm hjk)]; exact hj), h⟩
  | fire => simp only [step]; split <;> exact d
  | tick =>
    simp only [step, tmoStep]
    cases s.tmo with
    | call => exact fun _ _ _ => .inl (by simp)
    | _ => exact d

theorem due_run (h : List Ev) : Due (run kind here h) := by
  induction h using snocRec with
  | nil => intro h; simp [run] at h
  | append_singleton h e ih => rw [run_snoc]; exact due_step ih e

/-- What is missing was asked. -/
def Sub (s : St) : Prop := ∀ A, s.asked = some A → ∀ u ∈ s.missing, u ∈ A

theorem sub_run (h : List Ev) : Sub (run kind here h) := by
  induction h using snocRec with
  | nil => intro A hA; simp [run] at hA
  | append_singleton h e ih =>
    rw [run_snoc]
    cases e with
    | ask =>
      simp only [step, askStep]
      cases (run kind here h).asker with
      | count => dsimp only; split <;> exact ih
      | keys =>
        intro A hA u hu
        simp only [Option.some.injEq] at hA
        subst hA; exact hu
      | _ => exact ih
    | arrive u => exact ih
    | respond u l => simp only [step]; split <;> exact ih
    | leave u => exact ih
    | adv k =>
      intro A hA u hu
      rw [asked_adv] at hA
      apply ih A hA u
      simp only [step] at hu
      cases hk : (run kind here h).ths[k]? with
      | none => simpa [hk] using hu
      | some t =>
        simp only [hk] at hu
        cases hp : t.pc <;> simp only [hp, advance] at hu <;> try exact hu
        rw [LSet.mem_del] at hu; exact hu.2
    | fire => simp only [step]; split <;> exact ih
    | tick =>
      simp only [step, tmoStep]
      cases (run kind here h).tmo <;> exact ih

/-- A call that was made for server `u` after the request was lodged. -/
def Serving (s : St) (k : Nat) (u : Uid) : Prop :=
  Lodged s ∧ ∃ t, s.ths[k]? = some t ∧ t.uid = u ∧
    (t.pc = .load ∨ t.pc = .push ∨ t.pc = .delete ∨ u ∉ s.missing ∨ s.calls ≠ [])

theorem missing_step {s : St} (hl : Lodged s) (e : Ev) (u : Uid) (h : u ∉ s.missing) :
    u ∉ (step kind here s e).missing := by
  cases e with
  | ask =>
    simp only [step, askStep]
    rcases hl with hl | ⟨hl, -⟩ <;> simpa only [hl] using h
  | arrive u => exact h
  | respond u l => simp only [step]; split <;> exact h
  | leave u => exact h
  | adv k =>
    simp only [step]
    cases s.ths[k]? with
    | none => exact h
    | some t =>
      dsimp only
      cases t.pc <;> simp only [advance] <;> try exact h
      rw [LSet.mem_del]; exact fun hh => h hh.2
  | fire => simp only [step]; split <;> exact h
  | tick => simp only [step, tmoStep]; cases s.tmo <;> exact h

theorem serving_step {s : St} (i : Inv s) {k : Nat} {u : Uid} (h : Serving s k u) (e : Ev) : Serving (step kind here s e) k u := by
  obtain ⟨hl, t, hk, hu, hp⟩ := h
  have hlt : k < s.ths.length := (List.getElem?_eq_some_iff.mp hk).1
  have hl' := lodged_step (kind := kind) (here := here) i e hl
  refine ⟨hl', ?_⟩
  -- if the call itself does not move
  have stay : (step kind here s e).ths[k]? = some t → ∃ t, (step kind here s e).ths[k]? = some t ∧ t.uid = u ∧
      (t.pc = .load ∨ t.pc = .push ∨ t.pc = .delete ∨ u ∉ (step kind here s e).missing ∨ (step kind here s e).calls ≠ []) := by
    intro h1
    refine ⟨t, h1, hu, ?_⟩
    rcases hp with h | h | h | h | h
    · exact .inl h
    · exact .inr (.inl h)
    · exact .inr (.inr (.inl h))
    · exact .inr (.inr (.inr (.inl (missing_step hl e u h))))
    · exact .inr (.inr (.inr (.inr (calls_ne e h))))
  cases e with
  | ask =>
    apply stay
    simp only [step, askStep]
    rcases hl with hl | ⟨hl, -⟩ <;> simpa only [hl] using hk
  | arrive v => exact stay hk
  | respond v l =>
    apply stay
    simp only [step]; split
    · exact (List.getElem?_append_left hlt).trans hk
    · exact hk
  | leave v => exact stay ((List.getElem?_append_left hlt).trans hk)
  | adv j =>
    by_cases hj : j = k
    · subst hj
      simp only [step, hk, List.getElem?_set_self hlt]
      refine ⟨_, rfl, hu, ?_⟩
      dsimp only
      rcases hp with h | h | h | h | h
      · by_cases hst : s.stored = true
        · rw [h]; simp only [advance, hst, if_true]
          cases t.answer <;> simp
        · right; right; right; right
          have := (i.lodged hl).resolve_left hst
          rw [h]; exact this
      · rw [h]; simp [advance]
      · rw [h]; simp [advance, LSet.mem_del, hu]
      · have := missing_step (kind := kind) (here := here) hl (.adv j) u h
        simp only [step, hk] at this
        exact .inr (.inr (.inr (.inl this)))
      · have := calls_ne (kind := kind) (here := here) (.adv j) h
        simp only [step, hk] at this
        exact .inr (.inr (.inr (.inr this)))
    · apply stay
      simp only [step]
      cases hk' : s.ths[j]? with
      | none => exact hk
      | some t' => exact (List.getElem?_set_ne hj).trans hk
  | fire => apply stay; simp only [step]; split <;> exact hk
  | tick => apply stay; simp only [step, tmoStep]; cases s.tmo <;> exact hk

theorem serving_run (a b : List Ev) {k : Nat} {u : Uid} (h : Serving (run kind here a) k u) : Serving (run kind here (a ++ b)) k u := by
  induction b using snocRec with
  | nil => simpa using h
  | append_singleton b e ih => rw [← List.append_assoc, run_snoc]; exact serving_step (inv_run _) ih e

theorem served {h : List Ev} {k : Nat} {u : Uid} (hs : Serving (run kind here h) k u) (hr : AtRest (run kind here h)) :
    u ∉ (run kind here h).missing ∨ (run kind here h).calls ≠ [] := by
  obtain ⟨-, t, hk, -, hp⟩ := hs
  have hd := hr.2.1 t (List.mem_of_getElem? hk)
  rw [hd] at hp
  simpa using hp

theorem done_stays (a b : List Ev) (h : (run kind here a).asker = .done) :
    (run kind here (a ++ b)).asker = .done ∧ (run kind here (a ++ b)).asked = (run kind here a).asked := by
  induction b using snocRec with
  | nil => simpa using h
  | append_singleton b e ih =>
    rw [← List.append_assoc, run_snoc, ← ih.2]
    have hd := ih.1
    cases e with
    | ask => simp [step, askStep, hd]
    | arrive u => exact ⟨hd, rfl⟩
    | respond u l => simp only [step]; split <;> exact ⟨hd, rfl⟩
    | leave u => exact ⟨hd, rfl⟩
    | adv k =>
      simp only [step]
      cases (run kind here (a ++ b)).ths[k]? with
      | none => exact ⟨hd, rfl⟩
      | some t => exact ⟨(advance_same _ _ _ _).1.trans hd, (advance_same _ _ _ _).2.1⟩
    | fire => simp only [step]; split <;> exact ⟨hd, rfl⟩
    | tick => simp only [step, tmoStep]; cases (run kind here (a ++ b)).tmo <;> exact ⟨hd, rfl⟩

theorem called_prompt (h : List Ev) (A : List Uid) (hA : (run kind here h).asked = some A) (hne : A ≠ []) (hr : AtRest (run kind here h))
    (hall : ∀ u ∈ A, Answers kind here h u ∨ LeavesLater kind here h u) : (run kind here h).calls ≠ [] := by
  by_cases hc : (run kind here h).calls ≠ []
  · exact hc
  have hm : ∀ u ∈ A, u ∉ (run kind here h).missing := by
    intro u hu
    rcases hall u hu with ⟨a, l, b, rfl, hd⟩ | ⟨a, b, rfl, hl⟩
    · have hask : (run kind here a).asked ≠ none := by
        have := (done_stays a (.respond u l :: b) hd).2
        rw [hA] at this; rw [← this]; simp
      have hs : Serving (run kind here (a ++ [.respond u l])) (run kind here a).ths.length u := by
        rw [run_snoc]
        have he : step kind here (run kind here a) (.respond u l) = { run kind here a with ths := (run kind here a).ths ++ [⟨u, some l, .load⟩] } := by
          simp only [step]; rw [if_pos hd]
        rw [he]
        exact ⟨.inr ⟨hd, hask⟩, ⟨u, some l, .load⟩, by simp, rfl, .inl rfl⟩
      have := serving_run _ b hs
      rw [show a ++ [Ev.respond u l] ++ b = a ++ .respond u l :: b by simp] at this
      exact (served this hr).resolve_right hc
    · have hs : Serving (run kind here (a ++ [.leave u])) (run kind here a).ths.length u := by
        rw [run_snoc]
        exact ⟨hl, ⟨u, none, .load⟩, by simp [step], rfl, .inl rfl⟩
      have := serving_run _ b hs
      rw [show a ++ [Ev.leave u] ++ b = a ++ .leave u :: b by simp] at this
      exact (served this hr).resolve_right hc
  have hmiss : (run kind here h).missing = [] := by
    cases hx : (run kind here h).missing with
    | nil => rfl
    | cons u l => exact absurd (hm u (sub_run h A hA u (by rw [hx]; simp))) (by rw [hx]; simp)
  rcases due_run h (by rw [hA]; simp) (by rw [hA]; simpa using hne) hmiss with h1 | ⟨t, ht, h1⟩
  · exact h1
  · rw [hr.2.1 t ht] at h1; simp at h1

/-! The values -/

structure Vals (here : List Val) (h : List Ev) (s : St) : Prop where
  answer : ∀ t ∈ s.ths, ∀ l, t.answer = some l → .respond t.uid l ∈ h
  gone : ∀ t ∈ s.ths, t.answer = none → .leave t.uid ∈ h
  pushed : ∀ t ∈ s.ths, t.pc = .delete → ∀ l, t.answer = some l → l <:+: s.responses
  local_ : s.asked ≠ none → here <+: s.responses
  have_ : ∀ A, s.asked = some A → ∀ u ∈ A, u ∉ s.missing → (∃ l, .respond u l ∈ h ∧ l <:+: s.responses) ∨ .leave u ∈ h
  full : ∀ t ∈ s.ths, t.pc = .clear ∨ t.pc = .resolve → s.missing = []
  from_ : ∀ x ∈ s.responses, x ∈ here ∨ ∃ u l, .respond u l ∈ h ∧ x ∈ l
  calls : ∀ c, .ok c ∈ s.calls → here <+: c ∧ (∀ x ∈ c, x ∈ here ∨ ∃ u l, .respond u l ∈ h ∧ x ∈ l) ∧
    ∀ A, s.asked = some A → ∀ u ∈ A, (∃ l, .respond u l ∈ h ∧ l <:+: c) ∨ .leave u ∈ h

theorem vals_later {h : List Ev} {s : St} (v : Vals here h s) (e : Ev) : Vals here (h ++ [e]) s :=
  ⟨fun t ht l hl => List.mem_append_left _ (v.answer t ht l hl), fun t ht hn => List.mem_append_left _ (v.gone t ht hn), v.pushed, v.local_,
   fun A hA u hu hm => (v.have_ A hA u hu hm).imp (fun ⟨l, h1, h2⟩ => ⟨l, List.mem_append_left _ h1, h2⟩) (List.mem_append_left _), v.full,
   fun x hx => (v.from_ x hx).imp id fun ⟨u, l, h1, h2⟩ => ⟨u, l, List.mem_append_left _ h1, h2⟩,
   fun c hc => ⟨(v.calls c hc).1, fun x hx => ((v.calls c hc).2.1 x hx).imp id fun ⟨u, l, h1, h2⟩ => ⟨u, l, List.mem_append_left _ h1, h2⟩,
    fun A hA u hu => ((v.calls c hc).2.2 A hA u hu).imp (fun ⟨l, h1, h2⟩ => ⟨l, List.mem_append_left _ h1, h2⟩) (List.mem_append_left _)⟩⟩

/-- The callback is given values only when the request was lodged, or nobody asked. -/
theorem ok_run (h : List Ev) (c : List Val) (hc : .ok c ∈ (run kind here h).calls) :
    (run kind here h).asker = .done ∨ Lodged (run kind here h) := by
  induction h using snocRec with
  | nil => simp [run] at hc
  | append_singleton h e ih =>
    have i := inv_run (kind := kind) (here := here) h
    have old : Call.ok c ∈ (run kind here h).calls → (run kind here (h ++ [e])).asker = .done ∨ Lodged (run kind here (h ++ [e])) := by
      intro hc
      rcases ih hc with h1 | h1
      · exact .inl (done_stays h [e] h1).1
      · right; rw [run_snoc]; exact lodged_step i e h1
    have new : Lodged (run kind here h) → Lodged (run kind here (h ++ [e])) := fun h1 => by rw [run_snoc]; exact lodged_step i e h1
    rw [run_snoc] at hc
    cases e with
    | ask =>
      simp only [step, askStep] at hc
      cases ha : (run kind here h).asker with
      | count =>
        simp only [ha] at hc
        by_cases hn : (run kind here h).nodes.length = 0
        · left; rw [run_snoc]; simp [step, askStep, ha, hn]
        · rw [if_neg hn] at hc; exact old hc
      | _ => simp only [ha] at hc; exact old hc
    | arrive u => exact old hc
    | respond u l => simp only [step] at hc; split at hc <;> exact old hc
    | leave u => exact old hc
    | adv k =>
      simp only [step] at hc
      cases hk : (run kind here h).ths[k]? with
      | none => rw [hk] at hc; exact old hc
      | some t =>
        simp only [hk] at hc
        cases hp : t.pc <;> simp only [hp, advance] at hc <;> try exact old hc
        exact .inr (new (i.busy t (List.mem_of_getElem? hk) (by simp [Busy, hp])))
    | fire => simp only [step] at hc; split at hc <;> exact old hc
    | tick =>
      simp only [step, tmoStep] at hc
      cases ht : (run kind here h).tmo <;> simp only [ht] at hc <;> try exact old hc
      rcases List.mem_append.mp hc with hc | hc
      · exact old hc
      · simp at hc

theorem infix_snoc {l r x : List Val} (h : l <:+: r) : l <:+: r ++ x := h.trans (List.prefix_append r x).isInfix

theorem vals_run (h : List Ev) : Vals here h (run kind here h) := by
  induction h using snocRec with
  | nil => constructor <;> simp [run]
  | append_singleton h e ih =>
    have i := inv_run (kind := kind) (here := here) h
    have v := vals_later ih e
    have hok := ok_run (kind := kind) (here := here) h
    rw [run_snoc]
    generalize hs : run kind here h = s at *
    cases e with
    | ask =>
      simp only [step, askStep]
      cases ha : s.asker with
      | count =>
        have hu := i.unset (.inl ha)
        dsimp only
        split
        · refine ⟨v.answer, v.gone, v.pushed, v.local_, v.have_, v.full, v.from_, ?_⟩
          intro c hc
          rcases List.mem_append.mp hc with hc | hc
          · exact v.calls c hc
          · have : c = here := by simpa using hc
            subst this
            exact ⟨List.prefix_refl _, fun x hx => .inl hx, fun A hA => by dsimp only at hA; rw [hu] at hA; cases hA⟩
        · exact ⟨v.answer, v.gone, v.pushed, v.local_, v.have_, v.full, v.from_, v.calls⟩
      | keys =>
        have hnl : ¬ Lodged s := by simp [Lodged, ha]
        have hb : ∀ t ∈ s.ths, ¬ Busy t.pc := fun t ht h => hnl (i.busy t ht h)
        refine ⟨v.answer, v.gone, ?_, fun _ => List.prefix_refl _, ?_, ?_, fun x hx => .inl hx, ?_⟩
        · intro t ht hp; exact absurd (by simp [Busy, hp]) (hb t ht)
        · intro A hA u hu hm
          simp only [Option.some.injEq] at hA
          subst hA; exact absurd hu hm
        · intro t ht hp
          exact absurd (by rcases hp with hp | hp <;> simp [Busy, hp]) (hb t ht)
        · intro c hc
          exact absurd (hok c hc) (by simp [Lodged, ha])
      | _ => exact ⟨v.answer, v.gone, v.pushed, v.local_, v.have_, v.full, v.from_, v.calls⟩
    | arrive u => exact ⟨v.answer, v.gone, v.pushed, v.local_, v.have_, v.full, v.from_, v.calls⟩
    | respond u l =>
      simp only [step]
      split
      · refine ⟨?_, ?_, ?_, v.local_, v.have_, ?_, v.from_, v.calls⟩
        · intro t ht l' hl'
          rcases List.mem_append.mp ht with ht | ht
          · exact v.answer t ht l' hl'
          · cases List.mem_singleton.mp ht; cases hl'; simp
        · intro t ht hn
          rcases List.mem_append.mp ht with ht | ht
          · exact v.gone t ht hn
          · cases List.mem_singleton.mp ht; cases hn
        · intro t ht hp
          rcases List.mem_append.mp ht with ht | ht
          · exact v.pushed t ht hp
          · cases List.mem_singleton.mp ht; cases hp
        · intro t ht hp
          rcases List.mem_append.mp ht with ht | ht
          · exact v.full t ht hp
          · cases List.mem_singleton.mp ht; simp at hp
      · exact v
    | leave u =>
      refine ⟨?_, ?_, ?_, v.local_, v.have_, ?_, v.from_, v.calls⟩
      · intro t ht l' hl'
        rcases List.mem_append.mp ht with ht | ht
        · exact v.answer t ht l' hl'
        · cases List.mem_singleton.mp ht; cases hl'
      · intro t ht hn
        rcases List.mem_append.mp ht with ht | ht
        · exact v.gone t ht hn
        · cases List.mem_singleton.mp ht; simp
      · intro t ht hp
        rcases List.mem_append.mp ht with ht | ht
        · exact v.pushed t ht hp
        · cases List.mem_singleton.mp ht; cases hp
      · intro t ht hp
        rcases List.mem_append.mp ht with ht | ht
        · exact v.full t ht hp
        · cases List.mem_singleton.mp ht; simp at hp
    | adv k =>
      simp only [step]
      cases hk : s.ths[k]? with
      | none => exact v
      | some t =>
        dsimp only
        have hm : t ∈ s.ths := List.mem_of_getElem? hk
        have hans : ∀ pc, ∀ u ∈ s.ths.set k { t with pc := pc }, ∀ l, u.answer = some l → Ev.respond u.uid l ∈ h ++ [.adv k] := by
          intro pc u hu l hl
          rcases mem_set_th hk hu with rfl | hu
          · exact v.answer t hm l hl
          · exact v.answer u hu l hl
        have hgone : ∀ pc, ∀ u ∈ s.ths.set k { t with pc := pc }, u.answer = none → Ev.leave u.uid ∈ h ++ [.adv k] := by
          intro pc u hu hl
          rcases mem_set_th hk hu with rfl | hu
          · exact v.gone t hm hl
          · exact v.gone u hu hl
        have hpush : ∀ pc, pc ≠ .delete → ∀ u ∈ s.ths.set k { t with pc := pc }, u.pc = .delete → ∀ l, u.answer = some l →
            l <:+: s.responses := by
          intro pc hne u hu hp l hl
          rcases mem_set_th hk hu with rfl | hu
          · exact absurd hp hne
          · exact v.pushed u hu hp l hl
        have hfull : ∀ pc, (pc ≠ .clear ∧ pc ≠ .resolve ∨ s.missing = []) → ∀ u ∈ s.ths.set k { t with pc := pc },
            u.pc = .clear ∨ u.pc = .resolve → s.missing = [] := by
          intro pc hne u hu hp
          rcases mem_set_th hk hu with rfl | hu
          · rcases hne with ⟨h1, h2⟩ | h
            · exact absurd hp (by simp [h1, h2])
            · exact h
          · exact v.full u hu hp
        cases hp : t.pc with
        | load =>
          simp only [advance]
          refine ⟨hans _, hgone _, ?_, v.local_, v.have_, hfull _ (.inl ?_), v.from_, v.calls⟩
          · intro u hu hpu l hl
            rcases mem_set_th hk hu with rfl | hu
            · exfalso
              dsimp only at hpu hl
              rw [hl] at hpu
              revert hpu
              split <;> simp [rest]
            · exact v.pushed u hu hpu l hl
          · cases t.answer <;> split <;> simp [rest]
        | push =>
          simp only [advance]
          refine ⟨hans _, hgone _, ?_, fun hA => (v.local_ hA).trans (List.prefix_append _ _), ?_, hfull _ (.inl (by simp)), ?_, v.calls⟩
          · intro u hu hpu l hl
            rcases mem_set_th hk hu with rfl | hu
            · dsimp only at hl ⊢
              rw [hl]; exact (List.suffix_append _ _).isInfix
            · exact infix_snoc (v.pushed u hu hpu l hl)
          · intro A hA u hu hmu
            exact (v.have_ A hA u hu hmu).imp (fun ⟨l, h1, h2⟩ => ⟨l, h1, infix_snoc h2⟩) id
          · intro x hx
            rcases List.mem_append.mp hx with hx | hx
            · exact v.from_ x hx
            · cases ha : t.answer with
              | none => rw [ha] at hx; cases hx
              | some l => rw [ha] at hx; exact .inr ⟨_, l, v.answer t hm l ha, hx⟩
        | delete =>
          simp only [advance]
          refine ⟨hans _, hgone _, hpush _ (by simp), v.local_, ?_, ?_, v.from_, v.calls⟩
          · intro A hA u hu hmu
            by_cases hx : u ∈ s.missing
            · have : u = t.uid := by
                have h' : ¬ (u ≠ t.uid ∧ u ∈ s.missing) := by rw [← LSet.mem_del]; exact hmu
                exact Classical.byContradiction fun hne => h' ⟨hne, hx⟩
              subst this
              cases ha : t.answer with
              | none => exact .inr (v.gone t hm ha)
              | some l => exact .inl ⟨l, v.answer t hm l ha, v.pushed t hm hp l ha⟩
            · exact v.have_ A hA u hu hx
          · intro u hu hpu
            have hmiss : s.missing = [] := hfull .check (.inl (by simp)) u hu hpu
            show LSet.del s.missing t.uid = []
            rw [hmiss]; rfl
        | check =>
          simp only [advance]
          refine ⟨hans _, hgone _, hpush _ ?_, v.local_, v.have_, hfull _ ?_, v.from_, v.calls⟩
          · split
            · simp
            · exact (rest_ne _).2.2.2.2.1
          · by_cases hz : s.missing.length = 0
            · exact .inr (List.length_eq_zero_iff.mp hz)
            · left; rw [if_neg hz]; exact ⟨(rest_ne _).2.2.1, (rest_ne _).2.1⟩
        | clear =>
          simp only [advance]
          exact ⟨hans _, hgone _, hpush _ (by simp), v.local_, v.have_, hfull _ (.inr (v.full t hm (.inl hp))), v.from_, v.calls⟩
        | resolve =>
          simp only [advance]
          have hmiss := v.full t hm (.inr hp)
          have hl : Lodged s := i.busy t hm (by simp [Busy, hp])
          refine ⟨hans _, hgone _, hpush _ (by simp), v.local_, v.have_, hfull _ (.inl (by simp)), v.from_, ?_⟩
          intro c hc
          rcases List.mem_append.mp hc with hc | hc
          · exact v.calls c hc
          · have : c = s.responses := by simpa using hc
            subst this
            refine ⟨v.local_ ?_, v.from_, fun A hA u hu => v.have_ A hA u hu (by rw [hmiss]; simp)⟩
            rcases hl with hl | hl
            · exact i.asked (.inr hl)
            · exact hl.2
        | erase =>
          simp only [advance]
          exact ⟨hans _, hgone _, hpush _ (rest_ne _).2.2.2.2.1, v.local_, v.have_, hfull _ (.inl ⟨(rest_ne _).2.2.1, (rest_ne _).2.1⟩), v.from_,
            v.calls⟩
        | forget =>
          simp only [advance]
          exact ⟨hans _, hgone _, hpush _ (by simp), v.local_, v.have_, hfull _ (.inl (by simp)), v.from_, v.calls⟩
        | done =>
          simp only [advance]
          exact ⟨hans _, hgone _, hpush _ (by simp), v.local_, v.have_, hfull _ (.inl (by simp)), v.from_, v.calls⟩
    | fire =>
      simp only [step]; split
      · exact ⟨v.answer, v.gone, v.pushed, v.local_, v.have_, v.full, v.from_, v.calls⟩
      · exact v
    | tick =>
      simp only [step, tmoStep]
      cases s.tmo with
      | call =>
        refine ⟨v.answer, v.gone, v.pushed, v.local_, v.have_, v.full, v.from_, ?_⟩
        intro c hc
        rcases List.mem_append.mp hc with hc | hc
        · exact v.calls c hc
        · simp at hc
      | idle => exact v
      | load => exact ⟨v.answer, v.gone, v.pushed, v.local_, v.have_, v.full, v.from_, v.calls⟩
      | erase => exact ⟨v.answer, v.gone, v.pushed, v.local_, v.have_, v.full, v.from_, v.calls⟩
      | done => exact v

/-! Errors -/

structure Errs (s : St) : Prop where
  err : ∀ l, .err l ∈ s.calls → s.timer = .fired
  tmo : s.tmo ≠ .idle → s.timer = .fired
  ok : ∀ c, .ok c ∈ s.calls → (s.asker = .done ∧ s.asked = none ∧ s.timer = .unset) ∨ s.timer = .cleared ∨ s.timer = .fired
  resolve : ∀ t ∈ s.ths, t.pc = .resolve → s.timer = .cleared ∨ s.timer = .fired
  unset : s.asker = .count ∨ s.asker = .timer → s.timer = .unset
  direct : s.asker = .done → s.asked = none → s.timer = .unset

theorem errs_run (h : List Ev) : Errs (run kind here h) := by
  induction h using snocRec with
  | nil => constructor <;> simp [run]
  | append_singleton h e ih =>
    have i := inv_run (kind := kind) (here := here) h
    rw [run_snoc]
    generalize run kind here h = s at *
    cases e with
    | ask =>
      simp only [step, askStep]
      cases ha : s.asker with
      | count =>
        have hu := ih.unset (.inl ha)
        have hA := i.unset (.inl ha)
        dsimp only
        split
        · refine ⟨?_, ih.tmo, ?_, ih.resolve, by simp, fun _ _ => hu⟩
          · intro l hl
            rcases List.mem_append.mp hl with hl | hl
            · exact ih.err l hl
            · simp at hl
          · exact fun _ _ => .inl ⟨rfl, hA, hu⟩
        · refine ⟨ih.err, ih.tmo, ?_, ih.resolve, fun _ => hu, by simp⟩
          intro c hc
          rcases ih.ok c hc with h | h
          · rw [ha] at h; exact absurd h.1 (by simp)
          · exact .inr h
      | timer =>
        have hu := ih.unset (.inr ha)
        refine ⟨?_, ?_, ?_, ?_, by simp, by simp⟩
        · intro l hl; have := ih.err l hl; rw [hu] at this; cases this
        · intro h; have := ih.tmo h; rw [hu] at this; cases this
        · intro c hc
          rcases ih.ok c hc with h | h | h
          · rw [ha] at h; exact absurd h.1 (by simp)
          · rw [hu] at h; cases h
          · rw [hu] at h; cases h
        · intro t ht hp
          rcases ih.resolve t ht hp with h | h <;> rw [hu] at h <;> cases h
      | keys =>
        refine ⟨ih.err, ih.tmo, ?_, ih.resolve, by simp, by simp⟩
        intro c hc
        rcases ih.ok c hc with h | h
        · rw [ha] at h; exact absurd h.1 (by simp)
        · exact .inr h
      | store =>
        refine ⟨ih.err, ih.tmo, ?_, ih.resolve, by simp, by simp⟩
        intro c hc
        rcases ih.ok c hc with h | h
        · rw [ha] at h; exact absurd h.1 (by simp)
        · exact .inr h
      | publish =>
        have hA := i.asked (.inr ha)
        refine ⟨ih.err, ih.tmo, ?_, ih.resolve, by simp, fun _ h => absurd h hA⟩
        intro c hc
        rcases ih.ok c hc with h | h
        · rw [ha] at h; exact absurd h.1 (by simp)
        · exact .inr h
      | done => simpa [ha] using ih
    | arrive u => exact ⟨ih.err, ih.tmo, ih.ok, ih.resolve, ih.unset, ih.direct⟩
    | respond u l =>
      simp only [step]
      split
      · refine ⟨ih.err, ih.tmo, ih.ok, ?_, ih.unset, ih.direct⟩
        intro t ht hp
        rcases List.mem_append.mp ht with ht | ht
        · exact ih.resolve t ht hp
        · cases List.mem_singleton.mp ht; cases hp
      · exact ih
    | leave u =>
      refine ⟨ih.err, ih.tmo, ih.ok, ?_, ih.unset, ih.direct⟩
      intro t ht hp
      rcases List.mem_append.mp ht with ht | ht
      · exact ih.resolve t ht hp
      · cases List.mem_singleton.mp ht; cases hp
    | adv k =>
      simp only [step]
      cases hk : s.ths[k]? with
      | none => exact ih
      | some t =>
        dsimp only
        have hm : t ∈ s.ths := List.mem_of_getElem? hk
        have hres : ∀ pc, pc ≠ .resolve → ∀ u ∈ s.ths.set k { t with pc := pc }, u.pc = .resolve → s.timer = .cleared ∨ s.timer = .fired := by
          intro pc hne u hu hp
          rcases mem_set_th hk hu with rfl | hu
          · exact absurd hp hne
          · exact ih.resolve u hu hp
        cases hp : t.pc with
        | load =>
          simp only [advance]
          refine ⟨ih.err, ih.tmo, ih.ok, hres _ ?_, ih.unset, ih.direct⟩
          split
          · cases t.answer <;> simp
          · exact (rest_ne _).2.1
        | push => simp only [advance]; exact ⟨ih.err, ih.tmo, ih.ok, hres _ (by simp), ih.unset, ih.direct⟩
        | delete => simp only [advance]; exact ⟨ih.err, ih.tmo, ih.ok, hres _ (by simp), ih.unset, ih.direct⟩
        | check =>
          simp only [advance]
          refine ⟨ih.err, ih.tmo, ih.ok, hres _ ?_, ih.unset, ih.direct⟩
          split
          · simp
          · exact (rest_ne _).2.1
        | clear =>
          simp only [advance]
          have hl : Lodged s := i.busy t hm (by simp [Busy, hp])
          have hnu := i.armed (.inr (.inr hl))
          have hnd : ¬ (s.asker = .done ∧ s.asked = none) := by
            rintro ⟨h1, h2⟩
            rcases hl with hl | hl
            · rw [hl] at h1; cases h1
            · exact hl.2 h2
          have hset : ∀ T : Timer, T = s.timer → (if T = .armed then Timer.cleared else T) = .cleared ∨ (if T = .armed then Timer.cleared else T) = .fired := by
            rintro T rfl
            cases hT : s.timer <;> simp_all
          refine ⟨?_, ?_, ?_, ?_, ?_, fun h1 h2 => absurd ⟨h1, h2⟩ hnd⟩
          · intro l hl; have := ih.err l hl; simp [this]
          · intro h; have := ih.tmo h; simp [this]
          · intro c hc; exact .inr (hset _ rfl)
          · intro u hu hpu; exact hset _ rfl
          · intro h; exact absurd (ih.unset h) hnu
        | resolve =>
          simp only [advance]
          refine ⟨?_, ih.tmo, ?_, hres _ (by simp), ih.unset, ih.direct⟩
          · intro l hl
            rcases List.mem_append.mp hl with hl | hl
            · exact ih.err l hl
            · simp at hl
          · exact fun _ _ => .inr (ih.resolve t hm hp)
        | erase => simp only [advance]; exact ⟨ih.err, ih.tmo, ih.ok, hres _ (rest_ne _).2.1, ih.unset, ih.direct⟩
        | forget => simp only [advance]; exact ⟨ih.err, ih.tmo, ih.ok, hres _ (by simp), ih.unset, ih.direct⟩
        | done => simp only [advance]; exact ⟨ih.err, ih.tmo, ih.ok, hres _ (by simp), ih.unset, ih.direct⟩
    | fire =>
      simp only [step]
      split
      · rename_i ha
        refine ⟨fun _ _ => rfl, fun _ => rfl, fun _ _ => .inr (.inr rfl), fun _ _ _ => .inr rfl, ?_, ?_⟩
        · intro h; have := ih.unset h; rw [ha] at this; cases this
        · intro h1 h2; have := ih.direct h1 h2; rw [ha] at this; cases this
      · exact ih
    | tick =>
      simp only [step, tmoStep]
      cases ht : s.tmo with
      | idle => exact ih
      | load =>
        have := ih.tmo (by simp [ht])
        exact ⟨ih.err, fun _ => this, ih.ok, ih.resolve, ih.unset, ih.direct⟩
      | call =>
        have := ih.tmo (by simp [ht])
        refine ⟨fun _ _ => this, fun _ => this, ?_, ih.resolve, ih.unset, ih.direct⟩
        intro c hc
        rcases List.mem_append.mp hc with hc | hc
        · exact ih.ok c hc
        · simp at hc
      | erase =>
        have := ih.tmo (by simp [ht])
        exact ⟨ih.err, fun _ => this, ih.ok, ih.resolve, ih.unset, ih.direct⟩
      | done => exact ih

/-- The timer went off at some moment. -/
theorem fired_at (h : List Ev) (hf : (run kind here h).timer = .fired) :
    ∃ a b, h = a ++ .fire :: b ∧ (run kind here a).timer = .armed := by
  induction h using snocRec with
  | nil => cases hf
  | append_singleton h e ih =>
    by_cases h1 : (run kind here h).timer = .fired
    · obtain ⟨a, b, rfl, h2⟩ := ih h1
      exact ⟨a, b ++ [e], by simp, h2⟩
    · rw [run_snoc] at hf
      cases e with
      | fire =>
        by_cases ha : (run kind here h).timer = .armed
        · exact ⟨h, [], rfl, ha⟩
        · simp only [step, if_neg ha] at hf; exact absurd hf h1
      | ask =>
        exfalso
        simp only [step, askStep] at hf
        cases ha : (run kind here h).asker <;> simp only [ha] at hf
        · split at hf <;> exact h1 hf
        · cases hf
        all_goals exact h1 hf
      | arrive u => exact absurd hf h1
      | respond u l => simp only [step] at hf; split at hf <;> exact absurd hf h1
      | leave u => exact absurd hf h1
      | adv k =>
        simp only [step] at hf
        cases hk : (run kind here h).ths[k]? with
        | none => rw [hk] at hf; exact absurd hf h1
        | some t =>
          simp only [hk] at hf
          cases hp : t.pc <;> simp only [hp, advance] at hf <;> try exact absurd hf h1
          split at hf
          · cases hf
          · exact absurd hf h1
      | tick =>
        simp only [step, tmoStep] at hf
        cases ht : (run kind here h).tmo <;> simp only [ht] at hf <;> exact absurd hf h1

theorem error_at (h : List Ev) (l : List Val) (he : .err l ∈ (run kind here h).calls) :
    ∃ a b, h = a ++ .fire :: b ∧ ∀ c, .ok c ∉ (run kind here a).calls := by
  obtain ⟨a, b, hab, ha⟩ := fired_at h ((errs_run h).err l he)
  refine ⟨a, b, hab, fun c hc => ?_⟩
  rcases (errs_run a).ok c hc with ⟨-, -, h1⟩ | h1 | h1 <;> rw [ha] at h1 <;> cases h1

/-! At most one call -/

structure Once (s : St) : Prop where
  count : s.asker = .count → s.tmo = .idle ∧ s.timer = .unset
  timer : s.asker = .timer → s.tmo = .idle ∧ s.timer = .unset
  tcall : s.tmo = .call → Lodged s
  calls : s.calls = [] ∨ (s.calls.length = 1 ∧ (s.asker = .publish ∨ s.asker = .done) ∧ (∀ t ∈ s.ths, InHand t → t.pc = .erase) ∧
    s.tmo ≠ .call ∧ (s.stored = true → (∃ t ∈ s.ths, t.pc = .erase) ∨ s.tmo = .erase))

theorem once_step {s : St} (i : Inv s) (f : Errs s) (o : Once s) (e : Ev) (hx : OneInHand s) (hx' : OneInHand (step kind here s e)) :
    Once (step kind here s e) := by
  cases e with
  | ask =>
    have hb := i.busy
    have hst := i.stored
    simp only [step, askStep]
    cases ha : s.asker with
    | count =>
      have hl : ¬ Lodged s := by simp [Lodged, ha]
      by_cases hn : s.nodes.length = 0
      · simp only [if_pos hn]
        have hc := o.calls
        refine ⟨by simp, by simp, ?_, .inr ⟨?_, .inr rfl, ?_, ?_, ?_⟩⟩
        · intro h; have := (o.count ha).1; simp [this] at h
        · rcases hc with hc | ⟨_, h2, _⟩
          · simp [hc]
          · simp [ha] at h2
        · intro t ht hh; exact absurd (hb t ht hh) hl
        · simp [(o.count ha).1]
        · intro h; exact absurd (hst h) hl
      · simp only [if_neg hn]
        refine ⟨by simp, fun _ => o.count ha, ?_, ?_⟩
        · intro h; have := (o.count ha).1; simp [this] at h
        · rcases o.calls with hc | ⟨_, h2, _⟩
          · exact .inl hc
          · simp [ha] at h2
    | timer =>
      refine ⟨by simp, by simp, ?_, ?_⟩
      · intro h; have := (o.timer ha).1; simp [this] at h
      · rcases o.calls with hc | ⟨_, h2, _⟩
        · exact .inl hc
        · simp [ha] at h2
    | keys =>
      refine ⟨by simp, by simp, ?_, ?_⟩
      · intro h; have := o.tcall h; simp [Lodged, ha] at this
      · rcases o.calls with hc | ⟨_, h2, _⟩
        · exact .inl hc
        · simp [ha] at h2
    | store =>
      refine ⟨by simp, by simp, ?_, ?_⟩
      · intro h; have := o.tcall h; simp [Lodged, ha] at this
      · rcases o.calls with hc | ⟨_, h2, _⟩
        · exact .inl hc
        · simp [ha] at h2
    | publish =>
      refine ⟨by simp, by simp, ?_, ?_⟩
      · intro _; exact .inr ⟨rfl, i.asked (.inr ha)⟩
      · rcases o.calls with hc | ⟨h1, h2, h3⟩
        · exact .inl hc
        · exact .inr ⟨h1, .inr rfl, h3⟩
    | done => exact o
  | arrive u => exact ⟨o.count, o.timer, o.tcall, o.calls⟩
  | respond u l =>
    simp only [step]
    by_cases ha : s.asker = .done
    · rw [if_pos ha]
      refine ⟨o.count, o.timer, o.tcall, ?_⟩
      rcases o.calls with hc | ⟨h1, h2, h3, h4, h5⟩
      · exact .inl hc
      · refine .inr ⟨h1, h2, ?_, h4, ?_⟩
        · intro t ht hh
          rcases List.mem_append.mp ht with ht | ht
          · exact h3 t ht hh
          · simp at ht; subst ht; exact absurd rfl hh.1
        · intro h
          rcases h5 h with ⟨t, ht, hp⟩ | h
          · exact .inl ⟨t, List.mem_append_left _ ht, hp⟩
          · exact .inr h
    · rw [if_neg ha]; exact o
  | leave u =>
    simp only [step]
    refine ⟨o.count, o.timer, o.tcall, ?_⟩
    rcases o.calls with hc | ⟨h1, h2, h3, h4, h5⟩
    · exact .inl hc
    · refine .inr ⟨h1, h2, ?_, h4, ?_⟩
      · intro t ht hh
        rcases List.mem_append.mp ht with ht | ht
        · exact h3 t ht hh
        · simp at ht; subst ht; exact absurd rfl hh.1
      · intro h
        rcases h5 h with ⟨t, ht, hp⟩ | h
        · exact .inl ⟨t, List.mem_append_left _ ht, hp⟩
        · exact .inr h
  | adv k =>
    cases hk : s.ths[k]? with
    | none => simp only [step, hk]; exact o
    | some t =>
      have hm := List.mem_of_getElem? hk
      have hsame := advance_same s t.uid t.answer t.pc
      have key : ∀ u, u ∈ s.ths.set k { t with pc := (advance s t.uid t.answer t.pc).2 } →
          u = { t with pc := (advance s t.uid t.answer t.pc).2 } ∨ ∃ j, j ≠ k ∧ s.ths[j]? = some u := by
        intro u hu
        obtain ⟨j, hj⟩ := List.mem_iff_getElem?.mp hu
        by_cases hjk : k = j
        · subst hjk
          rw [List.getElem?_set] at hj
          simp at hj
          exact .inl hj.2.symm
        · rw [List.getElem?_set_ne hjk] at hj
          exact .inr ⟨j, fun h => hjk h.symm, hj⟩
      have keep : ∀ u, u ∈ s.ths → u ≠ t → u ∈ s.ths.set k { t with pc := (advance s t.uid t.answer t.pc).2 } := by
        intro u hu hne
        obtain ⟨j, hj⟩ := List.mem_iff_getElem?.mp hu
        have hjk : k ≠ j := by
          rintro rfl
          rw [hk] at hj; exact hne (by cases hj; rfl)
        exact List.mem_iff_getElem?.mpr ⟨j, by rw [List.getElem?_set_ne hjk]; exact hj⟩
      have self : ({ t with pc := (advance s t.uid t.answer t.pc).2 } : Th) ∈ s.ths.set k { t with pc := (advance s t.uid t.answer t.pc).2 } := by
        have hlt : k < s.ths.length := by
          rcases Nat.lt_or_ge k s.ths.length with h | h
          · exact h
          · rw [List.getElem?_eq_none h] at hk; cases hk
        exact List.mem_set hlt _
      have htimer : (advance s t.uid t.answer t.pc).1.timer = .unset ∨ True := .inr trivial
      simp only [step, hk] at hx' ⊢
      have hlod : ∀ s' : St, s'.asker = s.asker → s'.asked = s.asked → (Lodged s' ↔ Lodged s) := fun s' h1 h2 => lodged_of_eq h1 h2
      have hcnt : s.asker = .count ∨ s.asker = .timer → (advance s t.uid t.answer t.pc).1.timer = .unset := by
        intro h
        have hu : s.timer = .unset := by
          rcases h with h | h
          · exact (o.count h).2
          · exact (o.timer h).2
        cases t.pc <;> simp [advance, hu]
      refine ⟨?_, ?_, ?_, ?_⟩
      · intro h
        have h' : s.asker = .count := by rw [← hsame.1]; exact h
        exact ⟨by show (advance s t.uid t.answer t.pc).1.tmo = _; rw [hsame.2.2.1]; exact (o.count h').1, hcnt (.inl h')⟩
      · intro h
        have h' : s.asker = .timer := by rw [← hsame.1]; exact h
        exact ⟨by show (advance s t.uid t.answer t.pc).1.tmo = _; rw [hsame.2.2.1]; exact (o.timer h').1, hcnt (.inr h')⟩
      · intro h
        have h' : s.tmo = .call := by rw [← hsame.2.2.1]; exact h
        exact (hlod _ hsame.1 hsame.2.1).mpr (o.tcall h')
      · cases hpc : t.pc with
        | load =>
          rcases o.calls with hc | ⟨h1, h2, h3, h4, h5⟩
          · exact .inl (by simp [advance, hc])
          · right
            by_cases hs : s.stored = true
            · exfalso
              have hih : InHand { t with pc := (advance s t.uid t.answer t.pc).2 } := by
                simp only [advance, hpc, hs, if_true]
                cases t.answer <;> simp [InHand]
              rcases h5 hs with ⟨u, hu, hp⟩ | h
              · have hut : u ≠ t := by rintro rfl; rw [hp] at hpc; cases hpc
                obtain ⟨j, hj⟩ := List.mem_iff_getElem?.mp (keep u hu hut)
                obtain ⟨j', hj'⟩ := List.mem_iff_getElem?.mp self
                have := hx'.1 j j' _ _ hj hj' (by simp [InHand, hp]) hih
                subst this
                rw [hj] at hj'
                cases hj'
                obtain ⟨m, hm'⟩ := List.mem_iff_getElem?.mp hu
                simp only [advance, hpc, hs, if_true] at hp
                cases ha : t.answer <;> simp [ha] at hp
              · exact (hx'.2 _ self hih).2 (by show (advance s t.uid t.answer t.pc).1.tmo = _; rw [hsame.2.2.1]; exact h)
            · simp only [advance, hs]
              refine ⟨h1, h2, ?_, h4, fun h => by simp at h⟩
              intro u hu hh
              rcases mem_set_th hk hu with rfl | hu
              · exact absurd hh (by have := rest_idle t.answer; simpa [InHand, Busy] using this)
              · exact h3 u hu hh
        | resolve =>
          have hih : InHand t := by simp [InHand, hpc]
          have hl := i.busy t hm hih
          right
          have hc : s.calls = [] := by
            rcases o.calls with hc | ⟨_, _, h3, _⟩
            · exact hc
            · have := h3 t hm hih; rw [hpc] at this; cases this
          rw [hpc] at self key
          refine ⟨by simp [advance, hc], ?_, ?_, ?_, ?_⟩
          · rcases hl with h | ⟨h, _⟩
            · exact .inl h
            · exact .inr h
          · intro u hu hh
            rcases key u hu with rfl | ⟨j, hj, hju⟩
            · rfl
            · exact absurd (hx.1 j k u t hju hk hh hih) hj
          · exact (hx.2 t hm hih).1
          · intro _
            exact .inl ⟨_, self, rfl⟩
        | erase =>
          rcases o.calls with hc | ⟨h1, h2, h3, h4, h5⟩
          · exact absurd hc (i.erase t hm hpc)
          · right
            refine ⟨h1, h2, ?_, h4, fun h => by simp [advance] at h⟩
            intro u hu hh
            rcases mem_set_th hk hu with rfl | hu
            · exact absurd hh (by have := rest_idle t.answer; simpa [InHand, Busy, advance] using this)
            · exact h3 u hu hh
        | forget =>
          rcases o.calls with hc | ⟨h1, h2, h3, h4, h5⟩
          · exact .inl hc
          · right
            rw [hpc] at keep
            refine ⟨h1, h2, ?_, h4, ?_⟩
            · intro u hu hh
              rcases mem_set_th hk hu with rfl | hu
              · exact absurd rfl hh.2.2
              · exact h3 u hu hh
            · intro h
              rcases h5 h with ⟨u, hu, hp⟩ | h
              · exact .inl ⟨u, keep u hu (by rintro rfl; rw [hp] at hpc; cases hpc), hp⟩
              · exact .inr h
        | done =>
          rcases o.calls with hc | ⟨h1, h2, h3, h4, h5⟩
          · exact .inl hc
          · right
            rw [hpc] at keep
            refine ⟨h1, h2, ?_, h4, ?_⟩
            · intro u hu hh
              rcases mem_set_th hk hu with rfl | hu
              · exact absurd rfl hh.2.2
              · exact h3 u hu hh
            · intro h
              rcases h5 h with ⟨u, hu, hp⟩ | h
              · exact .inl ⟨u, keep u hu (by rintro rfl; rw [hp] at hpc; cases hpc), hp⟩
              · exact .inr h
        | push | delete | check | clear =>
          rcases o.calls with hc | ⟨h1, h2, h3, h4, h5⟩
          · exact .inl hc
          · have := h3 t hm (by simp [InHand, hpc]); rw [hpc] at this; cases this
  | fire =>
    simp only [step]
    by_cases ht : s.timer = .armed
    · rw [if_pos ht]
      refine ⟨?_, ?_, by simp, ?_⟩
      · intro h; have := (o.count h).2; rw [ht] at this; cases this
      · intro h; have := (o.timer h).2; rw [ht] at this; cases this
      · rcases o.calls with hc | ⟨h1, h2, h3, h4, h5⟩
        · exact .inl hc
        · refine .inr ⟨h1, h2, h3, by simp, ?_⟩
          intro h
          rcases h5 h with h | h
          · exact .inl h
          · have := f.tmo (by simp [h]); rw [ht] at this; cases this
    · rw [if_neg ht]; exact o
  | tick =>
    simp only [step, tmoStep] at hx' ⊢
    cases hm : s.tmo with
    | idle => exact o
    | done => exact o
    | load =>
      simp only [hm] at hx'
      refine ⟨?_, ?_, ?_, ?_⟩
      · intro h; have := (o.count h).1; rw [hm] at this; cases this
      · intro h; have := (o.timer h).1; rw [hm] at this; cases this
      · intro h
        by_cases hs : s.stored = true
        · exact i.stored hs
        · simp [hs] at h
      · rcases o.calls with hc | ⟨h1, h2, h3, h4, h5⟩
        · exact .inl hc
        · by_cases hs : s.stored = true
          · exfalso
            rcases h5 hs with ⟨u, hu, hp⟩ | h
            · exact (hx'.2 u hu (by simp [InHand, hp])).1 (by simp [hs])
            · rw [hm] at h; cases h
          · refine .inr ⟨h1, h2, h3, by simp [hs], fun h => absurd h hs⟩
    | call =>
      have hl := o.tcall hm
      refine ⟨?_, ?_, by simp, .inr ⟨?_, ?_, ?_, by simp, fun _ => .inr rfl⟩⟩
      · intro h; have := (o.count h).1; rw [hm] at this; cases this
      · intro h; have := (o.timer h).1; rw [hm] at this; cases this
      · rcases o.calls with hc | ⟨_, _, _, h4, _⟩
        · simp [hc]
        · exact absurd hm h4
      · rcases hl with h | ⟨h, _⟩
        · exact .inl h
        · exact .inr h
      · intro t ht hh
        exact absurd hm (hx.2 t ht hh).1
    | erase =>
      refine ⟨?_, ?_, by simp, ?_⟩
      · intro h; have := (o.count h).1; rw [hm] at this; cases this
      · intro h; have := (o.timer h).1; rw [hm] at this; cases this
      · rcases o.calls with hc | ⟨h1, h2, h3, h4, h5⟩
        · exact .inl hc
        · exact .inr ⟨h1, h2, h3, by simp, by simp⟩

theorem once_run (h : List Ev) (hx : NoOverlap kind here h) : Once (run kind here h) := by
  induction h using snocRec with
  | nil => exact ⟨by simp [run], by simp [run], by simp [run], .inl (by simp [run])⟩
  | append_singleton h e ih =>
    have hxe := hx (h ++ [e]) [] (by simp)
    rw [run_snoc] at hxe ⊢
    exact once_step (inv_run h) (errs_run h) (ih fun a b hab => hx a (b ++ [e]) (by rw [hab, List.append_assoc])) e (hx h [e] rfl) hxe

theorem at_most_once (h : List Ev) (hx : NoOverlap kind here h) : (run kind here h).calls.length ≤ 1 := by
  rcases (once_run h hx).calls with h | h
  · simp [h]
  · omega

end Verif.AskRace
