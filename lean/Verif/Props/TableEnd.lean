import Verif.Proof.TableEnd
import Verif.Props.SessRace
import Verif.Props.NodeRace
import Verif.Props.Settle

/-! # C110, C111: what is out of date is gone in the end -/

namespace Verif.Props
open Verif Verif.Spec

/-- **C111**: if the time of all that was saved under a private id is up when the timer fires, nothing is kept for it in the end, for good,
unless another session is saved under it. -/
theorem C111_cleaned_in_the_end (max pid : Nat) (p : List SessRace.Ev) (order : List Nat) (listed : pid ∈ order)
    (old : ∀ h₁, h₁ <+: p → ∀ n t, SessSaved max h₁ pid n t → t + max < (SessRace.run max p).now) (σ : Nat → SessRace.Ev)
    (quiet : ∀ m, SessQuiet max pid (p ++ [.timer order]) (firstOf σ m)) (fair : AgainAndAgain (.adv (SessRace.run max p).tasks.length) σ) :
    ∃ m, ∀ m', m ≤ m' → (SessRace.run max (p ++ .timer order :: firstOf σ m')).tab pid = none := by
  obtain ⟨m, hm⟩ := Returns.often _ σ fair (2 * order.length + 1)
  refine ⟨m, fun m' hm' => ?_⟩
  have e : SessRace.run max (p ++ .timer order :: firstOf σ m') =
      (firstOf σ m').foldl (SessRace.step max) (SessRace.step max (SessRace.run max p) (.timer order)) := by simp [SessRace.run]
  have h0 : (SessRace.step max (SessRace.run max p) (.timer order)).tasks[(SessRace.run max p).tasks.length]? = some (.clean order) := by
    simp [SessRace.step]
  obtain ⟨b, hb, hl⟩ := Returns.sess_ends max _ _ _ h0 (firstOf σ m') (hm m' hm')
  obtain ⟨c, hc, hs⟩ := Returns.sweeps_fold max (firstOf σ m') _ _ ⟨_, h0, trivial⟩
  rw [hb] at hc
  cases hc
  cases b with
  | visit st l =>
    cases l with
    | nil => exact C111_cleaned max pid p order _ listed old (quiet m') st (by rw [e]; exact hb)
    | cons w l => simp [Returns.sessLeft] at hl
  | clean o => simp [Returns.sessLeft] at hl
  | sweep x y z => simp [Returns.sessLeft] at hl
  | _ => exact hs.elim

/-- The hypotheses are met: a session saved at 0 and kept for 10, the timer at 11, and from then on time passes and the clean-up goes on. -/
example :
    let p : List SessRace.Ev := [.persist 7 1, .adv 0, .adv 0, .tick 6, .persist 8 2, .adv 1, .adv 1, .tick 5]
    let σ : Nat → SessRace.Ev := fun n => if n % 2 = 0 then .tick 1 else .adv 2
    (∀ h₁, h₁ <+: p → ∀ n t, SessSaved 10 h₁ 7 n t → t + 10 < (SessRace.run 10 p).now) ∧
      (∀ m, SessQuiet 10 7 (p ++ [.timer [7, 8]]) (firstOf σ m)) ∧ AgainAndAgain (.adv (SessRace.run 10 p).tasks.length) σ := by
  refine ⟨?_, ?_, fun n => ⟨2 * n + 1, by omega, ?_⟩⟩
  · refine sess_prefixes _ fun j hj n t hr => ?_
    have := sess_saved 10 _ 7 n t hr
    have h3 : j = 3 := by clear hr; revert this; revert j; decide
    subst h3
    obtain ⟨a, k, e, hk⟩ := (SessRace.saved_iff 10 _ _ _ _).1 hr
    have e' : a ++ [.adv k] = [.persist 7 1, .adv 0] ++ [.adv 0] := e.symm
    obtain ⟨rfl, he⟩ := List.append_inj' e' rfl
    obtain rfl : k = 0 := by simpa using he
    have h4 : (SessRace.run 10 [.persist 7 1, .adv 0]).tasks[0]? = some (.store 7 1 0) := by decide
    rw [h4] at hk
    cases hk
    decide
  · intro m q₁ hq hne n t hs
    obtain ⟨a, k, e, hk⟩ := (SessRace.saved_iff 10 _ _ _ _).1 hs
    obtain ⟨q₂, x, rfl⟩ : ∃ q₂ x, q₁ = q₂ ++ [x] := ⟨_, _, (List.dropLast_concat_getLast hne).symm⟩
    rw [← List.append_assoc] at e
    obtain ⟨rfl, he⟩ := List.append_inj' e rfl
    obtain rfl : x = .adv k := by simpa using he
    have hx : SessRace.Ev.adv k ∈ firstOf (fun n => if n % 2 = 0 then SessRace.Ev.tick 1 else .adv 2) m := hq.subset (by simp)
    obtain rfl : k = 2 := by
      obtain ⟨i, _, hi⟩ := List.mem_map.1 hx
      split at hi
      · cases hi
      · injection hi with hi; exact hi.symm
    obtain ⟨b, hb, hc⟩ := Returns.sweeps_fold 10 q₂ (SessRace.run 10 ([.persist 7 1, .adv 0, .adv 0, .tick 6, .persist 8 2, .adv 1, .adv 1, .tick 5] ++
      [.timer [7, 8]])) 2 ⟨.clean [7, 8], by decide, trivial⟩
    rw [SessRace.run, List.foldl_append] at hk
    rw [SessRace.run, hk] at hb
    cases hb
    exact hc
  · have : ¬ (2 * n + 1) % 2 = 0 := by omega
    simp only [this]
    rfl

/-- **C110**: a server all of whose recorded messages are older than the timeout when a clean-up begins is not counted in the end, and not again
until a message of it is recorded. -/
theorem C110_forgotten_in_the_end (T u : Nat) (p : List NodeRace.Ev) (order : List Nat) (listed : u ∈ order)
    (old : ∀ h₁, h₁ <+: p → ∀ t, NodeRecordedAt T h₁ u t → t + T < (NodeRace.run T p).now) (σ : Nat → NodeRace.Ev)
    (silent : ∀ m, NodeSilent T u (p ++ [.clean order]) (firstOf σ m)) (fair : AgainAndAgain (.onClean (NodeRace.run T p).cleans.length) σ) :
    ∃ m, ∀ m', m ≤ m' → ¬ nodeCounted (NodeRace.run T (p ++ .clean order :: firstOf σ m')) u := by
  obtain ⟨m, hm⟩ := Returns.often _ σ fair (2 * order.length + 1)
  refine ⟨m, fun m' hm' => ?_⟩
  have e : NodeRace.run T (p ++ .clean order :: firstOf σ m') =
      (firstOf σ m').foldl (NodeRace.step T) (NodeRace.step T (NodeRace.run T p) (.clean order)) := by simp [NodeRace.run]
  have h0 : (NodeRace.step T (NodeRace.run T p) (.clean order)).cleans[(NodeRace.run T p).cleans.length]? = some (.start order) := by
    simp [NodeRace.step]
  obtain ⟨n, hn⟩ := Returns.clean_ends T _ _ _ h0 (firstOf σ m') (hm m' hm')
  exact C110_forgotten T u p order _ listed old (silent m') n (by rw [e]; exact hn)

/-- The hypotheses are met: a server last heard of at 0 with a timeout of 10, a clean-up at 11, and from then on time passes and the clean-up goes
on. -/
example :
    let p : List NodeRace.Ev := [.msg 7 false, .onMsg 0, .onMsg 0, .tick 6, .msg 8 false, .onMsg 1, .onMsg 1, .tick 5]
    let σ : Nat → NodeRace.Ev := fun n => if n % 2 = 0 then .tick 1 else .onClean 0
    (∀ h₁, h₁ <+: p → ∀ t, NodeRecordedAt 10 h₁ 7 t → t + 10 < (NodeRace.run 10 p).now) ∧
      (∀ m, NodeSilent 10 7 (p ++ [.clean [7, 8]]) (firstOf σ m)) ∧ AgainAndAgain (.onClean (NodeRace.run 10 p).cleans.length) σ := by
  refine ⟨?_, ?_, fun n => ⟨2 * n + 1, by omega, ?_⟩⟩
  · refine node_prefixes _ fun j hj t hr => ?_
    have := node_recorded 10 _ 7 ⟨t, hr⟩
    have h3 : j = 3 := by clear hr; revert this; revert j; decide
    subst h3
    obtain ⟨a, k, m, e, hk, _, hpc⟩ := (NodeRace.recordedAt_iff 10 _ _ _).1 hr
    have e' : a ++ [.onMsg k] = [.msg 7 false, .onMsg 0] ++ [.onMsg 0] := e.symm
    obtain ⟨rfl, he⟩ := List.append_inj' e' rfl
    obtain rfl : k = 0 := by simpa using he
    have h4 : (NodeRace.run 10 [.msg 7 false, .onMsg 0]).msgs[0]? = some { uid := 7, close := false, pc := .store 0 } := by decide
    rw [h4] at hk
    cases hk
    cases hpc
    decide
  · rintro m q₁ hq hne ⟨t, a, b, k, y, e, _⟩
    obtain ⟨q₂, x, rfl⟩ : ∃ q₂ x, q₁ = q₂ ++ [x] := ⟨_, _, (List.dropLast_concat_getLast hne).symm⟩
    rw [← List.append_assoc] at e
    obtain ⟨_, he⟩ := List.append_inj' e rfl
    obtain rfl : x = .onMsg k := by simpa using he
    have hx : NodeRace.Ev.onMsg k ∈ firstOf (fun n => if n % 2 = 0 then NodeRace.Ev.tick 1 else .onClean 0) m := hq.subset (by simp)
    obtain ⟨i, _, hi⟩ := List.mem_map.1 hx
    split at hi <;> cases hi
  · have : ¬ (2 * n + 1) % 2 = 0 := by omega
    simp only [this]
    rfl

/-- **C110**, partial: if no other message of the server is recorded during or after that (`C110_ghost_fails`).  A server that says that it
closes is not counted in the end. -/
theorem C110_closed_in_the_end_partial (T u : Nat) (p : List NodeRace.Ev) (σ : Nat → NodeRace.Ev)
    (last : ∀ n j m t, (NodeRace.run T (p ++ .msg u true :: firstOf σ n)).msgs[j]? = some m → m.uid = u → m.pc = .store t → σ n = .onMsg j →
      j = (NodeRace.run T p).msgs.length)
    (fair : AgainAndAgain (.onMsg (NodeRace.run T p).msgs.length) σ) :
    ∃ m, ∀ m', m ≤ m' → ¬ nodeCounted (NodeRace.run T (p ++ .msg u true :: firstOf σ m')) u := by
  obtain ⟨m, hm⟩ := Returns.often _ σ fair 3
  refine ⟨m, fun m' hm' => ?_⟩
  have e : NodeRace.run T (p ++ .msg u true :: firstOf σ m') =
      (firstOf σ m').foldl (NodeRace.step T) (NodeRace.step T (NodeRace.run T p) (.msg u true)) := by simp [NodeRace.run]
  have h0 : (NodeRace.step T (NodeRace.run T p) (.msg u true)).msgs[(NodeRace.run T p).msgs.length]? =
      some { uid := u, close := true } := by simp [NodeRace.step]
  obtain ⟨x, hx, hd⟩ := Returns.msg_ends T _ _ _ h0 (firstOf σ m') (hm m' hm')
  refine C110_closed_partial T u p _ ?_ x (by rw [e]; exact hx) hd
  intro q₁ j y t hpre hy hu hs
  have hlen : q₁.length + 1 ≤ m' := by
    have := hpre.length_le
    simpa [firstOf] using this
  have hq : q₁ ++ [.onMsg j] = firstOf σ (q₁.length + 1) := by
    have h2 : firstOf σ (q₁.length + 1) <+: firstOf σ m' := by
      obtain ⟨d, rfl⟩ := Nat.exists_eq_add_of_le hlen
      rw [Acks.firstOf_add _ (q₁.length + 1) d]; exact List.prefix_append _ _
    have := List.prefix_of_prefix_length_le hpre h2 (by simp [firstOf])
    exact this.eq_of_length (by simp [firstOf])
  rw [Returns.firstOf_succ] at hq
  obtain ⟨hq1, hq2⟩ := List.append_inj' hq rfl
  refine last q₁.length j y t (by rw [← hq1]; exact hy) hu hs ?_
  simpa using hq2.symm

/-- The hypotheses are met: a server that is known and says that it closes, while time passes. -/
example :
    let p : List NodeRace.Ev := [.msg 7 false, .onMsg 0, .onMsg 0]
    let σ : Nat → NodeRace.Ev := fun n => if n % 2 = 0 then .tick 1 else .onMsg 1
    (∀ n j m t, (NodeRace.run 10 (p ++ .msg 7 true :: firstOf σ n)).msgs[j]? = some m → m.uid = 7 → m.pc = .store t → σ n = .onMsg j →
      j = (NodeRace.run 10 p).msgs.length) ∧ AgainAndAgain (.onMsg (NodeRace.run 10 p).msgs.length) σ ∧ nodeCounted (NodeRace.run 10 p) 7 := by
  refine ⟨?_, fun n => ⟨2 * n + 1, by omega, ?_⟩, by unfold nodeCounted; decide⟩
  · intro n j m t _ _ _ h
    simp only at h
    split at h
    · cases h
    · injection h with h; exact h.symm
  · have : ¬ (2 * n + 1) % 2 = 0 := by omega
    simp only [this]
    rfl

end Verif.Props
