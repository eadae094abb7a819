import Verif.Spec.AskSeq
import Verif.Proof.Heartbeat
import Verif.Proof.Turns

/-! The steps of a call that nobody interrupts do what the call does. -/

namespace Verif.AskRace
open Verif Verif.Spec Verif.Heartbeat

variable {kind : Kind} {here : List Val}

/-- The two states say the same of request `id`. -/
structure SameAsk (kind : Kind) (id : Nat) (s : St) (t : Heartbeat.St) : Prop where
  nodes : ∀ u, u ∈ s.nodes ↔ u ∈ t.nodes.keys
  calls : requestCalls id t.calls = s.calls
  entry : s.stored = true → ∃ m, t.custom.get? id = some ⟨kind, m, s.responses⟩ ∧ ∀ u, u ∈ m ↔ u ∈ s.missing
  gone : s.stored = false → t.custom.get? id = none
  timer : s.stored = true ↔ s.timer = .armed
  asker : s.asker = .count ∧ s.stored = false ∨ s.asker = .done
  tmo : s.tmo = .idle ∨ s.tmo = .done

theorem empty_iff {α : Type} {a b : List α} (h : ∀ u, u ∈ a ↔ u ∈ b) : a.length = 0 ↔ b.length = 0 := by
  simp only [List.length_eq_zero_iff, List.eq_nil_iff_forall_not_mem]
  exact forall_congr' fun u => not_congr (h u)

theorem run_append (h h' : List Ev) : run kind here (h ++ h') = h'.foldl (step kind here) (run kind here h) := by simp [run]

theorem step_last (s : St) (T : List Th) (t : Th) (h : s.ths = T ++ [t]) :
    step kind here s (.adv T.length) =
      { (advance s t.uid t.answer t.pc).1 with ths := T ++ [{ t with pc := (advance s t.uid t.answer t.pc).2 }] } := by
  simp only [step, h, last_get, last_set]

theorem same_ask {id : Nat} {s : St} {t : Heartbeat.St} (i : SameAsk kind id s t) (hc : s.asker = .count) :
    SameAsk kind id ((List.replicate 6 Ev.ask).foldl (step kind here) s) (request t id kind here) := by
  obtain ⟨i1, i2, i3, i4, i5, i6, i7⟩ := i
  have hst : s.stored = false := by rcases i6 with h | h; exact h.2; rw [hc] at h; cases h
  have hk : t.nodes.length = t.nodes.keys.length := by simp [FMap.keys]
  by_cases h0 : s.nodes.length = 0
  · have e : (List.replicate 6 Ev.ask).foldl (step kind here) s = { s with calls := s.calls ++ [.ok here], asker := .done } := by
      simp [List.replicate, step, askStep, hc, h0]
    have h0' : t.nodes.length = 0 := by rw [hk]; exact (empty_iff i1).1 h0
    rw [e, request, if_pos h0']
    refine ⟨i1, ?_, fun h => absurd h (by simp [hst]), i4, i5, .inr rfl, i7⟩
    rw [requestCalls_snoc, if_pos rfl, i2]
  · have e : (List.replicate 6 Ev.ask).foldl (step kind here) s =
        { s with timer := .armed, missing := s.nodes, responses := here, asked := some s.nodes, stored := true, asker := .done } := by
      have h0' : ¬ s.nodes = [] := by simpa using h0
      simp [List.replicate, step, askStep, hc, h0']
    have h0' : ¬ t.nodes.length = 0 := by rw [hk]; exact fun h => h0 ((empty_iff i1).2 h)
    rw [e, request, if_neg h0']
    exact ⟨i1, i2, fun _ => ⟨_, FMap.get?_insert_self _ _ _, fun u => (i1 u).symm⟩, fun h => (by cases h), by simp, .inr rfl, i7⟩

theorem same_timer {id : Nat} {s : St} {t : Heartbeat.St} (i : SameAsk kind id s t) :
    SameAsk kind id ((Ev.fire :: List.replicate 3 Ev.tick).foldl (step kind here) s) (Heartbeat.timeout t id) := by
  obtain ⟨i1, i2, i3, i4, i5, i6, i7⟩ := i
  by_cases hs : s.stored = true
  · have ha := i5.1 hs
    obtain ⟨m, hm, _⟩ := i3 hs
    have e : (Ev.fire :: List.replicate 3 Ev.tick).foldl (step kind here) s =
        { s with timer := .fired, calls := s.calls ++ [.err (if kind = .sse then s.responses else [])], stored := false, tmo := .done } := by
      simp [List.replicate, step, tmoStep, ha, hs]
    rw [e]
    simp only [Heartbeat.timeout, hm]
    refine ⟨i1, ?_, fun h => (by cases h), fun _ => FMap.get?_erase_self _ _, by simp, ?_, .inr rfl⟩
    · rw [requestCalls_snoc, if_pos rfl, i2]
      cases kind <;> rfl
    · rcases i6 with h | h
      · rw [h.2] at hs; cases hs
      · exact .inr h
  · have hs' : s.stored = false := by simpa using hs
    have ha : ¬ s.timer = .armed := fun h => hs (i5.2 h)
    have e : Heartbeat.timeout t id = t := by simp only [Heartbeat.timeout, i4 hs']
    rw [e]
    have e' : (Ev.fire :: List.replicate 3 Ev.tick).foldl (step kind here) s = s := by
      rcases i7 with h | h <;> simp [List.replicate, step, tmoStep, ha, h]
    rw [e']
    exact ⟨i1, i2, i3, i4, i5, i6, i7⟩

/-- What the two sorts of call do to a request they find. -/
theorem found_steps (s : St) (T : List Th) (u : Uid) (a : Option (List Val)) (hs : s.stored = true) (ht : s.ths = T ++ [⟨u, a, .load⟩]) :
    (List.replicate 8 (Ev.adv T.length)).foldl (step kind here) s =
      if (LSet.del s.missing u).length = 0 then
        { s with responses := s.responses ++ a.getD [], missing := LSet.del s.missing u, timer := if s.timer = .armed then .cleared else s.timer,
                 calls := s.calls ++ [.ok (s.responses ++ a.getD [])], stored := false,
                 nodes := if a = none then LSet.del s.nodes u else s.nodes, ths := T ++ [⟨u, a, .done⟩] }
      else
        { s with responses := s.responses ++ a.getD [], missing := LSet.del s.missing u,
                 nodes := if a = none then LSet.del s.nodes u else s.nodes, ths := T ++ [⟨u, a, .done⟩] } := by
  obtain ⟨nodes, asker, asked, stored, missing, responses, timer, tmo, ths, calls⟩ := s
  simp only at hs ht
  subst hs ht
  by_cases h0 : LSet.del missing u = []
  · cases a <;> simp [List.replicate, step, advance, rest, h0]
  · cases a <;> simp [List.replicate, step, advance, rest, h0]

/-- … and when there is none. -/
theorem lost_steps (s : St) (T : List Th) (u : Uid) (a : Option (List Val)) (hs : s.stored = false) (ht : s.ths = T ++ [⟨u, a, .load⟩]) :
    (List.replicate 8 (Ev.adv T.length)).foldl (step kind here) s =
      { s with nodes := if a = none then LSet.del s.nodes u else s.nodes, ths := T ++ [⟨u, a, .done⟩] } := by
  obtain ⟨nodes, asker, asked, stored, missing, responses, timer, tmo, ths, calls⟩ := s
  simp only at hs ht
  subst hs ht
  cases a <;> simp [List.replicate, step, advance, rest]

/-- A request that an answer or a departure has dealt with. -/
theorem same_found {id : Nat} {s s' : St} {t t' : Heartbeat.St} (i : SameAsk kind id s t) (u : Uid) (a : Option (List Val)) (T : List Th)
    (h1 : s'.nodes = s.nodes) (h2 : s'.calls = s.calls) (h3 : s'.stored = s.stored) (h4 : s'.missing = s.missing)
    (h5 : s'.responses = s.responses) (h6 : s'.timer = s.timer) (h7 : s'.asker = s.asker) (h8 : s'.tmo = s.tmo)
    (ht : s'.ths = T ++ [⟨u, a, .load⟩]) (hn : ∀ w, w ∈ t'.nodes.keys ↔ (if a = none then w ≠ u else True) ∧ w ∈ t.nodes.keys)
    (hv : view id t' = answerView u (a.getD []) (view id t)) :
    SameAsk kind id ((List.replicate 8 (Ev.adv T.length)).foldl (step kind here) s') t' := by
  obtain ⟨i1, i2, i3, i4, i5, i6, i7⟩ := i
  have hn' : ∀ w, w ∈ (if a = none then LSet.del s'.nodes u else s'.nodes) ↔ w ∈ t'.nodes.keys := by
    intro w
    rw [hn, h1]
    split
    · rw [LSet.mem_del, i1]
    · simp [i1]
  have hc' : requestCalls id t'.calls = (view id t').2 := rfl
  have hg' : t'.custom.get? id = (view id t').1 := rfl
  by_cases hs : s.stored = true
  · obtain ⟨m, hm, hmm⟩ := i3 hs
    have hmu : ∀ w, w ∈ LSet.del m u ↔ w ∈ LSet.del s'.missing u := by intro w; simp only [LSet.mem_del, hmm, h4]
    have hdone : s.asker = .done := by
      rcases i6 with h | h
      · rw [h.2] at hs; cases hs
      · exact h
    rw [found_steps s' T u a (h3.trans hs) ht]
    have hve : view id t' = drop u (some ⟨kind, m, s.responses ++ a.getD []⟩, s.calls) := by
      rw [hv]
      simp only [view, hm, i2, answerView]
    by_cases h0 : (LSet.del s'.missing u).length = 0
    · rw [if_pos h0]
      have h0' : (LSet.del m u).length = 0 := (empty_iff hmu).2 h0
      rw [hve, drop, if_pos h0'] at hc' hg'
      refine ⟨hn', ?_, fun h => (by cases h), fun _ => hg', ?_, .inr (h7.trans hdone), by simpa only [h8] using i7⟩
      · rw [hc', h2, h5]
      · simp only [h6, i5.1 hs]
        simp
    · rw [if_neg h0]
      have h0' : ¬ (LSet.del m u).length = 0 := fun h => h0 ((empty_iff hmu).1 h)
      rw [hve, drop, if_neg h0'] at hc' hg'
      refine ⟨hn', ?_, fun _ => ⟨_, ?_, hmu⟩, fun h => ?_, ?_, .inr (h7.trans hdone), by simpa only [h8] using i7⟩
      · rw [hc', h2]
      · rw [hg', h5]
      · rw [h3, hs] at h; cases h
      · simp only [h3, h6]; exact i5
  · have hs' : s.stored = false := by simpa using hs
    rw [lost_steps s' T u a (h3.trans hs') ht]
    have hve : view id t' = (none, s.calls) := by
      rw [hv]
      simp only [view, i4 hs', i2, answerView]
    rw [hve] at hc' hg'
    refine ⟨hn', ?_, fun h => ?_, fun _ => hg', ?_, ?_, by simpa only [h8] using i7⟩
    · rw [hc', h2]
    · rw [h3, hs'] at h; cases h
    · simp only [h3, h6]; exact i5
    · simp only [h7, h3]; exact i6

theorem same_answer {id : Nat} {s : St} {t : Heartbeat.St} (i : SameAsk kind id s t) (u : Uid) (r : Resp) (l : List Val) (hb : Brings id r l) :
    SameAsk kind id ((Ev.respond u l :: List.replicate 8 (.adv s.ths.length)).foldl (step kind here) s) (onResponse t u r) := by
  have hr : onResponse t u r = answer t u id l := by
    cases r with
    | fetch q x => obtain ⟨rfl, rfl⟩ := hb; rfl
    | sse q x => obtain ⟨rfl, rfl⟩ := hb; rfl
    | clientCount q n => exact hb.elim
    | ack q p => exact hb.elim
  rw [hr, List.foldl_cons]
  by_cases hd : s.asker = .done
  · refine same_found i u (some l) s.ths ?_ ?_ ?_ ?_ ?_ ?_ ?_ ?_ ?_ ?_ ?_ <;> try (simp only [step, if_pos hd])
    · intro w; rw [answer_nodes]; simp
    · rw [answer_view, if_pos rfl]; rfl
  · have hst : s.stored = false := by rcases i.asker with h | h; exact h.2; exact absurd h hd
    have e1 : step kind here s (.respond u l) = s := by simp only [step, if_neg hd]
    have e2 : ∀ n, (List.replicate n (Ev.adv s.ths.length)).foldl (step kind here) s = s := by
      intro n
      induction n with
      | zero => rfl
      | succ n ih =>
        rw [List.replicate_succ, List.foldl_cons]
        have : step kind here s (.adv s.ths.length) = s := by simp [step]
        rw [this, ih]
    rw [e1, e2]
    have e3 : answer t u id l = t := by simp only [answer, i.gone hst]
    rw [e3]; exact i

theorem same_leave {id : Nat} {s : St} {t : Heartbeat.St} (i : SameAsk kind id s t) (self u : Uid) (now : Nat) (hu : u ≠ self) :
    SameAsk kind id ((Ev.leave u :: List.replicate 8 (.adv s.ths.length)).foldl (step kind here) s) (onMessage self t u .close now) := by
  rw [List.foldl_cons]
  have hv0 : ∀ t0 : Heartbeat.St, view id t0 = view id t → view id (removeNode t0 u) = answerView u [] (view id t) := by
    intro t0 h0
    rw [removeNode_view, h0]
    cases hg : view id t with
    | mk q c => cases q <;> simp [answerView, drop]
  refine same_found i u none s.ths ?_ ?_ ?_ ?_ ?_ ?_ ?_ ?_ ?_ ?_ ?_ <;> try (simp only [step])
  · intro w
    simp only [onMessage, if_neg hu, if_true]
    rw [removeNode_nodes, FMap.mem_keys_erase]
    split
    · rw [FMap.mem_keys_insert]
      constructor
      · rintro ⟨h1, h2 | h2⟩
        · exact absurd h2 h1
        · exact ⟨h1, h2⟩
      · exact fun h => ⟨h.1, .inr h.2⟩
    · rfl
  · simp only [onMessage, if_neg hu]
    apply hv0
    split <;> rfl

theorem same_other {id : Nat} {s : St} {t : Heartbeat.St} (i : SameAsk kind id s t) (self : Uid) (T : Nat) (e : Heartbeat.Ev)
    (he : AnotherRequest id e) : SameAsk kind id s (Heartbeat.step self T t e) := by
  have key : ∀ t', t'.nodes = t.nodes → view id t' = view id t → SameAsk kind id s t' := by
    intro t' h1 h2
    have hc : requestCalls id t'.calls = requestCalls id t.calls := congrArg Prod.snd h2
    have hg : t'.custom.get? id = t.custom.get? id := congrArg Prod.fst h2
    exact ⟨by rw [h1]; exact i.nodes, hc.trans i.calls, by rw [hg]; exact i.entry, by rw [hg]; exact i.gone, i.timer, i.asker, i.tmo⟩
  cases e with
  | message u m now => exact he.elim
  | cleanup now o => exact he.elim
  | request j k l =>
    refine key _ (request_nodes _ _ _ _) ?_
    simp only [Heartbeat.step, request, view]
    have he : j ≠ id := he
    split
    · simp [requestCalls_snoc, he]
    · simp [FMap.get?_insert_ne he]
  | timeout j =>
    refine key _ (timeout_nodes _ _) ?_
    have he : j ≠ id := he
    simp only [Heartbeat.step, Heartbeat.timeout, view]
    split
    · rfl
    · simp [FMap.get?_erase_ne he, requestCalls_snoc, he]
  | response u r =>
    refine key _ (onResponse_nodes _ _ _) ?_
    cases r with
    | fetch j x => have he : j ≠ id := he; simp only [Heartbeat.step, onResponse, answer_view, if_neg he]
    | sse j x => have he : j ≠ id := he; simp only [Heartbeat.step, onResponse, answer_view, if_neg he]
    | clientCount j n => simp only [Heartbeat.step, onResponse, onResponseBase]; split <;> rfl
    | ack j p => simp only [Heartbeat.step, onResponse, onResponseBase]; split <;> rfl

theorem same_hear {id : Nat} {s : St} {t : Heartbeat.St} (i : SameAsk kind id s t) (self u : Uid) (now : Nat) (hu : u ≠ self)
    (he : u ≠ EMITTER) : SameAsk kind id (step kind here s (.arrive u)) (onMessage self t u .heartbeat now) := by
  simp only [onMessage, if_neg hu, if_pos he, step]
  refine ⟨fun w => ?_, i.calls, i.entry, i.gone, i.timer, i.asker, i.tmo⟩
  rw [LSet.mem_add, FMap.mem_keys_insert, i.nodes]

theorem inTurn_same {self : Uid} {id : Nat} {h : List Ev} {es : List Heartbeat.Ev} (T : Nat) (t : AskInTurn self id kind here h es) :
    SameAsk kind id (run kind here h) (Heartbeat.run self T es) := by
  induction t with
  | nil => exact ⟨by simp [run, Heartbeat.run, FMap.keys], rfl, fun h => (by cases h), fun _ => rfl, by simp [run], .inl ⟨rfl, rfl⟩, .inl rfl⟩
  | hear u now hu he _ ih => rw [run_append, Heartbeat.run_snoc]; exact same_hear (here := here) ih self u now hu he
  | ask hc _ ih => rw [run_append, Heartbeat.run_snoc]; exact same_ask ih hc
  | answer u r l hb _ ih => rw [run_append, Heartbeat.run_snoc]; exact same_answer ih u r l hb
  | leave u now hu _ ih => rw [run_append, Heartbeat.run_snoc]; exact same_leave ih self u now hu
  | timer _ ih => rw [run_append, Heartbeat.run_snoc]; exact same_timer ih
  | other e he _ ih => rw [Heartbeat.run_snoc]; exact same_other ih self T e he

end Verif.AskRace
