import Verif.Proof.InboundRoute

/-! Callbacks of acknowledgements, for any packets the client sends. -/

namespace Verif.Inbound
open Verif Verif.Spec

/-- The callback is in the table. -/
def waits (s : St) (ref id : Nat) : Bool := (((s.socks[ref]?).map (·.acks)).getD []).any (·.1 == id)

/-- Answers given and answers that can still be given. -/
def due (s : St) (ref id : Nat) : Nat := s.log.countP (isAnswer ref id) + if waits s ref id then 1 else 0

theorem due_of {s s' : St} {ref id : Nat} (h1 : s'.log.countP (isAnswer ref id) = s.log.countP (isAnswer ref id))
    (h2 : waits s' ref id = waits s ref id) : due s' ref id = due s ref id := by rw [due, due, h1, h2]

theorem due_out (s : St) (ref id : Nat) (o : Obs) (h : isAnswer ref id o = false) : due (out s o) ref id = due s ref id :=
  due_of (by simp [out, h]) rfl

theorem waits_setSock (s : St) (r ref id : Nat) (f : Sock → Sock) :
    waits (setSock s r f) ref id =
      if r = ref then (((s.socks[ref]?).map (fun k => (f k).acks)).getD []).any (·.1 == id) else waits s ref id := by
  unfold waits setSock
  rw [List.getElem?_modify]
  split
  · cases s.socks[ref]? <;> rfl
  · simp

theorem due_setSock_same (s : St) (r ref id : Nat) (f : Sock → Sock) (hf : ∀ k, (f k).acks = k.acks) :
    due (setSock s r f) ref id = due s ref id := by
  refine due_of rfl ?_
  rw [waits_setSock]; split
  · simp only [hf]; rfl
  · rfl

theorem any_other {β} (l : List (Nat × β)) (i id : Nat) (h : i ≠ id) :
    (l.any fun a => a.1 != i && a.1 == id) = l.any fun a => a.1 == id := by
  induction l with
  | nil => rfl
  | cons a l ih =>
    rw [List.any_cons, List.any_cons, ih]
    congr 1
    by_cases h1 : a.1 = id
    · have h2 : a.1 ≠ i := fun h' => h (h'.symm.trans h1)
      rw [(bne_iff_ne).2 h2, Bool.true_and]
    · have : (a.1 == id) = false := by simpa using h1
      rw [this, Bool.and_false]

theorem waits_remove (s : St) (r ref i id : Nat) :
    waits (setSock s r (fun k => { k with acks := k.acks.filter (·.1 != i) })) ref id = (waits s ref id && !(r == ref && i == id)) := by
  rw [waits_setSock]
  split
  · rename_i h
    subst h
    unfold waits
    cases s.socks[r]? with
    | none => simp
    | some k =>
      simp only [Option.map_some, Option.getD_some, List.any_filter, beq_self_eq_true, Bool.true_and]
      generalize k.acks = l
      by_cases h2 : i = id
      · subst h2
        simp
      · have h3 : (i == id) = false := by simpa using h2
        rw [h3, Bool.not_false, Bool.and_true]
        exact any_other l i id h2
  · rename_i h
    simp [h]

theorem due_remove (s : St) (r ref i id : Nat) :
    due (setSock s r (fun k => { k with acks := k.acks.filter (·.1 != i) })) ref id ≤ due s ref id := by
  unfold due
  rw [waits_remove]
  have : (setSock s r (fun k => { k with acks := k.acks.filter (·.1 != i) })).log = s.log := rfl
  rw [this]
  cases waits s ref id <;> simp
  split <;> omega

theorem due_onclose (s : St) (r ref id : Nat) (reason : String) : due (onclose s r reason) ref id = due s ref id := by
  unfold onclose; split
  · rw [due_out _ _ _ _ rfl]
    show due (setSock (out s _) _ _) _ _ = _
    exact (due_setSock_same (out s _) r ref id ({ · with connected := false }) (fun _ => rfl)).trans (due_out _ _ _ _ rfl)
  · rfl

theorem due_clientOnclose (s : St) (ref id : Nat) (reason : String) : due (clientOnclose s reason) ref id = due s ref id := by
  unfold clientOnclose
  have h0 : due { s with listening := false } ref id = due s ref id := rfl
  rw [← h0]
  generalize { s with listening := false } = s0
  generalize List.range s.socks.length = l
  induction l generalizing s0 with
  | nil => rfl
  | cons a l ih => rw [List.foldl_cons, ih, due_onclose]

theorem due_onerror (s : St) (ref id : Nat) : due (onerror s) ref id = due s ref id := by
  unfold onerror
  rw [due_out _ _ _ _ rfl]
  generalize List.range s.socks.length = l
  generalize s = s0
  induction l generalizing s0 with
  | nil => rfl
  | cons a l ih =>
    rw [List.foldl_cons, ih]
    split
    · exact due_out _ _ _ _ rfl
    · rfl

theorem lookup_any {β} (l : List (Nat × β)) (id : Nat) (b : β) (h : l.lookup id = some b) : l.any (·.1 == id) = true := by
  induction l with
  | nil => cases h
  | cons a l ih =>
    obtain ⟨x, y⟩ := a
    rw [List.lookup_cons] at h
    by_cases hx : id == x
    · simp only [beq_iff_eq] at hx; simp [hx]
    · simp only [hx] at h
      simp [ih h]

theorem due_onack (s : St) (r ref id : Nat) (p : Packet) : due (onack s r p) ref id ≤ due s ref id := by
  unfold onack; split
  · exact Nat.le_refl _
  · rename_i i _
    split
    · exact Nat.le_refl _
    · rename_i f hl
      have hw : waits s r i = true := lookup_any _ _ _ hl
      have key : ∀ args, due (setSock (out s (.answered r i args)) r (fun k => { k with acks := k.acks.filter (·.1 != i) })) ref id ≤
          due s ref id := by
        intro args
        unfold due
        rw [waits_remove]
        have e1 : (setSock (out s (.answered r i args)) r (fun k => { k with acks := k.acks.filter (·.1 != i) })).log =
          s.log ++ [.answered r i args] := rfl
        have e2 : waits (out s (.answered r i args)) ref id = waits s ref id := rfl
        rw [e1, e2, List.countP_append]
        by_cases h : r = ref ∧ i = id
        · obtain ⟨rfl, rfl⟩ := h
          simp [isAnswer, hw]
        · have hb : (r == ref && i == id) = false := by
            rw [Bool.and_eq_false_iff]
            by_cases h' : r = ref
            · exact .inr (by simpa using fun e => h ⟨h', e⟩)
            · exact .inl (by simpa using h')
          have hs : isAnswer ref id (.answered r i args) = false := hb
          rw [hb]
          simp [hs]
      split
      · cases f with
        | plain => exact key _
        | single =>
          show due (setSock (answerSingle s r i _) _ _) _ _ ≤ _
          unfold answerSingle; split
          · exact key _
          · exact due_remove (panic s) r ref i id
          · exact due_remove s r ref i id
      · exact Nat.le_refl _

theorem due_task (s : St) (k : Nat) (ok : Bool) (ref id : Nat) : due (runTask s k ok) ref id ≤ due s ref id := by
  have ev : ∀ s r p, due (onevent s r p) ref id = due s ref id := by
    intro s r p
    unfold onevent; split
    · rename_i l _
      have hd : ∀ s r args, due (dispatch s r args) ref id = due s ref id := by
        intro s r args
        unfold dispatch; split <;> rfl
      exact (hd _ _ _).trans (due_out s ref id (.catchAll r _) rfl)
    · rfl
  unfold runTask; split
  · rename_i r p _
    have h0 : due { s with tasks := s.tasks.set k none } ref id = due s ref id := rfl
    rw [← h0]
    unfold onpacket; split
    · exact Nat.le_of_eq (ev _ _ _)
    · exact Nat.le_of_eq (ev _ _ _)
    · exact due_onack _ _ _ _ _
    · exact due_onack _ _ _ _ _
    · exact Nat.le_of_eq (due_onclose _ _ _ _ _)
    · exact Nat.le_refl _
    · exact Nat.le_refl _
  · have h0 : due { s with tasks := s.tasks.set k none } ref id = due s ref id := rfl
    rw [← h0]
    unfold deliver; split
    · exact Nat.le_of_eq (due_out _ _ _ _ rfl)
    · split
      · split <;> exact Nat.le_refl _
      · exact Nat.le_refl _
  · have h0 : due { s with tasks := s.tasks.set k none } ref id = due s ref id := rfl
    rw [← h0]
    exact Nat.le_of_eq (due_out _ _ _ _ rfl)
  · exact Nat.le_refl _
  · exact Nat.le_refl _

theorem due_step (s : St) (e : Ev) (ref id : Nat) :
    due (step s e) ref id ≤ due s ref id + if asksAck ref id e then 1 else 0 := by
  have le : ∀ {a}, a ≤ due s ref id → a ≤ due s ref id + if asksAck ref id e then 1 else 0 := fun h => Nat.le_trans h (Nat.le_add_right _ _)
  unfold step; split
  · exact le (Nat.le_refl _)
  · split
    · have hc : due (clientClose s) ref id = due s ref id := by
        unfold clientClose; rw [due_clientOnclose]; exact due_out _ _ _ _ rfl
      split
      · unfold ondecoded; split
        · split
          · exact le (Nat.le_of_eq (due_out _ _ _ _ rfl))
          · exact le (Nat.le_of_eq hc)
        · split
          · exact le (Nat.le_of_eq hc)
          · exact le (Nat.le_refl _)
      · exact le (Nat.le_refl _)
    · rename_i nsp
      refine le (Nat.le_of_eq (due_of rfl ?_))
      unfold waits
      by_cases hr : ref < s.socks.length
      · rw [List.getElem?_append_left hr]
      · rw [List.getElem?_append_right (by omega), List.getElem?_eq_none (l := s.socks) (by omega)]
        cases ref - s.socks.length <;> simp
    · exact le (due_task _ _ _ _ _)
    · exact le (Nat.le_of_eq (due_setSock_same _ _ _ _ _ fun _ => rfl))
    · rename_i r i single
      show _ ≤ _ + if (r == ref && i == id) then 1 else 0
      unfold due
      rw [waits_setSock]
      have e1 : ∀ f, (setSock s r f).log = s.log := fun _ => rfl
      rw [e1]
      by_cases hr : r = ref
      · subst hr
        by_cases hi : i = id
        · subst hi
          simp only [if_true, beq_self_eq_true, Bool.and_self]
          split <;> split <;> omega
        · rw [if_pos rfl]
          have : (((s.socks[r]?).map (fun k => (i, if single = true then AckFn.single else AckFn.plain) :: k.acks.filter (·.1 != i))).getD
            []).any (·.1 == id) = waits s r id := by
            unfold waits
            cases s.socks[r]? with
            | none => rfl
            | some k =>
              simp only [Option.map_some, Option.getD_some, List.any_cons, List.any_filter]
              have : (i == id) = false := by simpa using hi
              rw [this, Bool.false_or]
              exact any_other _ _ _ hi
          rw [this]
          split <;> omega
      · rw [if_neg hr]
        split <;> omega
    · exact le (due_remove _ _ _ _ _)
    · exact le (Nat.le_of_eq (due_onclose _ _ _ _ _))
    · split
      · exact le (Nat.le_of_eq (due_onerror _ _ _))
      · exact le (Nat.le_refl _)
    · split
      · exact le (Nat.le_of_eq (due_clientOnclose _ _ _ _))
      · exact le (Nat.le_refl _)

theorem due_run (h : List Ev) (ref id : Nat) : due (run h) ref id ≤ h.countP (asksAck ref id) := by
  induction h using snocRec with
  | nil => simp [run, due, waits]
  | append_singleton h e ih =>
    rw [run_snoc, List.countP_append]
    have := due_step (run h) e ref id
    have e1 : List.countP (asksAck ref id) [e] = if asksAck ref id e then 1 else 0 := by
      rw [List.countP_cons]; simp
    rw [e1]; omega

end Verif.Inbound
