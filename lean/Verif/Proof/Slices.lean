import Verif.Spec.Slices
import Verif.Lib.ListExtra

/-! Invariants of the model of slices. -/

namespace Verif.Slices
open Verif Verif.Spec

variable {spare : Nat → Nat}

theorem put_length {l : List Val} {i : Nat} {xs : List Val} (h : i + xs.length ≤ l.length) : (put l i xs).length = l.length := by
  simp only [put, List.length_append, List.length_take, List.length_drop]; omega

theorem put_get {l : List Val} {i : Nat} {xs : List Val} (h : i ≤ l.length) (j : Nat) :
    (put l i xs)[j]? = if j < i then l[j]? else if j < i + xs.length then xs[j - i]? else l[j]? := by
  simp only [put, List.getElem?_append, List.length_append, List.length_take, Nat.min_eq_left h, List.getElem?_drop, List.getElem?_take]
  by_cases h1 : j < i
  · simp [h1, show j < i + xs.length by omega]
  · by_cases h2 : j < i + xs.length
    · simp [h1, h2]
    · simp [h1, h2, show i + xs.length + (j - (i + xs.length)) = j by omega]

theorem cells_get (mem : Nat → List Val) (a : Slice) (i : Nat) : (cells mem a)[i]? = if i < a.len then (mem a.arr)[a.off + i]? else none := by
  simp only [cells, List.getElem?_take, List.getElem?_drop]

theorem cells_congr {m m' : Nat → List Val} (a : Slice) (h : m' a.arr = m a.arr) : cells m' a = cells m a := by
  simp only [cells, h]

theorem write_mem (s : St) (arr i : Nat) (xs : List Val) (x : Nat) : (s.write arr i xs).mem x = if x = arr then put (s.mem arr) i xs else s.mem x := rfl

theorem alloc_mem (s : St) (l : List Val) (extra x : Nat) :
    (s.alloc l extra).mem x = if x = s.next then l ++ List.replicate extra blank else s.mem x := rfl

theorem fresh_cells (s : St) (l : List Val) (extra : Nat) : cells (s.alloc l extra).mem (s.fresh l extra) = l := by
  simp [cells, St.fresh, alloc_mem]

/-- The slice lies in its array. -/
def Valid (s : St) (a : Slice) : Prop := a.arr < s.next ∧ a.len ≤ a.cap ∧ (a.cap = 0 ∨ a.off + a.cap ≤ (s.mem a.arr).length)

theorem valid_mono {s s' : St} (hn : s.next ≤ s'.next) (hm : ∀ x, x < s.next → (s'.mem x).length = (s.mem x).length) {a : Slice} (h : Valid s a) :
    Valid s' a := by
  obtain ⟨h1, h2, h3⟩ := h
  exact ⟨by omega, h2, by rw [hm _ h1]; exact h3⟩

theorem fresh_valid (s : St) (l : List Val) (extra : Nat) : Valid (s.alloc l extra) (s.fresh l extra) := by
  refine ⟨Nat.lt_succ_self _, Nat.le_add_right _ _, .inr ?_⟩
  simp [St.fresh, alloc_mem]

/-- What `append` does. -/
structure AppendFacts (s : St) (a : Slice) (x : Val) (s' : St) (b : Slice) : Prop where
  next : s.next ≤ s'.next
  size : ∀ y, y < s.next → (s'.mem y).length = (s.mem y).length
  valid : Valid s' b
  where' : b.arr = a.arr ∧ a.len < a.cap ∨ b.arr = s.next ∧ ¬ a.len < a.cap
  keeps : ∀ y, y < s.next → (y = a.arr → ¬ a.len < a.cap) → s'.mem y = s.mem y
  cells : cells s'.mem b = cells s.mem a ++ [x]
  rest : s'.own = s.own ∧ s'.held = s.held ∧ s'.ths = s.ths ∧ s'.seen = s.seen ∧ s'.sent = s.sent ∧ s'.callbacks = s.callbacks ∧
    s'.stored = s.stored ∧ s'.replayed = s.replayed ∧ s'.fired = s.fired ∧ s'.panicked = s.panicked

theorem append_facts (s : St) (a : Slice) (x : Val) (ha : Valid s a) :
    AppendFacts s a x (s.append spare a x).1 (s.append spare a x).2 := by
  obtain ⟨h1, h2, h3⟩ := ha
  unfold St.append
  by_cases hc : a.len < a.cap
  · have h3' : a.off + a.cap ≤ (s.mem a.arr).length := by rcases h3 with h | h <;> omega
    rw [if_pos hc]
    refine ⟨Nat.le_refl _, fun y _ => ?_, ⟨h1, by simp only; omega, .inr ?_⟩, .inl ⟨rfl, hc⟩, fun y _ hy => ?_, ?_, ?_⟩
    · rw [write_mem]; split
      · rename_i e; rw [e, put_length (by simp; omega)]
      · rfl
    · simp only [write_mem, if_true]; rw [put_length (by simp; omega)]; exact h3'
    · rw [write_mem, if_neg]
      intro e; exact hy e hc
    · apply List.ext_getElem?
      intro i
      have hl : (Slices.cells s.mem a).length = a.len := by simp only [Slices.cells, List.length_take, List.length_drop]; omega
      rw [cells_get, List.getElem?_append, hl, cells_get]
      simp only [write_mem, if_true]
      rw [put_get (by omega)]
      by_cases h5 : i < a.len
      · simp [h5, show i < a.len + 1 by omega]
      · by_cases h6 : i = a.len
        · subst h6; simp
        · have : ¬ i < a.len + 1 := by omega
          simp only [this, h5, if_false]
          symm; rw [List.getElem?_eq_none_iff]; simp; omega
    · exact ⟨rfl, rfl, rfl, rfl, rfl, rfl, rfl, rfl, rfl, rfl⟩
  · rw [if_neg hc]
    refine ⟨Nat.le_succ _, fun y hy => ?_, fresh_valid _ _ _, .inr ⟨rfl, hc⟩, fun y hy _ => ?_, fresh_cells _ _ _,
      ⟨rfl, rfl, rfl, rfl, rfl, rfl, rfl, rfl, rfl, rfl⟩⟩
    · rw [alloc_mem, if_neg (by omega)]
    · rw [alloc_mem, if_neg (by omega)]

/-- All the numbers in the logs are of goroutines. -/
structure LogsOk (s : St) : Prop where
  seen : ∀ p ∈ s.seen, p.1 < s.ths.length
  sent : ∀ p ∈ s.sent, p.1 < s.ths.length
  fired : ∀ p ∈ s.fired, p.1 < s.ths.length
  callbacks : ∀ p ∈ s.callbacks, p.1 < s.ths.length
  stored : ∀ p ∈ s.stored, p.1 < s.ths.length
  replayed : ∀ p ∈ s.replayed, p.1 < s.ths.length

/-- The invariant. -/
structure Inv (s : St) : Prop where
  own : ∀ a ∈ s.own, a < s.next
  held : ∀ a ∈ s.held, Valid s a
  ths : ∀ t ∈ s.ths, Valid s t.data
  logs : LogsOk s

theorem LogsOk.mono {s s' : St} (h : LogsOk s) (hl : s.ths.length ≤ s'.ths.length) (h6 : s'.seen = s.seen) (h7 : s'.sent = s.sent)
    (h8 : s'.fired = s.fired) (h9 : ∃ l, s'.callbacks = s.callbacks ++ l ∧ ∀ p ∈ l, p.1 < s'.ths.length) (h10 : s'.stored = s.stored)
    (h11 : ∀ p ∈ s'.replayed, p.1 < s'.ths.length) : LogsOk s' := by
  refine ⟨fun p hp => ?_, fun p hp => ?_, fun p hp => ?_, fun p hp => ?_, fun p hp => ?_, h11⟩
  · exact Nat.lt_of_lt_of_le (h.seen p (h6 ▸ hp)) hl
  · exact Nat.lt_of_lt_of_le (h.sent p (h7 ▸ hp)) hl
  · exact Nat.lt_of_lt_of_le (h.fired p (h8 ▸ hp)) hl
  · obtain ⟨l, h9, hl'⟩ := h9
    rw [h9] at hp
    rcases List.mem_append.mp hp with hp | hp
    · exact Nat.lt_of_lt_of_le (h.callbacks p hp) hl
    · exact hl' p hp
  · exact Nat.lt_of_lt_of_le (h.stored p (h10 ▸ hp)) hl

theorem plan_settled (kind : Kind) (ack : Bool) (c : Kind) : Act.copy c ∉ plan kind ack := by
  cases kind with
  | direct n => simp [plan, List.mem_replicate]
  | cast id n => cases ack <;> cases id <;> simp [plan, List.mem_replicate]

theorem plan_early (kind : Kind) (ack : Bool) (a : Act) (rest : List Act) (h : plan kind ack = a :: rest) (id : String) : Act.store id ∉ rest := by
  cases kind with
  | direct n =>
    have hm : Act.store id ∉ plan (.direct n) ack := by simp [plan, List.mem_replicate]
    rw [h] at hm; exact fun h => hm (List.mem_cons_of_mem _ h)
  | cast o n =>
    cases ack <;> cases o <;> simp [plan] at h <;> obtain ⟨-, rfl⟩ := h <;> simp [List.mem_replicate]

/-- What `enter` does. -/
structure EnterFacts (s : St) (k : Nat) (kind : Kind) (ev : String) (args : List Val) (s' : St) (t : Th) : Prop where
  next : s'.next = s.next + 1
  keeps : ∀ y, y < s.next → s'.mem y = s.mem y
  arr : t.data.arr = s.next
  valid : Valid s' t.data
  cells : cells s'.mem t.data = .str ev :: withoutAck args
  plan : t.todo = plan kind (callbackIn args).isSome
  callbacks : s'.callbacks = s.callbacks ++ (callbackIn args).toList.map (k, ·)
  rest : s'.own = s.own ∧ s'.held = s.held ∧ s'.ths = s.ths ∧ s'.seen = s.seen ∧ s'.sent = s.sent ∧ s'.stored = s.stored ∧
    s'.replayed = s.replayed ∧ s'.fired = s.fired ∧ s'.panicked = s.panicked

theorem ackOf_cons (ev : String) (args : List Val) : ackOf (.str ev :: args) = callbackIn args := by
  cases args with
  | nil => rfl
  | cons x l => simp only [ackOf, callbackIn, List.getLast?_cons_cons]; cases (x :: l).getLast? with
    | none => rfl
    | some v => cases v <;> rfl

theorem withoutAck_of (args : List Val) : withoutAck args = if (callbackIn args).isSome then args.dropLast else args := by
  unfold withoutAck callbackIn
  split <;> simp

theorem enter_facts (s : St) (k : Nat) (kind : Kind) (ev : String) (args : List Val) :
    EnterFacts s k kind ev args (enter spare s k kind ev args).1 (enter spare s k kind ev args).2 := by
  have hv := fresh_valid s (.str ev :: args) (spare (Val.str ev :: args).length)
  have hc := fresh_cells s (.str ev :: args) (spare (Val.str ev :: args).length)
  unfold enter
  dsimp only
  rw [ackOf_cons]
  cases ha : callbackIn args with
  | none =>
    refine ⟨rfl, fun y hy => by rw [alloc_mem, if_neg (by omega)], rfl, hv, ?_, by rw [ha]; rfl, by simp [ha, St.alloc], ⟨rfl, rfl, rfl, rfl, rfl, rfl, rfl, rfl, rfl⟩⟩
    rw [hc, withoutAck_of, ha]; rfl
  | some f =>
    refine ⟨rfl, fun y hy => ?_, rfl, ⟨hv.1, ?_, hv.2.2⟩, ?_, by rw [ha]; rfl, by simp [ha], ⟨rfl, rfl, rfl, rfl, rfl, rfl, rfl, rfl, rfl⟩⟩
    · show (s.alloc _ _).mem y = _
      rw [alloc_mem, if_neg (by omega)]
    · have := hv.2.1; simp only; omega
    · rw [withoutAck_of, ha]
      have hne : args ≠ [] := by rintro rfl; simp [callbackIn] at ha
      have e : Slices.cells (s.alloc (.str ev :: args) (spare (Val.str ev :: args).length)).mem
          { s.fresh (.str ev :: args) (spare (Val.str ev :: args).length) with len := (s.fresh (.str ev :: args) (spare (Val.str ev :: args).length)).len - 1 } =
          (Slices.cells (s.alloc (.str ev :: args) (spare (Val.str ev :: args).length)).mem (s.fresh (.str ev :: args) (spare (Val.str ev :: args).length))).take ((Val.str ev :: args).length - 1) := by
        simp only [Slices.cells, St.fresh]
        rw [List.take_take]
        congr 1; simp
      show Slices.cells (s.alloc _ _).mem _ = _
      rw [e, hc]
      cases args with
      | nil => exact absurd rfl hne
      | cons x l => simp [List.dropLast_eq_take]

theorem ofNum_append {β : Type} (k : Nat) (l m : List (Nat × β)) : ofNum k (l ++ m) = ofNum k l ++ ofNum k m := List.filterMap_append

theorem ofNum_one {β : Type} (k : Nat) (x : β) : ofNum k [(k, x)] = [x] := by simp [ofNum]

theorem ofNum_other {β : Type} {k j : Nat} (h : j ≠ k) (x : β) : ofNum k [(j, x)] = [] := by simp [ofNum, h]

theorem ofNum_map {β : Type} (k : Nat) (l : List β) : ofNum k (l.map (k, ·)) = l := by
  induction l with
  | nil => rfl
  | cons x l ih => simp only [ofNum, List.map_cons, List.filterMap_cons, if_true]; simp only [ofNum] at ih; rw [ih]

theorem ofNum_map_other {β : Type} {k j : Nat} (h : j ≠ k) (l : List β) : ofNum k (l.map (j, ·)) = [] := by
  simp [ofNum, h]

theorem ofNum_nil {β : Type} {k : Nat} {l : List (Nat × β)} (h : ∀ p ∈ l, p.1 < k) : ofNum k l = [] := by
  rw [ofNum, List.filterMap_eq_nil_iff]
  intro p hp
  have := h p hp
  rw [if_neg (by omega)]

theorem mem_ofNum {β : Type} {k : Nat} {l : List (Nat × β)} {x : β} : x ∈ ofNum k l ↔ (k, x) ∈ l := by
  simp only [ofNum, List.mem_filterMap]
  constructor
  · rintro ⟨⟨i, y⟩, h1, h2⟩
    by_cases e : i = k
    · subst e; simp only [if_true, Option.some.injEq] at h2; subst h2; exact h1
    · simp [e] at h2
  · intro h; exact ⟨_, h, by simp⟩

/-- What an activity adds to the logs, given what the slice holds. -/
def heardOf (c : List Val) : Act → Option (List Val)
  | .notify => some c
  | .hear => some c.tail
  | _ => none

def sentOf (c : List Val) : Act → Option (List Val)
  | .encode => some c
  | _ => none

def nameIn (c : List Val) : Option String :=
  match c.head? with
  | some (.at (.str n)) => some n
  | _ => none

def firedOf (c : List Val) : Act → Option String
  | .dispatch => nameIn c
  | _ => none

theorem tail_cells (m : Nat → List Val) (d : Slice) : cells m ⟨d.arr, d.off + 1, d.len - 1, d.cap - 1⟩ = (cells m d).tail := by
  simp only [cells]
  rw [← List.drop_one, List.drop_take, List.drop_drop]

/-- What a step of a goroutine does. -/
structure ActFacts (s : St) (k : Nat) (t : Th) (todo : List Act) (a : Act) (s' : St) (t' : Th) : Prop where
  next : s.next ≤ s'.next
  keeps : ∀ y, y < s.next → ((∃ id, a = .store id) → y ≠ t.data.arr) → s'.mem y = s.mem y
  size : ∀ y, y < s.next → (s'.mem y).length = (s.mem y).length
  valid : Valid s' t'.data
  arr : t'.data.arr = t.data.arr ∨ t'.data.arr = s.next ∧ s.next < s'.next
  own : s'.own = s.own
  ths : s'.ths = s.ths
  replayed : s'.replayed = s.replayed
  held : s'.held = s.held ∨ (a = .notify ∨ a = .hear) ∧ ∃ d, s'.held = s.held ++ [d] ∧ Valid s' d ∧ d.arr = t.data.arr
  seen : s'.seen = s.seen ++ (heardOf (cells s.mem t.data) a).toList.map (k, ·)
  sent : s'.sent = s.sent ++ (sentOf (cells s.mem t.data) a).toList.map (k, ·)
  fired : s'.fired = s.fired ++ (firedOf (cells s.mem t.data) a).toList.map (k, ·)
  callbacks : s'.callbacks = s.callbacks ++ (match a with
    | .copy _ => (callbackIn (cells s.mem t.data)).toList.map (k, ·)
    | _ => [])
  stored : s'.stored = s.stored ++ (match a with
    | .store _ => [(k, t'.data)]
    | _ => [])
  data : (∀ kind, a ≠ .copy kind) → (∀ id, a ≠ .store id) → t' = { t with todo := todo }
  storing : ∀ id, a = .store id → t'.todo = todo ∧ cells s'.mem t'.data = cells s.mem t.data ++ [.str id]
  copying : ∀ kind, a = .copy kind → t'.data.arr = s.next ∧ t'.todo = plan kind (callbackIn (cells s.mem t.data)).isSome ∧
    cells s'.mem t'.data = .str t.ev :: withoutAck (cells s.mem t.data)
  panicked : s'.panicked = (s.panicked || (decide (a = .dispatch) && (nameIn (cells s.mem t.data)).isNone))

theorem act_facts (s : St) (k : Nat) (t : Th) (todo : List Act) (a : Act) (hv : Valid s t.data) :
    ActFacts s k t todo a (act spare s k t todo a).1 (act spare s k t todo a).2 := by
  cases a with
  | copy kind =>
    have h := enter_facts (spare := spare) s k kind t.ev (cells s.mem t.data)
    obtain ⟨r1, r2, r3, r4, r5, r6, r7, r8, r9⟩ := h.rest
    exact ⟨by show s.next ≤ (enter spare s k kind t.ev (cells s.mem t.data)).1.next; rw [h.next]; omega,
      fun y hy _ => h.keeps y hy, fun y hy => congrArg _ (h.keeps y hy), h.valid,
      .inr ⟨h.arr, by show s.next < (enter spare s k kind t.ev (cells s.mem t.data)).1.next; rw [h.next]; omega⟩, r1, r3, r7, .inl r2,
      by simpa [act, heardOf] using r4, by simpa [act, sentOf] using r5, by simpa [act, firedOf] using r8, h.callbacks, by simpa [act] using r6,
      fun hk _ => absurd rfl (hk kind), fun id h => (by cases h),
      fun kind' h' => by cases h'; exact ⟨h.arr, h.plan, h.cells⟩, by
        have : decide (Act.copy kind = .dispatch) = false := by simp
        rw [this]; simpa [act] using r9⟩
  | store id =>
    have h := append_facts (spare := spare) s t.data (.str id) hv
    obtain ⟨r1, r2, r3, r4, r5, r6, r7, r8, r9, r10⟩ := h.rest
    refine ⟨h.next, fun y hy hd => h.keeps y hy fun e => absurd e (hd ⟨id, rfl⟩), h.size, h.valid, ?_, r1, r3, r8, .inl r2,
      by simpa [act, heardOf] using r4, by simpa [act, sentOf] using r5, by simpa [act, firedOf] using r9, by simpa [act] using r6, ?_,
      fun _ hk => absurd rfl (hk id), fun id' h' => by cases h'; exact ⟨rfl, h.cells⟩, fun _ h => (by cases h), ?_⟩
    · have hn := h.valid.1
      rcases h.where' with h1 | h1
      · exact .inl h1.1
      · exact .inr ⟨h1.1, by
          have e := h1.1
          show s.next < (s.append spare t.data (.str id)).1.next
          omega⟩
    · show (s.append spare t.data (.str id)).1.stored ++ _ = _
      rw [r7]; rfl
    · have : decide (Act.store id = .dispatch) = false := by simp
      rw [this]; simpa [act] using r10
  | encode =>
    exact ⟨Nat.le_refl _, fun _ _ _ => rfl, fun _ _ => rfl, hv, .inl rfl, rfl, rfl, rfl, .inl rfl, by simp [act, heardOf], by simp [act, sentOf],
      by simp [act, firedOf], by simp [act], by simp [act], fun _ _ => rfl, fun _ h => (by cases h), fun _ h => (by cases h), by simp [act]⟩
  | notify =>
    exact ⟨Nat.le_refl _, fun _ _ _ => rfl, fun _ _ => rfl, hv, .inl rfl, rfl, rfl, rfl, .inr ⟨.inl rfl, _, rfl, hv, rfl⟩, by simp [act, heardOf],
      by simp [act, sentOf], by simp [act, firedOf], by simp [act], by simp [act], fun _ _ => rfl, fun _ h => (by cases h), fun _ h => (by cases h),
      by simp [act]⟩
  | hear =>
    have hd : Valid s ⟨t.data.arr, t.data.off + 1, t.data.len - 1, t.data.cap - 1⟩ := by
      obtain ⟨h1, h2, h3⟩ := hv
      refine ⟨h1, by simp only; omega, ?_⟩
      simp only
      omega
    exact ⟨Nat.le_refl _, fun _ _ _ => rfl, fun _ _ => rfl, hv, .inl rfl, rfl, rfl, rfl, .inr ⟨.inr rfl, _, rfl, hd, rfl⟩,
      by simp [act, heardOf, tail_cells], by simp [act, sentOf], by simp [act, firedOf], by simp [act], by simp [act], fun _ _ => rfl,
      fun _ h => (by cases h), fun _ h => (by cases h), by simp [act]⟩
  | dispatch =>
    have key : ∃ s', act spare s k t todo .dispatch = (s', { t with todo := todo }) ∧
        s' = { s with fired := s.fired ++ (nameIn (cells s.mem t.data)).toList.map (k, ·), panicked := s.panicked || (nameIn (cells s.mem t.data)).isNone } := by
      unfold act nameIn
      dsimp only
      split <;> rename_i h <;> simp [h]
    obtain ⟨s', hs, rfl⟩ := key
    rw [hs]
    exact ⟨Nat.le_refl _, fun _ _ _ => rfl, fun _ _ => rfl, hv, .inl rfl, rfl, rfl, rfl, .inl rfl, by simp [heardOf], by simp [sentOf],
      by simp [firedOf], by simp, by simp, fun _ _ => rfl, fun _ h => (by cases h), fun _ h => (by cases h), by simp⟩

/-- What a step does, as far as array `x` and number `k` are concerned. -/
structure StepFacts (s : St) (e : Ev) (s' : St) : Prop where
  next : s.next ≤ s'.next
  size : ∀ y, y < s.next → (s'.mem y).length = (s.mem y).length
  keeps : ∀ y, y < s.next → ¬ WritesInto s e y → (∀ k t, e = .adv k → s.ths[k]? = some t → (∃ id, t.todo.head? = some (.store id)) → t.data.arr ≠ y) →
    s'.mem y = s.mem y
  own : ∀ y ∈ s'.own, y ∈ s.own ∨ s.next ≤ y ∧ y < s'.next
  held : ∀ a ∈ s'.held, Valid s' a ∧ ((∃ b ∈ s.held, a.arr = b.arr) ∨ s.next ≤ a.arr ∨
    ∃ k t, e = .adv k ∧ s.ths[k]? = some t ∧ (t.todo.head? = some .notify ∨ t.todo.head? = some .hear) ∧ a.arr = t.data.arr)
  long : s.ths.length ≤ s'.ths.length
  ths : ∀ j t, s'.ths[j]? = some t → Valid s' t.data ∧ (s.ths[j]? = some t ∨ s.next ≤ t.data.arr ∨
    e = .adv j ∨ j = s.ths.length ∧ ∃ kind ev k f a, e = .emitAck kind ev k f ∧ s.held[k]? = some a ∧ t.data.arr = a.arr ∧ a.len < a.cap ∧ t.todo = [.copy kind])
  old : ∀ j, j < s.ths.length → e ≠ .adv j → s'.ths[j]? = s.ths[j]? ∧ ofNum j s'.seen = ofNum j s.seen ∧ ofNum j s'.sent = ofNum j s.sent ∧
    ofNum j s'.fired = ofNum j s.fired ∧ ofNum j s'.callbacks = ofNum j s.callbacks ∧ ofNum j s'.stored = ofNum j s.stored ∧
    (ofNum j s'.replayed = ofNum j s.replayed ∨ ∃ d ∈ ofNum j s.stored, ofNum j s'.replayed = ofNum j s.replayed ++ [cells s.mem d])
  young : ∀ j, s.ths.length < j → s'.ths[j]? = none
  logs : LogsOk s'

theorem same_facts {s s' : St} {e : Ev} (hi : Inv s) (h1 : s'.next = s.next) (h2 : s'.mem = s.mem) (h3 : s'.own = s.own)
    (h4 : ∀ a ∈ s'.held, Valid s a ∧ ∃ b ∈ s.held, a.arr = b.arr) (h5 : s'.ths = s.ths) (h6 : s'.seen = s.seen) (h7 : s'.sent = s.sent)
    (h8 : s'.fired = s.fired) (h9 : s'.callbacks = s.callbacks) (h10 : s'.stored = s.stored)
    (h11 : s'.replayed = s.replayed ∨ ∃ p ∈ s.stored, s'.replayed = s.replayed ++ [(p.1, cells s.mem p.2)]) : StepFacts s e s' := by
  have hv : ∀ a, Valid s a → Valid s' a := fun a h => valid_mono (by omega) (fun x _ => by rw [h2]) h
  refine ⟨by omega, fun y _ => by rw [h2], fun y _ _ _ => by rw [h2], fun y hy => .inl (h3 ▸ hy), fun a ha => ⟨hv _ (h4 a ha).1, .inl (h4 a ha).2⟩,
    by rw [h5]; exact Nat.le_refl _, fun j t hj => ?_, fun j hj _ => ⟨by rw [h5], by rw [h6], by rw [h7], by rw [h8], by rw [h9], by rw [h10], ?_⟩, fun j hj => ?_,
    hi.logs.mono (by rw [h5]; exact Nat.le_refl _) h6 h7 h8 ⟨[], by simpa using h9, by simp⟩ h10 fun p hp => ?_⟩
  · rw [h5] at hj
    exact ⟨hv _ (hi.ths _ (List.mem_of_getElem? hj)), .inl hj⟩
  · rcases h11 with h | ⟨p, hp, h⟩
    · exact .inl (by rw [h])
    · rw [h, ofNum_append]
      by_cases e : p.1 = j
      · exact .inr ⟨p.2, mem_ofNum.mpr (by rw [← e]; exact hp), by rw [← e, ofNum_one]⟩
      · exact .inl (by rw [ofNum_other e, List.append_nil])
  · rw [h5]; exact List.getElem?_eq_none (by omega)
  · rw [h5]
    rcases h11 with h | ⟨q, hq, h⟩
    · exact hi.logs.replayed p (h ▸ hp)
    · rw [h] at hp
      rcases List.mem_append.mp hp with hp | hp
      · exact hi.logs.replayed p hp
      · rw [List.mem_singleton] at hp; subst hp; exact hi.logs.stored q hq

/-- A goroutine is started. -/
theorem new_facts {s s' : St} {e : Ev} {t : Th} (hi : Inv s) (h1 : s.next ≤ s'.next) (hz : ∀ y, y < s.next → (s'.mem y).length = (s.mem y).length)
    (hk : ∀ y, y < s.next → ¬ WritesInto s e y → s'.mem y = s.mem y) (h3 : s'.own = s.own) (h4 : s'.held = s.held) (h5 : s'.ths = s.ths ++ [t])
    (hv : Valid s' t.data) (ht : s.next ≤ t.data.arr ∨
      ∃ kind ev k f a, e = .emitAck kind ev k f ∧ s.held[k]? = some a ∧ t.data.arr = a.arr ∧ a.len < a.cap ∧ t.todo = [.copy kind])
    (h6 : s'.seen = s.seen) (h7 : s'.sent = s.sent) (h8 : s'.fired = s.fired)
    (h9 : ∃ l, s'.callbacks = s.callbacks ++ l ∧ ∀ p ∈ l, p.1 = s.ths.length) (h10 : s'.stored = s.stored)
    (h11 : s'.replayed = s.replayed) : StepFacts s e s' := by
  have hm : ∀ a, Valid s a → Valid s' a := fun a h => valid_mono h1 hz h
  refine ⟨h1, hz, fun y hy hw _ => hk y hy hw, fun y hy => .inl (h3 ▸ hy), fun a ha => ?_,
    by rw [h5]; simp, fun j u hj => ?_, fun j hj _ => ⟨?_, by rw [h6], by rw [h7], by rw [h8], ?_, by rw [h10], .inl (by rw [h11])⟩, fun j hj => ?_,
    hi.logs.mono (by rw [h5]; simp) h6 h7 h8 (h9.imp fun l hl => ⟨hl.1, fun p hp => by rw [h5, hl.2 p hp]; simp⟩) h10 fun p hp => ?_⟩
  · rw [h4] at ha; exact ⟨hm _ (hi.held a ha), .inl ⟨a, ha, rfl⟩⟩
  · rw [h5, List.getElem?_append] at hj
    split at hj
    · exact ⟨hm _ (hi.ths _ (List.mem_of_getElem? hj)), .inl hj⟩
    · have hl : j = s.ths.length := by
        by_cases h : j - s.ths.length = 0
        · omega
        · rw [List.getElem?_eq_none (by simp; omega)] at hj; cases hj
      subst hl
      simp only [Nat.sub_self, List.getElem?_cons_zero, Option.some.injEq] at hj
      subst hj
      refine ⟨hv, .inr ?_⟩
      rcases ht with h | h
      · exact .inl h
      · exact .inr (.inr ⟨rfl, h⟩)
  · rw [h5, List.getElem?_append_left hj]
  · obtain ⟨l, hl, hp⟩ := h9
    have e0 : ofNum j l = [] := by
      rw [ofNum, List.filterMap_eq_nil_iff]
      intro p hpl
      rw [if_neg (by have := hp p hpl; omega)]
    rw [hl, ofNum_append, e0, List.append_nil]
  · rw [h5]; exact List.getElem?_eq_none (by simp; omega)
  · rw [h11] at hp
    have := hi.logs.replayed p hp
    rw [h5]; simp; omega

theorem panicked_step {s : St} (h : s.panicked = true) (e : Ev) : step spare s e = s := by simp [step, h]

theorem step_emit {s : St} (h : s.panicked = false) {kind ev k a} (hk : s.held[k]? = some a) :
    step spare s (.emit kind ev k) = { (enter spare s s.ths.length kind ev (cells s.mem a)).1 with
      ths := s.ths ++ [(enter spare s s.ths.length kind ev (cells s.mem a)).2] } := by
  simp [step, h, hk]

theorem step_emitAck {s : St} (h : s.panicked = false) {kind ev k f a} (hk : s.held[k]? = some a) :
    step spare s (.emitAck kind ev k f) = { (s.append spare a (.fn f)).1 with ths := s.ths ++ [⟨ev, (s.append spare a (.fn f)).2, [.copy kind]⟩] } := by
  simp [step, h, hk]

theorem step_recv {s : St} (h : s.panicked = false) {args ack n m} :
    step spare s (.recv args ack n m) = { (receive spare s args ack n m).1 with ths := s.ths ++ [(receive spare s args ack n m).2] } := by
  simp [step, h]

theorem step_adv {s : St} (h : s.panicked = false) {k t a todo} (hk : s.ths[k]? = some t) (ht : t.todo = a :: todo) :
    step spare s (.adv k) = { (act spare s k t todo a).1 with ths := s.ths.set k (act spare s k t todo a).2 } := by
  simp [step, h, hk, ht]

/-- What `receive` does. -/
structure RecvFacts (s : St) (args : List Val) (ack : Option Nat) (n m : Nat) (s' : St) (t : Th) : Prop where
  next : s.next < s'.next
  keeps : ∀ y, y < s.next → s'.mem y = s.mem y
  arr : s.next ≤ t.data.arr
  valid : Valid s' t.data
  cells : cells s'.mem t.data = args ++ ack.toList.map .fn
  todo : t.todo = List.replicate n .notify ++ .dispatch :: List.replicate m .hear
  rest : s'.own = s.own ∧ s'.held = s.held ∧ s'.ths = s.ths ∧ s'.seen = s.seen ∧ s'.sent = s.sent ∧ s'.callbacks = s.callbacks ∧ s'.stored = s.stored ∧
    s'.replayed = s.replayed ∧ s'.fired = s.fired ∧ s'.panicked = s.panicked

theorem receive_facts (s : St) (args : List Val) (ack : Option Nat) (n m : Nat) :
    RecvFacts s args ack n m (receive spare s args ack n m).1 (receive spare s args ack n m).2 := by
  have hv := fresh_valid s args (spare args.length)
  have hc := fresh_cells s args (spare args.length)
  cases ack with
  | none =>
    exact ⟨Nat.lt_succ_self _, fun y hy => by simp only [receive]; rw [alloc_mem, if_neg (by omega)], Nat.le_refl _, hv, by simpa [receive] using hc, rfl,
      ⟨rfl, rfl, rfl, rfl, rfl, rfl, rfl, rfl, rfl, rfl⟩⟩
  | some f =>
    have h := append_facts (spare := spare) _ _ (.fn f) hv
    have hn := h.next
    have hs : (s.alloc args (spare args.length)).next = s.next + 1 := rfl
    refine ⟨by simp only [receive]; omega, fun y hy => ?_, ?_, h.valid, by simpa [receive, hc] using h.cells, rfl, h.rest⟩
    · simp only [receive]
      rw [h.keeps y (by omega) (fun e => by simp only [St.fresh] at e; omega), alloc_mem, if_neg (by omega)]
    · simp only [receive]
      rcases h.where' with e | e
      · rw [e.1]; exact Nat.le_refl _
      · rw [e.1]; omega

theorem step_facts {s : St} (hi : Inv s) (e : Ev) : StepFacts s e (step spare s e) := by
  have same : StepFacts s e s :=
    same_facts hi rfl rfl rfl (fun a ha => ⟨hi.held a ha, a, ha, rfl⟩) rfl rfl rfl rfl rfl rfl (.inl rfl)
  cases hp : s.panicked with
  | true => rw [panicked_step hp]; exact same
  | false =>
  cases e with
  | make l extra =>
    have hs : step spare s (.make l extra) = { s.alloc l extra with own := s.next :: s.own, held := s.held ++ [s.fresh l extra] } := by simp [step, hp]
    rw [hs]
    have hk : ∀ y, y < s.next → (s.alloc l extra).mem y = s.mem y := fun y hy => by rw [alloc_mem, if_neg (by omega)]
    have hm : ∀ a, Valid s a → Valid (s.alloc l extra) a := fun a h => valid_mono (Nat.le_succ _) (fun y hy => by rw [hk y hy]) h
    refine ⟨Nat.le_succ _, fun y hy => congrArg _ (hk y hy), fun y hy _ _ => hk y hy, fun y hy => ?_, fun a ha => ?_, Nat.le_refl _,
      fun j t hj => ⟨hm _ (hi.ths _ (List.mem_of_getElem? hj)), .inl hj⟩, fun j hj _ => ⟨rfl, rfl, rfl, rfl, rfl, rfl, .inl rfl⟩,
      fun j hj => List.getElem?_eq_none (by show s.ths.length ≤ j; omega),
      ⟨hi.logs.seen, hi.logs.sent, hi.logs.fired, hi.logs.callbacks, hi.logs.stored, hi.logs.replayed⟩⟩
    · rcases List.mem_cons.mp hy with rfl | hy
      · exact .inr ⟨Nat.le_refl _, Nat.lt_succ_self _⟩
      · exact .inl hy
    · rcases List.mem_append.mp ha with ha | ha
      · exact ⟨hm _ (hi.held a ha), .inl ⟨a, ha, rfl⟩⟩
      · rw [List.mem_singleton] at ha; subst ha
        exact ⟨fresh_valid s l extra, .inr (.inl (Nat.le_refl _))⟩
  | reslice k i j =>
    cases hk : s.held[k]? with
    | none =>
      have hs : step spare s (.reslice k i j) = s := by simp [step, hp, hk]
      rw [hs]; exact same
    | some a =>
      by_cases hc : i ≤ j ∧ j ≤ a.cap
      · have hs : step spare s (.reslice k i j) = { s with held := s.held ++ [⟨a.arr, a.off + i, j - i, a.cap - i⟩] } := by simp [step, hp, hk, hc]
        rw [hs]
        have ha := List.mem_of_getElem? hk
        refine same_facts hi rfl rfl rfl (fun b hb => ?_) rfl rfl rfl rfl rfl rfl (.inl rfl)
        rcases List.mem_append.mp hb with hb | hb
        · exact ⟨hi.held b hb, b, hb, rfl⟩
        · rw [List.mem_singleton] at hb; subst hb
          obtain ⟨h1, h2, h3⟩ := hi.held a ha
          exact ⟨⟨h1, by simp only; omega, by simp only; omega⟩, a, ha, rfl⟩
      · have hs : step spare s (.reslice k i j) = s := by
          unfold step; rw [if_neg (by simp [hp])]; dsimp only; rw [hk]; dsimp only; rw [if_neg hc]
        rw [hs]; exact same
  | scribble k xs =>
    cases hk : s.held[k]? with
    | none =>
      have hs : step spare s (.scribble k xs) = s := by simp [step, hp, hk]
      rw [hs]; exact same
    | some a =>
      have hs : step spare s (.scribble k xs) = s.write a.arr a.off (xs.take a.cap) := by simp [step, hp, hk]
      rw [hs]
      obtain ⟨h1, h2, h3⟩ := hi.held a (List.mem_of_getElem? hk)
      have hz : ∀ y, ((s.write a.arr a.off (xs.take a.cap)).mem y).length = (s.mem y).length := by
        intro y
        rw [write_mem]
        split
        · rename_i e; rw [e]
          rcases h3 with h | h
          · rw [h]; simp [put]
          · exact put_length (by simp only [List.length_take]; omega)
        · rfl
      have hm : ∀ b, Valid s b → Valid (s.write a.arr a.off (xs.take a.cap)) b := fun b h => valid_mono (s := s) (s' := s.write a.arr a.off (xs.take a.cap)) (Nat.le_refl _) (fun y _ => hz y) h
      refine ⟨Nat.le_refl _, fun y _ => hz y, fun y hy hw _ => ?_, fun y hy => .inl hy, fun b hb => ⟨hm _ (hi.held b hb), .inl ⟨b, hb, rfl⟩⟩, Nat.le_refl _,
        fun j t hj => ⟨hm _ (hi.ths _ (List.mem_of_getElem? hj)), .inl hj⟩, fun j hj _ => ⟨rfl, rfl, rfl, rfl, rfl, rfl, .inl rfl⟩,
        fun j hj => List.getElem?_eq_none (by show s.ths.length ≤ j; omega),
      ⟨hi.logs.seen, hi.logs.sent, hi.logs.fired, hi.logs.callbacks, hi.logs.stored, hi.logs.replayed⟩⟩
      rw [write_mem, if_neg]
      rintro rfl
      exact hw (.inl ⟨k, xs, a, rfl, hk, rfl⟩)
  | emit kind ev k =>
    cases hk : s.held[k]? with
    | none =>
      have hs : step spare s (.emit kind ev k) = s := by simp [step, hp, hk]
      rw [hs]; exact same
    | some a =>
      rw [step_emit hp hk]
      have h := enter_facts (spare := spare) s s.ths.length kind ev (cells s.mem a)
      obtain ⟨r1, r2, r3, r4, r5, r6, r7, r8, r9⟩ := h.rest
      refine new_facts hi (by have := h.next; simp only; omega) (fun y hy => congrArg _ (h.keeps y hy)) (fun y hy _ => h.keeps y hy) r1 r2 rfl h.valid
        (.inl (by rw [h.arr]; exact Nat.le_refl _)) r4 r5 r8 ⟨_, h.callbacks, ?_⟩ r6 r7
      intro p hpm
      obtain ⟨f, -, rfl⟩ := List.mem_map.mp hpm
      rfl
  | emitAck kind ev k f =>
    cases hk : s.held[k]? with
    | none =>
      have hs : step spare s (.emitAck kind ev k f) = s := by simp [step, hp, hk]
      rw [hs]; exact same
    | some a =>
      rw [step_emitAck hp hk]
      have h := append_facts (spare := spare) s a (.fn f) (hi.held a (List.mem_of_getElem? hk))
      obtain ⟨r1, r2, r3, r4, r5, r6, r7, r8, r9, r10⟩ := h.rest
      refine new_facts hi h.next h.size (fun y hy hw => h.keeps y hy fun e hc => hw (.inr ⟨kind, ev, k, f, a, rfl, hk, e.symm, hc⟩)) r1 r2 rfl h.valid
        ?_ r4 r5 r9 ⟨[], by simpa using r6, by simp⟩ r7 r8
      rcases h.where' with e | e
      · exact .inr ⟨kind, ev, k, f, a, rfl, hk, e.1, e.2, rfl⟩
      · exact .inl (by rw [e.1]; exact Nat.le_refl _)
  | recv args ack n m =>
    rw [step_recv hp]
    have h := receive_facts (spare := spare) s args ack n m
    obtain ⟨r1, r2, r3, r4, r5, r6, r7, r8, r9, r10⟩ := h.rest
    exact new_facts hi (Nat.le_of_lt h.next) (fun y hy => congrArg _ (h.keeps y hy)) (fun y hy _ => h.keeps y hy) r1 r2 rfl h.valid (.inl h.arr) r4 r5 r9
      ⟨[], by simpa using r6, by simp⟩ r7 r8
  | replay i =>
    cases hk : s.stored[i]? with
    | none =>
      have hs : step spare s (.replay i) = s := by simp [step, hp, hk]
      rw [hs]; exact same
    | some p =>
      have hs : step spare s (.replay i) = { s with replayed := s.replayed ++ [(p.1, cells s.mem p.2)] } := by simp [step, hp, hk]
      rw [hs]
      exact same_facts hi rfl rfl rfl (fun a ha => ⟨hi.held a ha, a, ha, rfl⟩) rfl rfl rfl rfl rfl rfl (.inr ⟨p, List.mem_of_getElem? hk, rfl⟩)
  | adv k =>
    cases hk : s.ths[k]? with
    | none =>
      have hs : step spare s (.adv k) = s := by simp [step, hp, hk]
      rw [hs]; exact same
    | some t =>
      cases ht : t.todo with
      | nil =>
        have hs : step spare s (.adv k) = s := by simp [step, hp, hk, ht]
        rw [hs]; exact same
      | cons a todo =>
        rw [step_adv hp hk ht]
        have h := act_facts (spare := spare) s k t todo a (hi.ths t (List.mem_of_getElem? hk))
        have hm : ∀ b, Valid s b → Valid (act spare s k t todo a).1 b := fun b hb => valid_mono h.next h.size hb
        have hl : k < s.ths.length := (List.getElem?_eq_some_iff.mp hk).1
        refine ⟨h.next, h.size, fun y hy _ hst => h.keeps y hy fun ⟨id, hid⟩ e => ?_, fun y hy => .inl (h.own ▸ hy), fun b hb => ?_, ?_,
          fun j u hj => ?_, fun j hj hne => ?_, fun j hj => ?_, ?_⟩
        · exact hst k t rfl hk ⟨id, by rw [ht, hid]; rfl⟩ e.symm
        · rcases h.held with he | ⟨ha, d, he, hd, hda⟩
          · have hb' : b ∈ s.held := he ▸ hb
            exact ⟨hm _ (hi.held b hb'), .inl ⟨b, hb', rfl⟩⟩
          · have hb' : b ∈ s.held ++ [d] := he ▸ hb
            rcases List.mem_append.mp hb' with hb' | hb'
            · exact ⟨hm _ (hi.held b hb'), .inl ⟨b, hb', rfl⟩⟩
            · rw [List.mem_singleton] at hb'; subst hb'
              refine ⟨hd, .inr (.inr ⟨k, t, rfl, hk, ?_, hda⟩)⟩
              rcases ha with rfl | rfl <;> simp [ht]
        · simp
        · by_cases e : k = j
          · subst e
            have hu : u = (act spare s k t todo a).2 := by
              have : (s.ths.set k (act spare s k t todo a).2)[k]? = some u := hj
              rw [List.getElem?_set_self hl] at this
              exact (Option.some.inj this).symm
            subst hu
            exact ⟨h.valid, .inr (.inr (.inl rfl))⟩
          · have hj' : s.ths[j]? = some u := by
              have : (s.ths.set k (act spare s k t todo a).2)[j]? = some u := hj
              rwa [List.getElem?_set_ne e] at this
            exact ⟨hm _ (hi.ths u (List.mem_of_getElem? hj')), .inl hj'⟩
        · have e : k ≠ j := fun e => hne (by rw [e])
          refine ⟨List.getElem?_set_ne e, ?_, ?_, ?_, ?_, ?_, .inl ?_⟩
          · show ofNum j (act spare s k t todo a).1.seen = _
            rw [h.seen, ofNum_append, ofNum_map_other e, List.append_nil]
          · show ofNum j (act spare s k t todo a).1.sent = _
            rw [h.sent, ofNum_append, ofNum_map_other e, List.append_nil]
          · show ofNum j (act spare s k t todo a).1.fired = _
            rw [h.fired, ofNum_append, ofNum_map_other e, List.append_nil]
          · show ofNum j (act spare s k t todo a).1.callbacks = _
            rw [h.callbacks, ofNum_append]
            cases a <;> simp only [] <;> first | (rw [ofNum_map_other e, List.append_nil]) | exact List.append_nil _
          · show ofNum j (act spare s k t todo a).1.stored = _
            rw [h.stored, ofNum_append]
            cases a <;> simp only [] <;> first | (rw [ofNum_other e, List.append_nil]) | exact List.append_nil _
          · show ofNum j (act spare s k t todo a).1.replayed = _
            rw [h.replayed]
        · show (s.ths.set k _)[j]? = none
          exact List.getElem?_eq_none (by simp; omega)
        · have hll : (s.ths.set k (act spare s k t todo a).2).length = s.ths.length := by simp
          have add : ∀ {β : Type} (l : List (Nat × β)) (o : Option β), (∀ p ∈ l, p.1 < s.ths.length) →
              ∀ p ∈ l ++ o.toList.map (k, ·), p.1 < (s.ths.set k (act spare s k t todo a).2).length := by
            intro β l o hlo p hpm
            rw [hll]
            rcases List.mem_append.mp hpm with hpm | hpm
            · exact hlo p hpm
            · obtain ⟨x, -, rfl⟩ := List.mem_map.mp hpm; exact hl
          refine ⟨fun p hpm => ?_, fun p hpm => ?_, fun p hpm => ?_, fun p hpm => ?_, fun p hpm => ?_, fun p hpm => ?_⟩
          · exact add _ _ hi.logs.seen p (h.seen ▸ hpm)
          · exact add _ _ hi.logs.sent p (h.sent ▸ hpm)
          · exact add _ _ hi.logs.fired p (h.fired ▸ hpm)
          · have hpm' : p ∈ (act spare s k t todo a).1.callbacks := hpm
            rw [h.callbacks] at hpm'
            cases a <;> first | exact add _ _ hi.logs.callbacks p hpm' | exact add _ none hi.logs.callbacks p hpm'
          · have hpm' : p ∈ (act spare s k t todo a).1.stored := hpm
            rw [h.stored] at hpm'
            cases a <;> first | exact add _ none hi.logs.stored p hpm' | exact add _ (some _) hi.logs.stored p hpm'
          · have hpm' : p ∈ (act spare s k t todo a).1.replayed := hpm
            rw [h.replayed] at hpm'
            show p.1 < (s.ths.set k _).length
            rw [hll]; exact hi.logs.replayed p hpm'

theorem inv_init : Inv {} := ⟨by simp, by simp, by simp, ⟨by simp, by simp, by simp, by simp, by simp, by simp⟩⟩

theorem inv_step {s : St} (hi : Inv s) (e : Ev) : Inv (step spare s e) := by
  have h := step_facts (spare := spare) hi e
  refine ⟨fun a ha => ?_, fun a ha => (h.held a ha).1, fun t ht => ?_, h.logs⟩
  · have hn := h.next
    rcases h.own a ha with h' | h'
    · have := hi.own a h'; omega
    · exact h'.2
  · obtain ⟨j, hj⟩ := List.getElem?_of_mem ht
    exact (h.ths j t hj).1

theorem run_append (h t : List Ev) : run spare (h ++ t) = t.foldl (step spare) (run spare h) := List.foldl_append

theorem run_snoc (h : List Ev) (e : Ev) : run spare (h ++ [e]) = step spare (run spare h) e := by rw [run_append]; rfl

theorem inv_run (h : List Ev) : Inv (run spare h) := by
  induction h using snocRec with
  | nil => exact inv_init
  | append_singleton h e ih => rw [run_snoc]; exact inv_step ih e

/-- The array belongs to number `k` and not to the program. -/
structure Mine (s : St) (k x : Nat) : Prop where
  old : x < s.next
  lib : x ∉ s.own
  only : ∀ (j : Nat) (u : Th), j ≠ k → s.ths[j]? = some u → u.data.arr ≠ x

/-- Nobody outside has a slice of the array. -/
def Hidden (s : St) (x : Nat) : Prop := ∀ a ∈ s.held, a.arr ≠ x

theorem hidden_writes {s : St} {x : Nat} (h : Hidden s x) (e : Ev) : ¬ WritesInto s e x := by
  rintro (⟨k, xs, a, -, hk, ha⟩ | ⟨kind, ev, k, f, a, -, hk, ha, -⟩)
  · exact h a (List.mem_of_getElem? hk) ha
  · exact h a (List.mem_of_getElem? hk) ha

theorem mine_step {s : St} (hi : Inv s) {k x : Nat} (hm : Mine s k x) {e : Ev} (hw : ¬ WritesInto s e x) :
    Mine (step spare s e) k x := by
  have h := step_facts (spare := spare) hi e
  have hn := h.next
  have ho := hm.old
  refine ⟨by omega, fun hx => ?_, fun j u hj hu => ?_⟩
  · rcases h.own x hx with h' | h'
    · exact hm.lib h'
    · omega
  · by_cases he : e = .adv j
    · subst he
      intro ex
      -- goroutine j has another array, and gets only a new one
      cases hp : s.panicked with
      | true => rw [panicked_step hp] at hu; exact hm.only j u hj hu ex
      | false =>
        cases hj' : s.ths[j]? with
        | none =>
          have hs : step spare s (.adv j) = s := by simp [step, hp, hj']
          rw [hs, hj'] at hu; cases hu
        | some t =>
          cases ht : t.todo with
          | nil =>
            have hs : step spare s (.adv j) = s := by simp [step, hp, hj', ht]
            rw [hs] at hu; exact hm.only j u hj hu ex
          | cons a todo =>
            have hl : j < s.ths.length := (List.getElem?_eq_some_iff.mp hj').1
            rw [step_adv hp hj' ht] at hu
            have hf := act_facts (spare := spare) s j t todo a (hi.ths t (List.mem_of_getElem? hj'))
            have hu' : u = (act spare s j t todo a).2 := by
              have : (s.ths.set j (act spare s j t todo a).2)[j]? = some u := hu
              rw [List.getElem?_set_self hl] at this
              exact (Option.some.inj this).symm
            subst hu'
            rcases hf.arr with e1 | e1
            · exact hm.only j t hj hj' (e1.symm.trans ex)
            · omega
    · rcases (h.ths j u hu).2 with h' | h' | h' | ⟨-, kind, ev, i, f, a, h1, h2, h3, h4, -⟩
      · exact hm.only j u hj h'
      · omega
      · exact absurd h' he
      · intro ex
        exact hw (.inr ⟨kind, ev, i, f, a, h1, h2, h3.symm.trans ex, h4⟩)

/-- A step of others leaves the array as it is. -/
theorem mine_mem {s : St} (hi : Inv s) {k x : Nat} (hm : Mine s k x) {e : Ev} (hw : ¬ WritesInto s e x) (he : e ≠ .adv k) :
    (step spare s e).mem x = s.mem x := by
  refine (step_facts (spare := spare) hi e).keeps x hm.old hw fun j t hj ht _ => hm.only j t (fun h => he (by rw [hj, h])) ht

/-- … and nobody else gets a slice of it. -/
theorem hidden_step {s : St} (hi : Inv s) {k x : Nat} (hm : Mine s k x) (hh : Hidden s x) {e : Ev}
    (he : e = .adv k → ∀ t, s.ths[k]? = some t → t.todo.head? ≠ some .notify ∧ t.todo.head? ≠ some .hear) : Hidden (step spare s e) x := by
  intro a ha ex
  rcases ((step_facts (spare := spare) hi e).held a ha).2 with ⟨b, hb, h'⟩ | h' | ⟨j, t, h1, h2, h3, h4⟩
  · exact hh b hb (h'.symm.trans ex)
  · have := hm.old; omega
  · by_cases ej : j = k
    · subst ej
      rcases h3 with h3 | h3
      · exact (he h1 t h2).1 h3
      · exact (he h1 t h2).2 h3
    · exact hm.only j t ej h2 (h4.symm.trans ex)

open scoped Classical in
/-- Number `k` has done `gone` of its plan, with `c0` in its slice until it is kept and `c` then. -/
structure Track (s : St) (k : Nat) (pl : List Act) (c0 c : List Val) (cbs : List Nat) (gone : List Act) (t : Th) : Prop where
  th : s.ths[k]? = some t
  split : gone ++ t.todo = pl
  mine : Mine s k t.data.arr
  cells : cells s.mem t.data = if (∃ id, Act.store id ∈ t.todo) then c0 else c
  seen : ofNum k s.seen = gone.filterMap (heardOf c)
  sent : ofNum k s.sent = gone.filterMap (sentOf c)
  fired : ofNum k s.fired = gone.filterMap (firedOf c)
  callbacks : ofNum k s.callbacks = cbs
  stored : ∀ d ∈ ofNum k s.stored, d = t.data ∧ ∀ id, Act.store id ∉ t.todo
  replayed : ∀ x ∈ ofNum k s.replayed, x = c

/-- The plan keeps the packet, if at all, first. -/
structure Plan (pl : List Act) (c0 c : List Val) : Prop where
  copies : ∀ kind, Act.copy kind ∉ pl
  first : ∀ a rest, pl = a :: rest → ∀ id, Act.store id ∉ rest
  adds : ∀ id, Act.store id ∈ pl → c = c0 ++ [.str id]
  same : (∀ id, Act.store id ∉ pl) → c = c0

theorem track_other {s : St} (hi : Inv s) {k : Nat} {pl : List Act} {c0 c : List Val} {cbs : List Nat} {gone : List Act} {t : Th}
    (h : Track s k pl c0 c cbs gone t) {e : Ev} (he : e ≠ .adv k) (hw : ¬ WritesInto s e t.data.arr) :
    Track (step spare s e) k pl c0 c cbs gone t := by
  have hl : k < s.ths.length := (List.getElem?_eq_some_iff.mp h.th).1
  obtain ⟨o1, o2, o3, o4, o5, o6, o7⟩ := (step_facts (spare := spare) hi e).old k hl he
  have hmem := mine_mem (spare := spare) hi h.mine hw he
  refine ⟨o1.trans h.th, h.split, mine_step hi h.mine hw, (cells_congr _ hmem).trans h.cells, o2.trans h.seen, o3.trans h.sent, o4.trans h.fired,
    o5.trans h.callbacks, by rw [o6]; exact h.stored, ?_⟩
  rcases o7 with o7 | ⟨d, hd, o7⟩
  · rw [o7]; exact h.replayed
  · rw [o7]
    intro x hx
    rcases List.mem_append.mp hx with hx | hx
    · exact h.replayed x hx
    · rw [List.mem_singleton] at hx
      obtain ⟨rfl, hs⟩ := h.stored d hd
      rw [hx, h.cells, if_neg]
      rintro ⟨id, hid⟩; exact hs id hid

open scoped Classical in
theorem track_adv {s : St} (hi : Inv s) {k : Nat} {pl : List Act} {c0 c : List Val} {cbs : List Nat} {gone : List Act} {t : Th}
    (hpl : Plan pl c0 c) (h : Track s k pl c0 c cbs gone t) (hp : s.panicked = false) {a : Act} {todo : List Act} (ht : t.todo = a :: todo) :
    ∃ t', Track (step spare s (.adv k)) k pl c0 c cbs (gone ++ [a]) t' ∧ t'.todo = todo ∧
      (step spare s (.adv k)).panicked = (decide (a = .dispatch) && (nameIn c).isNone) ∧
      (t'.data.arr = t.data.arr ∨ s.next ≤ t'.data.arr ∧ ∃ id, a = .store id) := by
  have hl : k < s.ths.length := (List.getElem?_eq_some_iff.mp h.th).1
  have hv := hi.ths t (List.mem_of_getElem? h.th)
  have hf := act_facts (spare := spare) s k t todo a hv
  have ham : a ∈ pl := by rw [← h.split, ht]; simp
  have hnc : ∀ kind, a ≠ .copy kind := fun kind e => hpl.copies kind (e ▸ ham)
  have hns : ∀ id, Act.store id ∉ todo := by
    intro id hid
    cases hg : gone with
    | nil => exact hpl.first a todo (by rw [← h.split, hg, ht]; rfl) id hid
    | cons b g => exact hpl.first b (g ++ t.todo) (by rw [← h.split, hg]; rfl) id (by rw [ht]; simp [hid])
  have hcur : (¬ ∃ id, a = Act.store id) → cells s.mem t.data = c := by
    intro hs
    rw [h.cells, if_neg]
    rintro ⟨id, hid⟩
    rw [ht] at hid
    rcases List.mem_cons.mp hid with e | e
    · exact hs ⟨id, e.symm⟩
    · exact hns id e
  have one : ∀ {β : Type} (f : Act → Option β), [a].filterMap f = (f a).toList := by
    intro β f
    cases hfa : f a <;> simp [hfa]
  have hm' : Mine { (act spare s k t todo a).1 with ths := s.ths.set k (act spare s k t todo a).2 } k (act spare s k t todo a).2.data.arr := by
    refine ⟨hf.valid.1, ?_, fun j u hj hu => ?_⟩
    · show _ ∉ (act spare s k t todo a).1.own
      rw [hf.own]
      rcases hf.arr with e | e
      · rw [e]; exact h.mine.lib
      · rw [e.1]; intro hx; have := hi.own _ hx; omega
    · have hu' : s.ths[j]? = some u := by
        have : (s.ths.set k (act spare s k t todo a).2)[j]? = some u := hu
        rwa [List.getElem?_set_ne (Ne.symm hj)] at this
      rcases hf.arr with e | e
      · rw [e]; exact h.mine.only j u hj hu'
      · rw [e.1]; intro hx; have := (hi.ths u (List.mem_of_getElem? hu')).1; omega
  rw [step_adv hp h.th ht]
  refine ⟨(act spare s k t todo a).2, ⟨List.getElem?_set_self hl, ?_, hm', ?_, ?_, ?_, ?_, ?_, ?_, ?_⟩, ?_, ?_, ?_⟩
  case refine_1 =>
    by_cases hs : ∃ id, a = .store id
    · obtain ⟨id, hid⟩ := hs
      rw [(hf.storing id hid).1, ← h.split, ht]; simp
    · rw [hf.data hnc fun id e => hs ⟨id, e⟩, ← h.split, ht]; simp
  case refine_2 =>
    show cells (act spare s k t todo a).1.mem _ = _
    by_cases hs : ∃ id, a = .store id
    · obtain ⟨id, hid⟩ := hs
      obtain ⟨h1, h2⟩ := hf.storing id hid
      rw [h1, h2, if_neg (fun ⟨id, h⟩ => hns id h), h.cells, if_pos ⟨id, by rw [ht, hid]; simp⟩, hpl.adds id (hid ▸ ham)]
    · have hd := hf.data hnc fun id e => hs ⟨id, e⟩
      have hmem : (act spare s k t todo a).1.mem t.data.arr = s.mem t.data.arr := hf.keeps _ hv.1 fun h => absurd h hs
      rw [hd]
      show cells (act spare s k t todo a).1.mem t.data = if (∃ id, Act.store id ∈ todo) then c0 else c
      rw [cells_congr _ hmem, hcur hs, if_neg (fun ⟨id, h⟩ => hns id h)]
  case refine_3 =>
    show ofNum k (act spare s k t todo a).1.seen = _
    rw [hf.seen, ofNum_append, ofNum_map, h.seen, List.filterMap_append]
    congr 1
    by_cases hs : ∃ id, a = .store id
    · obtain ⟨id, rfl⟩ := hs; simp [heardOf]
    · rw [hcur hs, one]
  case refine_4 =>
    show ofNum k (act spare s k t todo a).1.sent = _
    rw [hf.sent, ofNum_append, ofNum_map, h.sent, List.filterMap_append]
    congr 1
    by_cases hs : ∃ id, a = .store id
    · obtain ⟨id, rfl⟩ := hs; simp [sentOf]
    · rw [hcur hs, one]
  case refine_5 =>
    show ofNum k (act spare s k t todo a).1.fired = _
    rw [hf.fired, ofNum_append, ofNum_map, h.fired, List.filterMap_append]
    congr 1
    by_cases hs : ∃ id, a = .store id
    · obtain ⟨id, rfl⟩ := hs; simp [firedOf]
    · rw [hcur hs, one]
  case refine_6 =>
    show ofNum k (act spare s k t todo a).1.callbacks = _
    rw [hf.callbacks, ofNum_append, h.callbacks]
    cases a with
    | copy kind => exact absurd rfl (hnc kind)
    | _ => exact List.append_nil _
  case refine_7 =>
    show ∀ d ∈ ofNum k (act spare s k t todo a).1.stored, _
    rw [hf.stored, ofNum_append]
    intro d hd
    by_cases hs : ∃ id, a = .store id
    · obtain ⟨id, hid⟩ := hs
      have h1 := (hf.storing id hid).1
      subst hid
      rcases List.mem_append.mp hd with hd | hd
      · exact absurd (by rw [ht]; simp) ((h.stored d hd).2 id)
      · simp only [ofNum_one, List.mem_singleton] at hd
        exact ⟨hd, by rw [h1]; exact hns⟩
    · have hd' := hf.data hnc fun id e => hs ⟨id, e⟩
      have : d ∈ ofNum k s.stored := by
        rcases List.mem_append.mp hd with hd | hd
        · exact hd
        · cases a <;> first | exact absurd ⟨_, rfl⟩ hs | (simp [ofNum] at hd)
      rw [hd']
      exact ⟨(h.stored d this).1, hns⟩
  case refine_8 =>
    show ∀ d ∈ ofNum k (act spare s k t todo a).1.replayed, _
    rw [hf.replayed]; exact h.replayed
  case refine_9 =>
    by_cases hs : ∃ id, a = .store id
    · obtain ⟨id, hid⟩ := hs; exact (hf.storing id hid).1
    · rw [hf.data hnc fun id e => hs ⟨id, e⟩]
  case refine_10 =>
    show (act spare s k t todo a).1.panicked = _
    rw [hf.panicked, hp, Bool.false_or]
    by_cases hd : a = .dispatch
    · rw [hcur (by rw [hd]; rintro ⟨id, h⟩; cases h)]
    · simp [hd]
  case refine_11 =>
    by_cases hs : ∃ id, a = .store id
    · rcases hf.arr with e | e
      · exact .inl e
      · exact .inr ⟨by rw [e.1]; exact Nat.le_refl _, hs⟩
    · exact .inl (by rw [hf.data hnc fun id e => hs ⟨id, e⟩])

theorem adv_none {s : St} {k : Nat} {t : Th} (hk : s.ths[k]? = some t) (ht : t.todo = []) : step spare s (.adv k) = s := by
  unfold step; split
  · rfl
  · simp [hk, ht]

/-- As long as the program leaves the slices of its listeners alone. -/
theorem track_run {h0 : List Ev} {k : Nat} {pl : List Act} {c0 c : List Val} {cbs : List Nat} {gone : List Act} {t : Th} (hpl : Plan pl c0 c)
    (h : Track (run spare h0) k pl c0 c cbs gone t) (h2 : List Ev) (ho : HandsOff spare h0 h2) :
    ∃ gone' t', Track (run spare (h0 ++ h2)) k pl c0 c cbs gone' t' := by
  induction h2 using snocRec with
  | nil => exact ⟨gone, t, by rwa [List.append_nil]⟩
  | append_singleton h2 e ih =>
    obtain ⟨g, u, hu⟩ := ih fun a e' b hb x hw => ho a e' (b ++ [e]) (by rw [hb]; simp) x hw
    have hi := inv_run (spare := spare) (h0 ++ h2)
    rw [← List.append_assoc, run_snoc]
    by_cases he : e = .adv k
    · subst he
      cases hp : (run spare (h0 ++ h2)).panicked with
      | true => rw [panicked_step hp]; exact ⟨g, u, hu⟩
      | false =>
        cases ht : u.todo with
        | nil => rw [adv_none hu.th ht]; exact ⟨g, u, hu⟩
        | cons a todo =>
          obtain ⟨t', h', -⟩ := track_adv (spare := spare) hi hpl hu hp ht
          exact ⟨_, t', h'⟩
    · exact ⟨g, u, track_other hi hu he fun hw => hu.mine.lib (ho h2 e [] (by simp) _ hw)⟩

/-- Number `k` has sent its packet and has only listeners to call. -/
def Done (s : St) (k : Nat) (c : List Val) (cbs : List Nat) : Prop :=
  ∃ t, s.ths[k]? = some t ∧ (∀ a ∈ t.todo, a = .notify) ∧ ofNum k s.sent = [c] ∧ ofNum k s.callbacks = cbs

theorem done_step {s : St} (hi : Inv s) {k : Nat} {c : List Val} {cbs : List Nat} (h : Done s k c cbs) (e : Ev) : Done (step spare s e) k c cbs := by
  obtain ⟨t, h1, h2, h3, h4⟩ := h
  have hl : k < s.ths.length := (List.getElem?_eq_some_iff.mp h1).1
  by_cases he : e = .adv k
  · subst he
    cases hp : s.panicked with
    | true => rw [panicked_step hp]; exact ⟨t, h1, h2, h3, h4⟩
    | false =>
      cases ht : t.todo with
      | nil => rw [adv_none h1 ht]; exact ⟨t, h1, h2, h3, h4⟩
      | cons a todo =>
        have ha : a = .notify := h2 a (by rw [ht]; simp)
        subst ha
        rw [step_adv hp h1 ht]
        have hf := act_facts (spare := spare) s k t todo .notify (hi.ths t (List.mem_of_getElem? h1))
        refine ⟨_, List.getElem?_set_self hl, fun a ha => h2 a (by rw [ht]; exact List.mem_cons_of_mem _ ha), ?_, ?_⟩
        · exact h3
        · exact h4
  · obtain ⟨o1, -, o3, -, o5, -⟩ := (step_facts (spare := spare) hi e).old k hl he
    exact ⟨t, o1.trans h1, h2, o3.trans h3, o5.trans h4⟩

/-- A packet for many that is on its way. -/
structure Casting (s : St) (k : Nat) (pl : List Act) (c0 c : List Val) (cbs : List Nat) (gone : List Act) (t : Th) : Prop where
  track : Track s k pl c0 c cbs gone t
  hidden : Hidden s t.data.arr
  unsent : ∀ a ∈ gone, ∃ id, a = .store id
  rest : ∃ n, t.todo = .encode :: List.replicate n .notify ∨ ∃ id, t.todo = .store id :: .encode :: List.replicate n .notify

theorem casting_step {s : St} (hi : Inv s) {k : Nat} {pl : List Act} {c0 c : List Val} {cbs : List Nat} {gone : List Act} {t : Th} (hpl : Plan pl c0 c)
    (h : Casting s k pl c0 c cbs gone t) (e : Ev) :
    (∃ gone' t', Casting (step spare s e) k pl c0 c cbs gone' t') ∨ Done (step spare s e) k c cbs := by
  have hw := hidden_writes h.hidden e
  by_cases he : e = .adv k
  · subst he
    cases hp : s.panicked with
    | true => rw [panicked_step hp]; exact .inl ⟨gone, t, h⟩
    | false =>
      obtain ⟨n, ht | ⟨id, ht⟩⟩ := h.rest
      · obtain ⟨t', ht', h1, -⟩ := track_adv (spare := spare) hi hpl h.track hp ht
        refine .inr ⟨t', ht'.th, by rw [h1]; simp [List.mem_replicate], ?_, ht'.callbacks⟩
        rw [ht'.sent, List.filterMap_append]
        have : gone.filterMap (sentOf c) = [] := by
          rw [List.filterMap_eq_nil_iff]
          intro a ha
          obtain ⟨id, rfl⟩ := h.unsent a ha
          rfl
        rw [this]; rfl
      · obtain ⟨t', ht', h1, -, h3⟩ := track_adv (spare := spare) hi hpl h.track hp ht
        refine .inl ⟨_, t', ht', ?_, ?_, ⟨n, .inl h1⟩⟩
        · have hh := hidden_step (spare := spare) hi h.track.mine h.hidden (e := .adv k) fun _ u hu => by
            rw [h.track.th] at hu; cases hu; rw [ht]; simp
          rcases h3 with h3 | ⟨h3, -⟩
          · rw [h3]; exact hh
          · intro a ha ex
            rcases ((step_facts (spare := spare) hi (.adv k)).held a ha).2 with ⟨b, hb, h'⟩ | h' | ⟨j, u, h1', h2', h3', h4'⟩
            · have := (hi.held b hb).1; omega
            · -- only the goroutine has the new array
              rw [step_adv hp h.track.th ht] at ha
              have hf := act_facts (spare := spare) s k t (.encode :: List.replicate n .notify) (.store id) (hi.ths t (List.mem_of_getElem? h.track.th))
              rcases hf.held with hf | ⟨hf | hf, -⟩
              · have := (hi.held a (hf ▸ ha)).1; omega
              · cases hf
              · cases hf
            · cases h1'
              rw [h.track.th] at h2'; cases h2'
              rw [ht] at h3'; simp at h3'
        · intro a ha
          rcases List.mem_append.mp ha with ha | ha
          · exact h.unsent a ha
          · rw [List.mem_singleton] at ha; exact ⟨id, ha⟩
  · exact .inl ⟨gone, t, track_other hi h.track he hw, hidden_step hi h.track.mine h.hidden fun h' => absurd h' he, h.unsent, h.rest⟩

theorem casting_run {h0 : List Ev} {k : Nat} {pl : List Act} {c0 c : List Val} {cbs : List Nat} {gone : List Act} {t : Th} (hpl : Plan pl c0 c)
    (h : Casting (run spare h0) k pl c0 c cbs gone t) (h2 : List Ev) :
    (∃ gone' t', Casting (run spare (h0 ++ h2)) k pl c0 c cbs gone' t') ∨ Done (run spare (h0 ++ h2)) k c cbs := by
  induction h2 using snocRec with
  | nil => exact .inl ⟨gone, t, by rwa [List.append_nil]⟩
  | append_singleton h2 e ih =>
    have hi := inv_run (spare := spare) (h0 ++ h2)
    rw [← List.append_assoc, run_snoc]
    rcases ih with ⟨g, u, hu⟩ | hd
    · exact casting_step hi hpl hu e
    · exact .inr (done_step hi hd e)

/-- The plan of an emission. -/
theorem plan_ok (kind : Kind) (ev : String) (args : List Val) :
    Plan (plan kind (callbackIn args).isSome) (.str ev :: withoutAck args) (payload kind ev args) := by
  refine ⟨plan_settled _ _, fun a rest h id => plan_early _ _ a rest h id, fun id hid => ?_, fun hno => ?_⟩
  · cases kind with
    | direct n => simp [plan, List.mem_replicate] at hid
    | cast o n =>
      cases hc : callbackIn args with
      | some f => simp [plan, hc, List.mem_replicate] at hid
      | none =>
        cases o with
        | none => simp [plan, hc, List.mem_replicate] at hid
        | some id' =>
          have : id = id' := by simpa [plan, hc, List.mem_replicate] using hid
          subst this
          simp [payload, hc, withoutAck_of]
  · cases kind with
    | direct n => rfl
    | cast o n =>
      cases o with
      | none => rfl
      | some id =>
        cases hc : callbackIn args with
        | some f => simp [payload, hc]
        | none => exact absurd (by simp [plan, hc]) (hno id)

theorem emit_track {s : St} (hi : Inv s) (hp : s.panicked = false) {kind : Kind} {ev : String} {i : Nat} {a : Slice} (ha : s.held[i]? = some a) :
    ∃ t, Track (step spare s (.emit kind ev i)) s.ths.length (plan kind (callbackIn (cells s.mem a)).isSome) (.str ev :: withoutAck (cells s.mem a))
      (payload kind ev (cells s.mem a)) (callbackIn (cells s.mem a)).toList [] t ∧ Hidden (step spare s (.emit kind ev i)) t.data.arr := by
  classical
  have h := enter_facts (spare := spare) s s.ths.length kind ev (cells s.mem a)
  obtain ⟨r1, r2, r3, r4, r5, r6, r7, r8, r9⟩ := h.rest
  rw [step_emit hp ha]
  refine ⟨(enter spare s s.ths.length kind ev (cells s.mem a)).2, ⟨by simp, h.plan, ⟨h.valid.1, ?_, fun j u hj hu => ?_⟩, ?_, ?_, ?_, ?_, ?_, ?_, ?_⟩, ?_⟩
  · rw [h.arr]; intro hx
    have hx' : s.next ∈ s.own := r1 ▸ hx
    have := hi.own _ hx'; omega
  · have hu' : (s.ths ++ [(enter spare s s.ths.length kind ev (cells s.mem a)).2])[j]? = some u := hu
    rw [List.getElem?_append] at hu'
    split at hu'
    · have := (hi.ths u (List.mem_of_getElem? hu')).1; rw [h.arr]; omega
    · rw [List.getElem?_eq_none (by simp; omega)] at hu'; cases hu'
  · rw [h.plan]
    show cells (enter spare s s.ths.length kind ev (cells s.mem a)).1.mem _ = _
    rw [h.cells]
    split
    · rfl
    · rename_i hno
      exact ((plan_ok kind ev (cells s.mem a)).same fun id hid => hno ⟨id, hid⟩).symm
  · exact (congrArg _ r4).trans (ofNum_nil hi.logs.seen)
  · exact (congrArg _ r5).trans (ofNum_nil hi.logs.sent)
  · exact (congrArg _ r8).trans (ofNum_nil hi.logs.fired)
  · show ofNum _ (enter spare s s.ths.length kind ev (cells s.mem a)).1.callbacks = _
    rw [h.callbacks, ofNum_append, ofNum_map, ofNum_nil hi.logs.callbacks, List.nil_append]
  · intro d hd
    rw [(congrArg _ r6).trans (ofNum_nil hi.logs.stored)] at hd; cases hd
  · intro d hd
    rw [(congrArg _ r7).trans (ofNum_nil hi.logs.replayed)] at hd; cases hd
  · intro b hb
    have hb' : b ∈ s.held := r2 ▸ hb
    have := (hi.held b hb').1
    rw [h.arr]; omega

/-- The plan of an event that arrives. -/
def recvPlan (n m : Nat) : List Act := List.replicate n .notify ++ .dispatch :: List.replicate m .hear

theorem recv_ok (n m : Nat) (c : List Val) : Plan (recvPlan n m) c c := by
  refine ⟨fun kind => by simp [recvPlan, List.mem_replicate], fun a rest h id hid => ?_, fun id hid => ?_, fun _ => rfl⟩
  · have : Act.store id ∈ recvPlan n m := by rw [h]; exact List.mem_cons_of_mem _ hid
    simp [recvPlan, List.mem_replicate] at this
  · simp [recvPlan, List.mem_replicate] at hid

theorem recv_track {s : St} (hi : Inv s) (hp : s.panicked = false) (args : List Val) (ack : Option Nat) (n m : Nat) :
    ∃ t, Track (step spare s (.recv args ack n m)) s.ths.length (recvPlan n m) (args ++ ack.toList.map .fn) (args ++ ack.toList.map .fn) [] [] t := by
  classical
  have h := receive_facts (spare := spare) s args ack n m
  obtain ⟨r1, r2, r3, r4, r5, r6, r7, r8, r9, r10⟩ := h.rest
  rw [step_recv hp]
  have hn := h.arr
  refine ⟨(receive spare s args ack n m).2, ⟨by simp, h.todo, ⟨h.valid.1, ?_, fun j u hj hu => ?_⟩, ?_, ?_, ?_, ?_, ?_, ?_, ?_⟩⟩
  · intro hx
    have hx' : _ ∈ s.own := r1 ▸ hx
    have := hi.own _ hx'; omega
  · have hu' : (s.ths ++ [(receive spare s args ack n m).2])[j]? = some u := hu
    rw [List.getElem?_append] at hu'
    split at hu'
    · have := (hi.ths u (List.mem_of_getElem? hu')).1; omega
    · rw [List.getElem?_eq_none (by simp; omega)] at hu'; cases hu'
  · show cells (receive spare s args ack n m).1.mem _ = _
    rw [h.cells, ite_self]
  · exact (congrArg _ r4).trans (ofNum_nil hi.logs.seen)
  · exact (congrArg _ r5).trans (ofNum_nil hi.logs.sent)
  · exact (congrArg _ r9).trans (ofNum_nil hi.logs.fired)
  · exact (congrArg _ r6).trans (ofNum_nil hi.logs.callbacks)
  · intro d hd
    rw [(congrArg _ r7).trans (ofNum_nil hi.logs.stored)] at hd; cases hd
  · intro d hd
    rw [(congrArg _ r8).trans (ofNum_nil hi.logs.replayed)] at hd; cases hd

/-- An `EmitWithAck` that has not copied its arguments. -/
structure Waiting (s : St) (k : Nat) (kind : Kind) (ev : String) (c : List Val) (t : Th) : Prop where
  th : s.ths[k]? = some t
  ev : t.ev = ev
  todo : t.todo = [.copy kind]
  mine : Mine s k t.data.arr
  hidden : Hidden s t.data.arr
  cells : cells s.mem t.data = c
  logs : ofNum k s.seen = [] ∧ ofNum k s.sent = [] ∧ ofNum k s.fired = [] ∧ ofNum k s.callbacks = [] ∧ ofNum k s.stored = [] ∧ ofNum k s.replayed = []

theorem waiting_start {s : St} (hi : Inv s) (hp : s.panicked = false) {kind : Kind} {ev : String} {i f : Nat} {a : Slice} (ha : s.held[i]? = some a)
    (hc : a.len = a.cap) : ∃ t, Waiting (step spare s (.emitAck kind ev i f)) s.ths.length kind ev (cells s.mem a ++ [.fn f]) t := by
  have h := append_facts (spare := spare) s a (.fn f) (hi.held a (List.mem_of_getElem? ha))
  obtain ⟨r1, r2, r3, r4, r5, r6, r7, r8, r9, r10⟩ := h.rest
  have harr : (s.append spare a (.fn f)).2.arr = s.next := by
    rcases h.where' with e | e
    · omega
    · exact e.1
  rw [step_emitAck hp ha]
  refine ⟨⟨ev, (s.append spare a (.fn f)).2, [.copy kind]⟩, ⟨by simp, rfl, rfl, ⟨h.valid.1, ?_, fun j u hj hu => ?_⟩, ?_, h.cells,
    ⟨(congrArg _ r4).trans (ofNum_nil hi.logs.seen), (congrArg _ r5).trans (ofNum_nil hi.logs.sent), (congrArg _ r9).trans (ofNum_nil hi.logs.fired),
      (congrArg _ r6).trans (ofNum_nil hi.logs.callbacks), (congrArg _ r7).trans (ofNum_nil hi.logs.stored),
      (congrArg _ r8).trans (ofNum_nil hi.logs.replayed)⟩⟩⟩
  · intro hx
    have hx' : _ ∈ s.own := r1 ▸ hx
    have := hi.own _ hx'
    simp only at this; omega
  · have hu' : (s.ths ++ [(⟨ev, (s.append spare a (.fn f)).2, [.copy kind]⟩ : Th)])[j]? = some u := hu
    rw [List.getElem?_append] at hu'
    split at hu'
    · have := (hi.ths u (List.mem_of_getElem? hu')).1; simp only; omega
    · rw [List.getElem?_eq_none (by simp; omega)] at hu'; cases hu'
  · intro b hb
    have hb' : b ∈ s.held := r2 ▸ hb
    have := (hi.held b hb').1
    simp only; omega

theorem waiting_step {s : St} (hi : Inv s) {k : Nat} {kind : Kind} {ev : String} {c : List Val} {t : Th} (h : Waiting s k kind ev c t) (e : Ev) :
    Waiting (step spare s e) k kind ev c t ∨
    ∃ t', Track (step spare s e) k (plan kind (callbackIn c).isSome) (.str ev :: withoutAck c) (payload kind ev c) (callbackIn c).toList [] t' ∧
      Hidden (step spare s e) t'.data.arr := by
  classical
  have hl : k < s.ths.length := (List.getElem?_eq_some_iff.mp h.th).1
  have hw := hidden_writes h.hidden e
  obtain ⟨l1, l2, l3, l4, l5, l6⟩ := h.logs
  by_cases he : e = .adv k
  · subst he
    cases hp : s.panicked with
    | true => rw [panicked_step hp]; exact .inl h
    | false =>
      right
      have hf := act_facts (spare := spare) s k t [] (.copy kind) (hi.ths t (List.mem_of_getElem? h.th))
      obtain ⟨q1, q2, q3⟩ := hf.copying kind rfl
      rw [h.cells] at q2 q3
      rw [h.ev] at q3
      rw [step_adv hp h.th h.todo]
      refine ⟨(act spare s k t [] (.copy kind)).2, ⟨List.getElem?_set_self hl, q2, ⟨hf.valid.1, ?_, fun j u hj hu => ?_⟩, ?_, ?_, ?_, ?_, ?_, ?_, ?_⟩, ?_⟩
      · rw [q1]; intro hx
        have hx' : s.next ∈ s.own := hf.own ▸ hx
        have := hi.own _ hx'; omega
      · have hu' : s.ths[j]? = some u := by
          have : (s.ths.set k (act spare s k t [] (.copy kind)).2)[j]? = some u := hu
          rwa [List.getElem?_set_ne (Ne.symm hj)] at this
        have := (hi.ths u (List.mem_of_getElem? hu')).1
        rw [q1]; omega
      · rw [q2]
        show cells (act spare s k t [] (.copy kind)).1.mem _ = _
        rw [q3]
        split
        · rfl
        · rename_i hno
          exact ((plan_ok kind ev c).same fun id hid => hno ⟨id, hid⟩).symm
      · show ofNum k (act spare s k t [] (.copy kind)).1.seen = _
        rw [hf.seen, ofNum_append, l1]; rfl
      · show ofNum k (act spare s k t [] (.copy kind)).1.sent = _
        rw [hf.sent, ofNum_append, l2]; rfl
      · show ofNum k (act spare s k t [] (.copy kind)).1.fired = _
        rw [hf.fired, ofNum_append, l3]; rfl
      · show ofNum k (act spare s k t [] (.copy kind)).1.callbacks = _
        rw [hf.callbacks, ofNum_append, l4]
        simp only [List.nil_append]; rw [ofNum_map, h.cells]
      · intro d hd
        have hd' : d ∈ ofNum k (act spare s k t [] (.copy kind)).1.stored := hd
        rw [hf.stored, ofNum_append, l5] at hd'; simp [ofNum] at hd'
      · intro d hd
        have hd' : d ∈ ofNum k (act spare s k t [] (.copy kind)).1.replayed := hd
        rw [hf.replayed, l6] at hd'; cases hd'
      · intro b hb
        rcases hf.held with hh | ⟨hh | hh, -⟩
        · have hb' : b ∈ s.held := hh ▸ hb
          have := (hi.held b hb').1
          rw [q1]; omega
        · cases hh
        · cases hh
  · left
    obtain ⟨o1, o2, o3, o4, o5, o6, o7⟩ := (step_facts (spare := spare) hi e).old k hl he
    refine ⟨o1.trans h.th, h.ev, h.todo, mine_step hi h.mine hw, hidden_step hi h.mine h.hidden fun h' => absurd h' he,
      (cells_congr _ (mine_mem hi h.mine hw he)).trans h.cells, o2.trans l1, o3.trans l2, o4.trans l3, o5.trans l4, o6.trans l5, ?_⟩
    rcases o7 with o7 | ⟨d, hd, -⟩
    · exact o7.trans l6
    · rw [l5] at hd; cases hd

theorem waiting_run {h0 : List Ev} {k : Nat} {kind : Kind} {ev : String} {c : List Val} {t : Th} (h : Waiting (run spare h0) k kind ev c t) (h2 : List Ev) :
    Waiting (run spare (h0 ++ h2)) k kind ev c t ∨
    ∃ p q t', h2 = p ++ q ∧ Track (run spare (h0 ++ p)) k (plan kind (callbackIn c).isSome) (.str ev :: withoutAck c) (payload kind ev c) (callbackIn c).toList [] t' ∧
      Hidden (run spare (h0 ++ p)) t'.data.arr := by
  induction h2 using snocRec with
  | nil => exact .inl (by rwa [List.append_nil])
  | append_singleton h2 e ih =>
    rcases ih with ih | ⟨p, q, t', rfl, h1, h2'⟩
    · rcases waiting_step (spare := spare) (inv_run _) ih e with h' | ⟨t', h1, h2'⟩
      · left; rw [← List.append_assoc, run_snoc]; exact h'
      · right
        refine ⟨h2 ++ [e], [], t', by simp, ?_, ?_⟩
        · rw [← List.append_assoc, run_snoc]; exact h1
        · rw [← List.append_assoc, run_snoc]; exact h2'
    · exact .inr ⟨p, q ++ [e], t', by simp, h1, h2'⟩

/-- Packets that will be kept are not in the program's own arrays. -/
def Lib (s : St) : Prop := ∀ t ∈ s.ths, (∃ id, Act.store id ∈ t.todo) → t.data.arr ∉ s.own

theorem lib_step {s : St} (hi : Inv s) (h : Lib s) (e : Ev) : Lib (step spare s e) := by
  intro t ht ⟨id, hid⟩ hx
  have hf := step_facts (spare := spare) hi e
  obtain ⟨j, hj⟩ := List.getElem?_of_mem ht
  have hown : t.data.arr ∈ s.own ∨ s.next ≤ t.data.arr := (hf.own _ hx).imp_right And.left
  have hold : ∀ u, s.ths[j]? = some u → u.data.arr = t.data.arr → (∃ id, Act.store id ∈ u.todo) → False := by
    intro u hu hd hs
    rcases hown with h' | h'
    · exact h u (List.mem_of_getElem? hu) hs (hd ▸ h')
    · have := (hi.ths u (List.mem_of_getElem? hu)).1; omega
  -- a step that makes no array of the program's own
  have hnew : s.next ≤ t.data.arr → (step spare s e).own = s.own → False := by
    intro h1 h2
    rw [h2] at hx
    have := hi.own _ hx; omega
  cases hp : s.panicked with
  | true => rw [panicked_step hp] at ht hx; exact h t ht ⟨id, hid⟩ hx
  | false =>
  by_cases he : e = .adv j
  · subst he
    cases hj' : s.ths[j]? with
    | none =>
      have hs : step spare s (.adv j) = s := by simp [step, hp, hj']
      rw [hs, hj'] at hj; cases hj
    | some u =>
      cases hu : u.todo with
      | nil =>
        rw [adv_none hj' hu, hj'] at hj; cases hj
        rw [hu] at hid; cases hid
      | cons a todo =>
        have hl : j < s.ths.length := (List.getElem?_eq_some_iff.mp hj').1
        have hf := act_facts (spare := spare) s j u todo a (hi.ths u (List.mem_of_getElem? hj'))
        have hown' : (step spare s (.adv j)).own = s.own := by rw [step_adv hp hj' hu]; exact hf.own
        rw [step_adv hp hj' hu] at hj
        have ht' : t = (act spare s j u todo a).2 := by
          have : (s.ths.set j (act spare s j u todo a).2)[j]? = some t := hj
          rw [List.getElem?_set_self hl] at this
          exact (Option.some.inj this).symm
        rcases hf.arr with e1 | e1
        · by_cases hc : ∃ kind, a = .copy kind
          · obtain ⟨kind, hc⟩ := hc
            have := (hf.copying kind hc).1
            exact hnew (by rw [ht', this]; exact Nat.le_refl _) hown'
          · by_cases hs : ∃ id', a = .store id'
            · exact hold u hj' (by rw [ht', e1]) (by obtain ⟨id', hs⟩ := hs; exact ⟨id', by rw [hu, hs]; simp⟩)
            · have hd := hf.data (fun k h => hc ⟨k, h⟩) (fun k h => hs ⟨k, h⟩)
              rw [ht', hd] at hid
              exact hold u hj' (by rw [ht', hd]) ⟨id, by rw [hu]; exact List.mem_cons_of_mem _ hid⟩
        · exact hnew (by rw [ht', e1.1]; exact Nat.le_refl _) hown'
  · rcases (hf.ths j t hj).2 with h' | h' | h' | ⟨-, kind, ev, i, f, a, h1, h2, h3, h4, h5⟩
    · exact hold t h' rfl ⟨id, hid⟩
    · cases e with
      | make l extra =>
        have hs : (step spare s (.make l extra)).ths = s.ths := by simp [step, hp, St.alloc]
        rw [hs] at hj
        exact hold t hj rfl ⟨id, hid⟩
      | reslice k i j' =>
        refine hnew h' ?_
        unfold step; rw [if_neg (by simp [hp])]; dsimp only; split
        · split <;> rfl
        · rfl
      | scribble k xs =>
        refine hnew h' ?_
        unfold step; rw [if_neg (by simp [hp])]; dsimp only; split <;> rfl
      | emit kind ev k =>
        refine hnew h' ?_
        cases hk : s.held[k]? with
        | none => simp [step, hp, hk]
        | some a => rw [step_emit hp hk]; exact (enter_facts (spare := spare) s s.ths.length kind ev (cells s.mem a)).rest.1
      | emitAck kind ev k f =>
        refine hnew h' ?_
        cases hk : s.held[k]? with
        | none => simp [step, hp, hk]
        | some a => rw [step_emitAck hp hk]; exact (append_facts (spare := spare) s a (.fn f) (hi.held a (List.mem_of_getElem? hk))).rest.1
      | recv args ack n m =>
        refine hnew h' ?_
        rw [step_recv hp]; exact (receive_facts (spare := spare) s args ack n m).rest.1
      | replay i =>
        refine hnew h' ?_
        unfold step; rw [if_neg (by simp [hp])]; dsimp only; split <;> rfl
      | adv k =>
        refine hnew h' ?_
        cases hk : s.ths[k]? with
        | none => simp [step, hp, hk]
        | some u =>
          cases hu : u.todo with
          | nil => rw [adv_none hk hu]
          | cons a todo => rw [step_adv hp hk hu]; exact (act_facts (spare := spare) s k u todo a (hi.ths u (List.mem_of_getElem? hk))).own
    · exact absurd h' he
    · rw [h5] at hid; simp at hid

theorem lib_run (h : List Ev) : Lib (run spare h) := by
  induction h using snocRec with
  | nil => exact fun t ht => (by cases ht)
  | append_singleton h e ih => rw [run_snoc]; exact lib_step (inv_run h) ih e

theorem own_mem {h : List Ev} {e : Ev} {x : Nat} (hx : x ∈ (run spare h).own) (hw : ¬ WritesInto (run spare h) e x) :
    (step spare (run spare h) e).mem x = (run spare h).mem x := by
  have hi := inv_run (spare := spare) h
  refine (step_facts (spare := spare) hi e).keeps x (hi.own x hx) hw fun k t _ ht ⟨id, hid⟩ e => ?_
  refine lib_run h t (List.mem_of_getElem? ht) ⟨id, ?_⟩ (e ▸ hx)
  exact List.mem_of_mem_head? hid

theorem own_grows {h : List Ev} {e : Ev} {x : Nat} (hx : x ∈ (run spare h).own) : x ∈ (step spare (run spare h) e).own := by
  cases hp : (run spare h).panicked with
  | true => rw [panicked_step hp]; exact hx
  | false =>
  have hi := inv_run (spare := spare) h
  cases e with
  | make l extra =>
    have hs : (step spare (run spare h) (.make l extra)).own = (run spare h).next :: (run spare h).own := by simp [step, hp]
    rw [hs]; exact List.mem_cons_of_mem _ hx
  | reslice k i j' =>
    unfold step; rw [if_neg (by simp [hp])]; dsimp only; split
    · split <;> exact hx
    · exact hx
  | scribble k xs =>
    unfold step; rw [if_neg (by simp [hp])]; dsimp only; split <;> exact hx
  | emit kind ev k =>
    cases hk : (run spare h).held[k]? with
    | none => simpa [step, hp, hk] using hx
    | some a =>
      rw [step_emit hp hk]
      exact (enter_facts (spare := spare) (run spare h) (run spare h).ths.length kind ev (cells (run spare h).mem a)).rest.1 ▸ hx
  | emitAck kind ev k f =>
    cases hk : (run spare h).held[k]? with
    | none => simpa [step, hp, hk] using hx
    | some a => rw [step_emitAck hp hk]; exact (append_facts (spare := spare) _ a (.fn f) (hi.held a (List.mem_of_getElem? hk))).rest.1 ▸ hx
  | recv args ack n m =>
    rw [step_recv hp]; exact (receive_facts (spare := spare) (run spare h) args ack n m).rest.1 ▸ hx
  | replay i =>
    unfold step; rw [if_neg (by simp [hp])]; dsimp only; split <;> exact hx
  | adv k =>
    cases hk : (run spare h).ths[k]? with
    | none => simpa [step, hp, hk] using hx
    | some u =>
      cases hu : u.todo with
      | nil => rw [adv_none hk hu]; exact hx
      | cons a todo => rw [step_adv hp hk hu]; exact (act_facts (spare := spare) _ k u todo a (hi.ths u (List.mem_of_getElem? hk))).own ▸ hx

/-- Events that are still to be dispatched begin with a name. -/
def Calm (s : St) : Prop := s.panicked = false ∧ ∀ (j : Nat) (t : Th), s.ths[j]? = some t → Act.dispatch ∈ t.todo →
  Mine s j t.data.arr ∧ (nameIn (cells s.mem t.data)).isSome ∧ (∀ id, Act.store id ∉ t.todo) ∧ ∀ kind, Act.copy kind ∉ t.todo

theorem plan_dispatch (kind : Kind) (ack : Bool) : Act.dispatch ∉ plan kind ack := by
  cases kind with
  | direct n => simp [plan, List.mem_replicate]
  | cast id n => cases ack <;> cases id <;> simp [plan, List.mem_replicate]

theorem nameIn_append {c : List Val} (h : (nameIn c).isSome) (d : List Val) : (nameIn (c ++ d)).isSome := by
  cases c with
  | nil => simp [nameIn] at h
  | cons x c => simpa [nameIn] using h

theorem calm_step {s : St} (hi : Inv s) (h : Calm s) {e : Ev} (hw : ∀ x, WritesInto s e x → x ∈ s.own)
    (hr : ∀ args ack n m, e = .recv args ack n m → (nameIn args).isSome) : Calm (step spare s e) := by
  obtain ⟨hp, h⟩ := h
  have hf := step_facts (spare := spare) hi e
  -- goroutines that are not affected
  have other : ∀ (j : Nat) (t : Th), s.ths[j]? = some t → e ≠ .adv j → Act.dispatch ∈ t.todo →
      Mine (step spare s e) j t.data.arr ∧ (nameIn (cells (step spare s e).mem t.data)).isSome ∧ (∀ id, Act.store id ∉ t.todo) ∧
        ∀ kind, Act.copy kind ∉ t.todo := by
    intro j t hj he hd
    obtain ⟨h1, h2, h3⟩ := h j t hj hd
    have hw' : ¬ WritesInto s e t.data.arr := fun hx => h1.lib (hw _ hx)
    exact ⟨mine_step hi h1 hw', by rw [cells_congr _ (mine_mem hi h1 hw' he)]; exact h2, h3⟩
  -- steps that start or advance no goroutine
  have quiet : (step spare s e).ths = s.ths → (step spare s e).panicked = false → (∀ j, e ≠ .adv j) → Calm (step spare s e) :=
    fun h1 h2 h3 => ⟨h2, fun j t hj hd => other j t (h1 ▸ hj) (h3 j) hd⟩
  -- steps that start one
  have start : ∀ t, (step spare s e).ths = s.ths ++ [t] → (step spare s e).panicked = false → (∀ j, e ≠ .adv j) →
      (Act.dispatch ∈ t.todo → Mine (step spare s e) s.ths.length t.data.arr ∧ (nameIn (cells (step spare s e).mem t.data)).isSome ∧
        (∀ id, Act.store id ∉ t.todo) ∧ ∀ kind, Act.copy kind ∉ t.todo) → Calm (step spare s e) := by
    intro t h1 h2 h3 h4
    refine ⟨h2, fun j u hj hd => ?_⟩
    by_cases hl : j < s.ths.length
    · rw [h1, List.getElem?_append_left hl] at hj
      exact other j u hj (h3 j) hd
    · by_cases hl' : j = s.ths.length
      · subst hl'
        have : t = u := by rw [h1] at hj; simpa using hj
        subst this
        exact h4 hd
      · rw [hf.young j (by omega)] at hj; cases hj
  cases e with
  | make l extra => exact quiet (by simp [step, hp, St.alloc]) (by simp [step, hp, St.alloc]) (by simp)
  | reslice k i j' =>
    refine quiet ?_ ?_ (by simp)
    · unfold step; rw [if_neg (by simp [hp])]; dsimp only; split
      · split <;> rfl
      · rfl
    · unfold step; rw [if_neg (by simp [hp])]; dsimp only; split
      · split <;> exact hp
      · exact hp
  | scribble k xs =>
    refine quiet ?_ ?_ (by simp)
    · unfold step; rw [if_neg (by simp [hp])]; dsimp only; split <;> rfl
    · unfold step; rw [if_neg (by simp [hp])]; dsimp only; split <;> exact hp
  | replay i =>
    refine quiet ?_ ?_ (by simp)
    · unfold step; rw [if_neg (by simp [hp])]; dsimp only; split <;> rfl
    · unfold step; rw [if_neg (by simp [hp])]; dsimp only; split <;> exact hp
  | emit kind ev k =>
    cases hk : s.held[k]? with
    | none =>
      have hs : step spare s (.emit kind ev k) = s := by simp [step, hp, hk]
      rw [hs]; exact ⟨hp, h⟩
    | some a =>
      have he := enter_facts (spare := spare) s s.ths.length kind ev (cells s.mem a)
      refine start (enter spare s s.ths.length kind ev (cells s.mem a)).2 (by rw [step_emit hp hk]) (by rw [step_emit hp hk]; exact he.rest.2.2.2.2.2.2.2.2.trans hp)
        (by simp) fun hd => ?_
      rw [he.plan] at hd
      exact absurd hd (plan_dispatch _ _)
  | emitAck kind ev k f =>
    cases hk : s.held[k]? with
    | none =>
      have hs : step spare s (.emitAck kind ev k f) = s := by simp [step, hp, hk]
      rw [hs]; exact ⟨hp, h⟩
    | some a =>
      have ha := append_facts (spare := spare) s a (.fn f) (hi.held a (List.mem_of_getElem? hk))
      refine start ⟨ev, (s.append spare a (.fn f)).2, [.copy kind]⟩ (by rw [step_emitAck hp hk])
        (by rw [step_emitAck hp hk]; exact ha.rest.2.2.2.2.2.2.2.2.2.trans hp) (by simp) fun hd => ?_
      simp at hd
  | recv args ack n m =>
    have ha := receive_facts (spare := spare) s args ack n m
    obtain ⟨t, ht⟩ := recv_track (spare := spare) hi hp args ack n m
    have hs := step_recv (spare := spare) hp (args := args) (ack := ack) (n := n) (m := m)
    have et : (receive spare s args ack n m).2 = t := by
      have := ht.th; rw [hs] at this; simpa using this
    refine start t (by rw [hs, ← et]) (by rw [hs]; exact ha.rest.2.2.2.2.2.2.2.2.2.trans hp) (by simp) fun hd => ?_
    have htodo : t.todo = recvPlan n m := ht.split
    refine ⟨ht.mine, ?_, fun id hid => ?_, fun kind hid => ?_⟩
    · rw [ht.cells, ite_self]
      exact nameIn_append (hr args ack n m rfl) _
    · rw [htodo] at hid; simp [recvPlan, List.mem_replicate] at hid
    · rw [htodo] at hid; simp [recvPlan, List.mem_replicate] at hid
  | adv k =>
    cases hk : s.ths[k]? with
    | none =>
      have hs : step spare s (.adv k) = s := by simp [step, hp, hk]
      rw [hs]; exact ⟨hp, h⟩
    | some t =>
      cases ht : t.todo with
      | nil => rw [adv_none hk ht]; exact ⟨hp, h⟩
      | cons a todo =>
        have hl : k < s.ths.length := (List.getElem?_eq_some_iff.mp hk).1
        have hv := hi.ths t (List.mem_of_getElem? hk)
        have ha := act_facts (spare := spare) s k t todo a hv
        have hs := step_adv (spare := spare) hp hk ht
        refine ⟨?_, fun j u hj hd => ?_⟩
        · rw [hs]
          show (act spare s k t todo a).1.panicked = false
          rw [ha.panicked, hp, Bool.false_or]
          by_cases e : a = .dispatch
          · have := (h k t hk (by rw [ht, e]; simp)).2.1
            cases hn : nameIn (cells s.mem t.data) with
            | none => rw [hn] at this; cases this
            | some n => simp
          · simp [e]
        · by_cases ej : k = j
          · subst ej
            have hu : u = (act spare s k t todo a).2 := by
              rw [hs] at hj
              have : (s.ths.set k (act spare s k t todo a).2)[k]? = some u := hj
              rw [List.getElem?_set_self hl] at this
              exact (Option.some.inj this).symm
            by_cases hc : ∃ kind, a = .copy kind
            · obtain ⟨kind, hc⟩ := hc
              rw [hu, (ha.copying kind hc).2.1] at hd
              exact absurd hd (plan_dispatch _ _)
            · have hd' : Act.dispatch ∈ t.todo := by
                by_cases hst : ∃ id, a = .store id
                · obtain ⟨id, hst⟩ := hst
                  rw [hu, (ha.storing id hst).1] at hd
                  rw [ht]; exact List.mem_cons_of_mem _ hd
                · rw [hu, ha.data (fun k h => hc ⟨k, h⟩) fun id h => hst ⟨id, h⟩] at hd
                  rw [ht]; exact List.mem_cons_of_mem _ hd
              obtain ⟨h1, h2, h3, h4⟩ := h k t hk hd'
              have hst : ¬ ∃ id, a = .store id := fun ⟨id, hst⟩ => h3 id (by rw [ht, hst]; simp)
              have hdat := ha.data (fun k h => hc ⟨k, h⟩) fun id h => hst ⟨id, h⟩
              have hut : u.data = t.data := by rw [hu, hdat]
              have hutodo : u.todo = todo := by rw [hu, hdat]
              have hw' : ¬ WritesInto s (.adv k) t.data.arr := fun hx => h1.lib (hw _ hx)
              refine ⟨by rw [hut]; exact mine_step hi h1 hw', ?_, fun id hid => h3 id ?_, fun kind hid => h4 kind ?_⟩
              · rw [hut, hs]
                show (nameIn (cells (act spare s k t todo a).1.mem t.data)).isSome
                rw [cells_congr _ (ha.keeps _ hv.1 fun h => absurd h hst)]
                exact h2
              · rw [hutodo] at hid; rw [ht]; exact List.mem_cons_of_mem _ hid
              · rw [hutodo] at hid; rw [ht]; exact List.mem_cons_of_mem _ hid
          · have hj' : s.ths[j]? = some u := by
              rw [hs] at hj
              have : (s.ths.set k (act spare s k t todo a).2)[j]? = some u := hj
              rwa [List.getElem?_set_ne ej] at this
            exact other j u hj' (fun e => ej (by cases e; rfl)) hd

theorem calm_run (h : List Ev) (ho : HandsOff spare [] h) (hr : ∀ args ack n m, Ev.recv args ack n m ∈ h → (nameIn args).isSome) : Calm (run spare h) := by
  induction h using snocRec with
  | nil => exact ⟨rfl, fun j t hj => (by cases hj)⟩
  | append_singleton h e ih =>
    rw [run_snoc]
    refine calm_step (inv_run h) (ih (fun a e' b hb x hx => ho a e' (b ++ [e]) (by rw [hb]; simp) x hx) fun args ack n m hm => hr args ack n m (by simp [hm]))
      (fun x hx => ho h e [] (by simp) x hx) fun args ack n m he => hr args ack n m (by simp [he])

theorem callbacks_stay {s : St} (hi : Inv s) {k : Nat} {cbs : List Nat} (h1 : ∀ v, s.ths[k]? = some v → ∀ c, Act.copy c ∉ v.todo)
    (h2 : k < s.ths.length) (h3 : ofNum k s.callbacks = cbs) (e : Ev) :
    (∀ v, (step spare s e).ths[k]? = some v → ∀ c, Act.copy c ∉ v.todo) ∧ k < (step spare s e).ths.length ∧ ofNum k (step spare s e).callbacks = cbs := by
  have hf := step_facts (spare := spare) hi e
  have hl := hf.long
  by_cases he : e = .adv k
  · subst he
    cases hp : s.panicked with
    | true => rw [panicked_step hp]; exact ⟨h1, h2, h3⟩
    | false =>
      have hk : s.ths[k]? = some s.ths[k] := List.getElem?_eq_getElem h2
      cases ht : s.ths[k].todo with
      | nil => rw [adv_none hk ht]; exact ⟨h1, h2, h3⟩
      | cons a todo =>
        have ha := act_facts (spare := spare) s k _ todo a (hi.ths _ (List.mem_of_getElem? hk))
        have hnc : ∀ c, a ≠ .copy c := fun c hc => h1 _ hk c (by rw [ht, hc]; simp)
        rw [step_adv hp hk ht]
        refine ⟨fun v hv c hc => ?_, by simpa using h2, ?_⟩
        · have hv' : v = (act spare s k s.ths[k] todo a).2 := by
            have : (s.ths.set k (act spare s k s.ths[k] todo a).2)[k]? = some v := hv
            rw [List.getElem?_set_self h2] at this
            exact (Option.some.inj this).symm
          have htodo : v.todo = todo := by
            by_cases hs : ∃ id, a = .store id
            · obtain ⟨id, hs⟩ := hs; rw [hv', (ha.storing id hs).1]
            · rw [hv', ha.data hnc fun id h => hs ⟨id, h⟩]
          rw [htodo] at hc
          exact h1 _ hk c (by rw [ht]; exact List.mem_cons_of_mem _ hc)
        · show ofNum k (act spare s k s.ths[k] todo a).1.callbacks = _
          rw [ha.callbacks, ofNum_append, h3]
          cases a with
          | copy kind => exact absurd rfl (hnc kind)
          | _ => exact List.append_nil _
  · obtain ⟨o1, -, -, -, o5, -⟩ := hf.old k h2 he
    exact ⟨by rw [o1]; exact h1, by omega, o5.trans h3⟩

theorem plan_sent (kind : Kind) (ack : Bool) (p : List Val) : (plan kind ack).filterMap (sentOf p) = [p] := by
  have e : ∀ n, (List.replicate n Act.notify).filterMap (sentOf p) = [] := by
    intro n; rw [List.filterMap_eq_nil_iff]; intro a ha; rw [(List.mem_replicate.mp ha).2]; rfl
  cases kind with
  | direct n => rw [plan, List.filterMap_append, e]; rfl
  | cast id n => cases ack <;> cases id <;> simp [plan, List.filterMap_cons, sentOf, e]

theorem notify_heard (n : Nat) (p : List Val) : (List.replicate n Act.notify).filterMap (heardOf p) = List.replicate n p := by
  induction n with
  | zero => rfl
  | succ n ih => rw [List.replicate_succ, List.filterMap_cons, ih]; rfl

theorem hear_heard (n : Nat) (p : List Val) : (List.replicate n Act.hear).filterMap (heardOf p) = List.replicate n p.tail := by
  induction n with
  | zero => rfl
  | succ n ih => rw [List.replicate_succ, List.filterMap_cons, ih]; rfl

theorem plan_heard (kind : Kind) (ack : Bool) (p : List Val) : (plan kind ack).filterMap (heardOf p) = List.replicate (watchers kind) p := by
  cases kind with
  | direct n => simp only [plan, List.filterMap_append, notify_heard]; simp [heardOf, watchers]
  | cast id n => cases ack <;> cases id <;> simp [plan, List.filterMap_cons, heardOf, notify_heard, watchers]

theorem recvPlan_heard (n m : Nat) (name : String) (c : List Val) :
    (recvPlan n m).filterMap (heardOf (.str name :: c)) = List.replicate n (.str name :: c) ++ List.replicate m c := by
  rw [recvPlan, List.filterMap_append, notify_heard, List.filterMap_cons, hear_heard]; rfl

theorem recvPlan_fired (n m : Nat) (name : String) (c : List Val) : (recvPlan n m).filterMap (firedOf (.str name :: c)) = [name] := by
  have e1 : (List.replicate n Act.notify).filterMap (firedOf (.str name :: c)) = [] := by
    rw [List.filterMap_eq_nil_iff]; intro a ha; rw [(List.mem_replicate.mp ha).2]; rfl
  have e2 : (List.replicate m Act.hear).filterMap (firedOf (.str name :: c)) = [] := by
    rw [List.filterMap_eq_nil_iff]; intro a ha; rw [(List.mem_replicate.mp ha).2]; rfl
  rw [recvPlan, List.filterMap_append, e1, List.filterMap_cons, e2]; rfl

end Verif.Slices
