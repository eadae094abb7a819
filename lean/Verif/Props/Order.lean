import Verif.Proof.Order

/-! # C88, C89: broadcasts at the same time -/

namespace Verif.Props
open Verif Verif.Spec Verif.Order

/-- **C88, one emitter**: whatever the goroutines do at the same time, every socket gets the packets of each of them in the order
in which it made the calls, none twice. -/
theorem C88_emitter (members : List Nat) (h : List Order.Ev) (g k : Nat) :
    InOrderOfCalls (ofEmitter (Order.run members h) g ((Order.run members h).written k)) ∧ ((Order.run members h).written k).Nodup := by
  have i := inv_run members h
  refine ⟨i.ordW g k, ?_⟩
  generalize Order.run members h = s at i
  have hg : ∀ p ∈ s.written k, ∃ g, s.emitters[p]? = some g := fun p hp => by
    obtain ⟨g, hg, -⟩ := (i.stored p).1 (i.written k p hp).2.1; exact ⟨g, hg⟩
  have ho := fun g => i.ordW g k
  generalize s.written k = l at hg ho
  clear i
  induction l with
  | nil => exact List.nodup_nil
  | cons p l ih =>
    refine List.nodup_cons.2 ⟨fun hp => ?_, ih (fun q hq => hg q (List.mem_cons_of_mem _ hq)) (fun g => ?_)⟩
    · obtain ⟨g, hpg⟩ := hg p (List.mem_cons_self ..)
      have := ho g
      unfold InOrderOfCalls ofEmitter at this
      rw [List.filter_cons_of_pos (by simp [hpg]), List.pairwise_cons] at this
      exact absurd (this.1 p (List.mem_filter.2 ⟨hp, by simp [hpg]⟩)) (Nat.lt_irrefl p)
    · have := ho g
      unfold InOrderOfCalls ofEmitter at this ⊢
      rw [List.filter_cons] at this
      split at this
      · exact (List.pairwise_cons.1 this).2
      · exact this

/-- **C88, everybody**: once all calls have returned, every socket that was not lost has got every packet. -/
theorem C88_all (members : List Nat) (h : List Order.Ev) (hq : NobodyCasts (Order.run members h)) (k : Nat) (hk : k ∈ members)
    (hl : (Order.run members h).lost k = false) (p : Nat) :
    p ∈ (Order.run members h).written k ↔ p < (Order.run members h).emitters.length := by
  have i := inv_run members h
  generalize Order.run members h = s at *
  refine ⟨fun hp => i.bound (i.written k p hp).2.1, fun hp => ?_⟩
  have hst : p ∈ s.stored := (i.stored p).2 ⟨_, List.getElem?_eq_getElem hp, fun hc => by
    have := hq (s.emitters[p]); rw [busy_push hc] at this; cases this⟩
  refine i.reached k hk hl p hst (fun g l hc hin => ?_)
  have := hq g
  rw [busy_write hc hin] at this; cases this

/-- **C88, the same order, partial**: if no call begins before the others have returned, every socket gets the packets in the order of
the calls, without a gap: of two sockets one has got what the other has, or the beginning of it. -/
theorem C88_same_partial (members : List Nat) (h : List Order.Ev) (hone : CastsOneByOne members h) (k k' : Nat) :
    (∃ j, (Order.run members h).written k = List.range j) ∧
    ((Order.run members h).written k <+: (Order.run members h).written k' ∨ (Order.run members h).written k' <+: (Order.run members h).written k) := by
  have q := seq_run hone
  obtain ⟨j, hj⟩ := q.written k
  obtain ⟨j', hj'⟩ := q.written k'
  refine ⟨⟨j, hj⟩, ?_⟩
  have key : ∀ a b : Nat, a ≤ b → List.range a <+: List.range b := fun a b hab => by
    rw [List.prefix_iff_eq_take, List.length_range, List.take_range, Nat.min_eq_left hab]
  rw [hj, hj']
  rcases Nat.le_total j j' with h | h
  · exact Or.inl (key _ _ h)
  · exact Or.inr (key _ _ h)

/-- Two goroutines broadcast to two sockets, the second call begins when the first has returned. -/
def Demo.casts : List Order.Ev :=
  [.start 0, .push 0, .write 0 1, .write 0 2, .start 1, .push 1, .write 1 2, .lose 1, .write 1 1]

example : (Order.run [1, 2] Demo.casts).written 1 = [0] ∧ (Order.run [1, 2] Demo.casts).written 2 = [0, 1] := by decide

theorem Demo.casts_one : CastsOneByOne [1, 2] Demo.casts := by
  intro a g b hab
  have hlen : a.length < 9 := by have := congrArg List.length hab; simp [Demo.casts] at this; omega
  have ha : a = Demo.casts.take a.length := by rw [hab]; simp
  have hg : Demo.casts[a.length]? = some (.start g) := by rw [hab]; simp
  generalize a.length = n at *
  subst ha
  intro x
  match n, hlen with
  | 0, _ => rfl
  | 4, _ =>
    by_cases hx : x = 0
    · subst hx; rfl
    · simp [Demo.casts, Order.run, Order.step, Order.idle, Order.upd, hx]
  | 1, _ => simp [Demo.casts] at hg
  | 2, _ => simp [Demo.casts] at hg
  | 3, _ => simp [Demo.casts] at hg
  | 5, _ => simp [Demo.casts] at hg
  | 6, _ => simp [Demo.casts] at hg
  | 7, _ => simp [Demo.casts] at hg
  | 8, _ => simp [Demo.casts] at hg

/-- **C88 fails** when two goroutines broadcast at the same time: two sockets that both get both packets get them in different orders. -/
theorem C88_order_fails : ¬ ∀ (members : List Nat) (h : List Order.Ev) (k k' : Nat), k ∈ members → k' ∈ members →
    NobodyCasts (Order.run members h) → (∀ x, (Order.run members h).lost x = false) →
    (Order.run members h).written k = (Order.run members h).written k' := by
  intro hall
  have := hall [1, 2] [.start 0, .push 0, .start 1, .push 1, .write 0 1, .write 1 1, .write 1 2, .write 0 2] 1 2 (by decide) (by decide)
    (fun g => ?_) (fun _ => rfl)
  · revert this; decide
  · by_cases h0 : g = 0
    · subst h0; rfl
    · by_cases h1 : g = 1
      · subst h1; rfl
      · simp [Order.run, Order.step, Order.idle, Order.upd, h0, h1]

/-- **C89, partial**: if no call begins before the others have returned, a client that comes back with the id of the last packet it got
gets exactly those it has not got, in order, wherever its connection broke. -/
theorem C89_partial (members : List Nat) (h : List Order.Ev) (hone : CastsOneByOne members h) (k : Nat) (got rest : List Nat) (o : Nat)
    (hgot : (Order.run members h).written k = got ++ o :: rest) :
    ∃ l, Order.replay (Order.run members h).stored o = some l ∧ got ++ o :: l = (Order.run members h).stored := by
  have i := inv_run members h
  have q := seq_run hone
  generalize Order.run members h = s at *
  obtain ⟨m, hm⟩ := q.stored
  obtain ⟨j, hj⟩ := q.written k
  rw [hj] at hgot
  have hlen : got.length < j := by have := congrArg List.length hgot; simp at this; omega
  have ho : o = got.length := by
    have : (List.range j)[got.length]? = some o := by rw [hgot]; simp
    rw [List.getElem?_range hlen] at this
    exact (Option.some.inj this).symm
  have hg : got = List.range o := by
    have : (List.range j).take got.length = got := by rw [hgot]; simp
    rw [← this, List.take_range, ho]
    congr 1; omega
  have hom : o < m := by
    have : o ∈ s.stored := (i.written k o (by rw [hj, hgot]; simp)).2.1
    rw [hm] at this; simpa using this
  have hst : s.stored = got ++ o :: (List.range m).drop (o + 1) := by
    rw [hm, hg]
    apply List.ext_getElem?
    intro n
    rw [List.getElem?_append, List.getElem?_cons]
    simp only [List.length_range, List.getElem?_drop]
    split
    · rw [List.getElem?_range (by omega), List.getElem?_range (by omega)]
    · split
      · rw [List.getElem?_range (by omega)]; congr 1; omega
      · congr 1; omega
  have hnot : ∀ x ∈ got, (decide (x ≠ o)) = true := fun x hx => by
    rw [hg] at hx; simp at hx ⊢; omega
  refine ⟨(List.range m).drop (o + 1), ?_, hst.symm⟩
  unfold Order.replay
  have : s.stored.dropWhile (· ≠ o) = o :: (List.range m).drop (o + 1) := by
    rw [hst, List.dropWhile_append_of_pos hnot]
    simp
  rw [this]

example : (Order.run [1, 2] (Demo.casts ++ [.start 0, .push 0])).stored = [0, 1, 2] ∧ Order.replay [0, 1, 2] 0 = some [1, 2] := by decide

/-- **C89, one emitter**: whatever the goroutines do at the same time, of the packets of the goroutine that broadcast the last one the
client got, none is missing and none comes twice. -/
theorem C89_emitter (members : List Nat) (h : List Order.Ev) (k g : Nat) (got rest : List Nat) (o : Nat)
    (hgot : (Order.run members h).written k = got ++ o :: rest) (hg : (Order.run members h).emitters[o]? = some g) :
    ∃ l, Order.replay (Order.run members h).stored o = some l ∧
      ofEmitter (Order.run members h) g (got ++ o :: l) = ofEmitter (Order.run members h) g (Order.run members h).stored :=
  (inv_run members h).emitter hgot hg

/-- Two goroutines broadcast at the same time, the first one twice; the packets reach the socket in another order than they are stored. -/
def Demo.castsTwo : List Order.Ev :=
  [.start 0, .push 0, .start 1, .push 1, .write 1 5, .write 0 5, .start 0, .push 0, .lose 5]

example : (Order.run [5] Demo.castsTwo).written 5 = [1, 0] ∧ (Order.run [5] Demo.castsTwo).stored = [0, 1, 2] ∧
    (Order.run [5] Demo.castsTwo).emitters = [0, 1, 0] ∧ Order.replay [0, 1, 2] 0 = some [1, 2] := by decide

/-- **C89 fails** when two goroutines broadcast at the same time: a packet stored first and written second is lost for a client that
got only the other one, which is the offset it comes back with. -/
theorem C89_lost_fails : ¬ ∀ (members : List Nat) (h : List Order.Ev) (k : Nat) (got rest : List Nat) (o : Nat) (l : List Nat),
    (Order.run members h).written k = got ++ o :: rest → NobodyCasts (Order.run members h) →
    Order.replay (Order.run members h).stored o = some l → ∀ p ∈ (Order.run members h).stored, p ∈ got ++ o :: l := by
  intro hall
  have := hall [5] [.start 0, .push 0, .start 1, .push 1, .write 1 5, .write 0 5] 5 [] [0] 1 [] (by decide) (fun g => ?_) (by decide) 0 (by decide)
  · revert this; decide
  · by_cases h0 : g = 0
    · subst h0; rfl
    · by_cases h1 : g = 1
      · subst h1; rfl
      · simp [Order.run, Order.step, Order.idle, Order.upd, h0, h1]

/-- **C89 fails**, the other way: a client that got both gets one of them again. -/
theorem C89_twice_fails : ¬ ∀ (members : List Nat) (h : List Order.Ev) (k : Nat) (got rest : List Nat) (o : Nat) (l : List Nat),
    (Order.run members h).written k = got ++ o :: rest → NobodyCasts (Order.run members h) →
    Order.replay (Order.run members h).stored o = some l → ∀ p ∈ got, p ∉ l := by
  intro hall
  have := hall [5] [.start 0, .push 0, .start 1, .push 1, .write 1 5, .write 0 5] 5 [1] [] 0 [1] (by decide) (fun g => ?_) (by decide) 1 (by decide)
  · revert this; decide
  · by_cases h0 : g = 0
    · subst h0; rfl
    · by_cases h1 : g = 1
      · subst h1; rfl
      · simp [Order.run, Order.step, Order.idle, Order.upd, h0, h1]

end Verif.Props
