import Verif.Spec.Listeners
import Verif.Lib.ListExtra

/-! # C50: catch-all listeners -/

namespace Verif.Props
open Verif Verif.Spec Verif.Listeners

theorem mentioned_append (a b : List Listeners.Op) : mentioned (a ++ b) = mentioned a ++ mentioned b := by
  induction a with
  | nil => rfl
  | cons x a ih =>
    cases x with
    | off k i l => cases l <;> simp [mentioned, ih]
    | _ => simp [mentioned, ih]

theorem notify_lists (s : Listeners.St) (k : Kind) (i : Nat) (args : List Val) : (notify s k i args).lists = s.lists := rfl

theorem cast_lists (reached : List Nat) (args : List Val) : ∀ s : Listeners.St,
    (reached.foldl (fun s i => notify s .outgoing i args) s).lists = s.lists ∧
    (reached.foldl (fun s i => notify s .outgoing i args) s).calls = s.calls ++
      reached.flatMap fun i => (s.lists .outgoing i).map fun l => (.outgoing, i, l, args) := by
  induction reached with
  | nil => intro s; simp
  | cons i r ih =>
    intro s
    obtain ⟨h1, h2⟩ := ih (notify s .outgoing i args)
    simp only [List.foldl_cons]
    refine ⟨h1.trans rfl, ?_⟩
    rw [h2]
    simp [notify, List.append_assoc]

theorem mem_of_registered {code : Nat → Nat} (h : List Listeners.Op) (k : Kind) (i : Nat) :
    ∀ l ∈ (Listeners.run code h).lists k i, l ∈ mentioned h := by
  induction h using snocRec with
  | nil => intro l hl; simp [Listeners.run] at hl
  | append_singleton h op ih =>
    intro l hl
    rw [mentioned_append]
    have hrun : Listeners.run code (h ++ [op]) = Listeners.step code (Listeners.run code h) op := by simp [Listeners.run]
    rw [hrun] at hl
    have old (hl : l ∈ (Listeners.run code h).lists k i) : l ∈ mentioned h ++ mentioned [op] := List.mem_append_left _ (ih l hl)
    cases op with
    | on k' i' m =>
      simp only [Listeners.step, St.put] at hl
      split at hl
      · rename_i e; obtain ⟨rfl, rfl⟩ := e
        rcases List.mem_append.mp hl with hl | hl
        · exact old hl
        · simp at hl; subst hl; simp [mentioned]
      · exact old hl
    | prepend k' i' m =>
      simp only [Listeners.step, St.put] at hl
      split at hl
      · rename_i e; obtain ⟨rfl, rfl⟩ := e
        rcases List.mem_cons.mp hl with hl | hl
        · subst hl; simp [mentioned]
        · exact old hl
      · exact old hl
    | off k' i' m =>
      cases m with
      | some m =>
        simp only [Listeners.step, St.put] at hl
        split at hl
        · rename_i e; obtain ⟨rfl, rfl⟩ := e
          exact old (List.mem_of_mem_eraseP hl)
        · exact old hl
      | none =>
        simp only [Listeners.step, St.put] at hl
        split at hl
        · cases hl
        · exact old hl
    | recv i' a => exact old hl
    | emit i' a => exact old hl
    | cast r a => simp only [Listeners.step] at hl; rw [(cast_lists r a _).1] at hl; exact old hl

/-- **C50, partial**: if the listeners used are made from different function literals, the listeners of a socket are at any time
those that `On` and `Prepend` have registered and `Off` has not removed, each `Off(l)` having removed the first registration of `l`
and nothing else, in the order of registration (prepended ones first). -/
theorem C50_order_partial (code : Nat → Nat) (h : List Listeners.Op)
    (hcode : ∀ a ∈ mentioned h, ∀ b ∈ mentioned h, code a = code b → a = b) (k : Kind) (i : Nat) :
    (Listeners.run code h).lists k i = listening k i h := by
  induction h using snocRec with
  | nil => rfl
  | append_singleton h op ih =>
    have hrun : Listeners.run code (h ++ [op]) = Listeners.step code (Listeners.run code h) op := by simp [Listeners.run]
    rw [mentioned_append] at hcode
    have ih := ih (fun a ha b hb => hcode a (List.mem_append_left _ ha) b (List.mem_append_left _ hb))
    have hl : listening k i (h ++ [op]) = listeningRev k i (op :: h.reverse) := by simp [listening]
    have hh : listeningRev k i h.reverse = listening k i h := rfl
    rw [hrun, hl]
    cases op with
    | on k' i' m =>
      simp only [Listeners.step, St.put, listeningRev, hh]
      by_cases e : k' = k ∧ i' = i
      · obtain ⟨rfl, rfl⟩ := e; simp [ih]
      · rw [if_neg e, if_neg (fun x => e ⟨x.1.symm, x.2.symm⟩)]; exact ih
    | prepend k' i' m =>
      simp only [Listeners.step, St.put, listeningRev, hh]
      by_cases e : k' = k ∧ i' = i
      · obtain ⟨rfl, rfl⟩ := e; simp [ih]
      · rw [if_neg e, if_neg (fun x => e ⟨x.1.symm, x.2.symm⟩)]; exact ih
    | off k' i' m =>
      cases m with
      | some m =>
        simp only [Listeners.step, St.put, listeningRev, hh]
        by_cases e : k' = k ∧ i' = i
        · obtain ⟨rfl, rfl⟩ := e
          simp only [and_self, if_true]
          rw [← ih, List.erase_eq_eraseP]
          have hm : m ∈ mentioned h ++ mentioned [Listeners.Op.off k' i' (some m)] := by simp [mentioned]
          have mem := mem_of_registered (code := code) h k' i'
          generalize (Listeners.run code h).lists k' i' = l at mem
          induction l with
          | nil => rfl
          | cons x l ihl =>
            have hx := hcode x (List.mem_append_left _ (mem x (by simp))) m hm
            have ihl := ihl (fun y hy => mem y (by simp [hy]))
            by_cases hxm : x = m
            · subst hxm; simp [List.eraseP]
            · have : ¬ code x = code m := fun hc => hxm (hx hc)
              have hne : ¬ m = x := fun hc => hxm hc.symm
              have b1 : (code x == code m) = false := by simpa using this
              have b2 : (m == x) = false := by simpa using hne
              simp [List.eraseP, b1, b2, ihl]
        · rw [if_neg e, if_neg (fun x => e ⟨x.1.symm, x.2.symm⟩)]; exact ih
      | none =>
        simp only [Listeners.step, St.put, listeningRev, hh]
        by_cases e : k' = k ∧ i' = i
        · obtain ⟨rfl, rfl⟩ := e; simp
        · rw [if_neg e, if_neg (fun x => e ⟨x.1.symm, x.2.symm⟩)]; exact ih
    | recv i' a => exact ih
    | emit i' a => exact ih
    | cast r a => simp only [Listeners.step]; rw [(cast_lists r a _).1]; exact ih

/-- **C50, notification**: an event that arrives, or is emitted to a socket, calls each registration of that socket once, in
order, with the arguments of the event; a broadcast does so for every socket it reaches; nothing else is called. -/
theorem C50_notified (code : Nat → Nat) (h : List Listeners.Op) :
    (∀ i args, (Listeners.run code (h ++ [.recv i args])).calls = (Listeners.run code h).calls ++
      ((Listeners.run code h).lists .incoming i).map fun l => (.incoming, i, l, args)) ∧
    (∀ i args, (Listeners.run code (h ++ [.emit i args])).calls = (Listeners.run code h).calls ++
      ((Listeners.run code h).lists .outgoing i).map fun l => (.outgoing, i, l, args)) ∧
    (∀ reached args, (Listeners.run code (h ++ [.cast reached args])).calls = (Listeners.run code h).calls ++
      reached.flatMap fun i => ((Listeners.run code h).lists .outgoing i).map fun l => (.outgoing, i, l, args)) ∧
    (∀ op, (∀ i a, op ≠ .recv i a) → (∀ i a, op ≠ .emit i a) → (∀ r a, op ≠ .cast r a) →
      (Listeners.run code (h ++ [op])).calls = (Listeners.run code h).calls) := by
  have hrun (op : Listeners.Op) : Listeners.run code (h ++ [op]) = Listeners.step code (Listeners.run code h) op := by
    simp [Listeners.run]
  refine ⟨fun i a => by rw [hrun]; rfl, fun i a => by rw [hrun]; rfl, fun r a => by rw [hrun]; exact (cast_lists r a _).2, ?_⟩
  intro op h1 h2 h3
  rw [hrun]
  cases op with
  | on => rfl
  | prepend => rfl
  | off k i l => cases l <;> rfl
  | recv i a => exact absurd rfl (h1 i a)
  | emit i a => exact absurd rfl (h2 i a)
  | cast r a => exact absurd rfl (h3 r a)

/-- **C50 fails for closures**: with two listeners made from one function literal, removing the second removes the first. -/
theorem C50_fail : ¬ ∀ (code : Nat → Nat) (h : List Listeners.Op) (k : Kind) (i : Nat),
    (Listeners.run code h).lists k i = listening k i h := by
  intro hall
  exact absurd (hall (fun _ => 0) [.on .incoming 0 1, .on .incoming 0 2, .off .incoming 0 (some 2)] .incoming 0) (by decide)

namespace Demo
def listeners : List Listeners.Op :=
  [.on .incoming 0 1, .on .incoming 0 2, .prepend .incoming 0 3, .on .incoming 0 1, .on .outgoing 0 5, .on .outgoing 1 6,
   .off .incoming 0 (some 1), .recv 0 [Val.str "hi"], .cast [1, 0] [Val.str "all"]]
end Demo

example : (Listeners.run id Demo.listeners).calls =
    [(.incoming, 0, 3, [Val.str "hi"]), (.incoming, 0, 2, [Val.str "hi"]), (.incoming, 0, 1, [Val.str "hi"]),
     (.outgoing, 1, 6, [Val.str "all"]), (.outgoing, 0, 5, [Val.str "all"])] ∧
    ∀ a ∈ mentioned Demo.listeners, ∀ b ∈ mentioned Demo.listeners, id a = id b → a = b := by decide

end Verif.Props
