import Verif.Spec.Cluster
import Verif.Lib.ListExtra

namespace Verif.Cluster
open Verif

theorem onlyLocal_eq (o : Option Opts) : onlyLocal o = Spec.LocalOnly o := by
  cases o with
  | none => rfl
  | some o => cases o with | mk r e f => cases f <;> rfl

theorem decode_encode (o : Option Opts) : decodeOptions (encodeOptions o) = Spec.wire o := by
  cases o <;> rfl

theorem notVolatile_eq (o : Option Opts) : notVolatile o = !((o.bind (·.flags)).any (·.volatile)) := by
  cases o with
  | none => rfl
  | some o => cases o with | mk r e f => cases f <;> rfl

theorem addOffset_eq (rec : Bool) (p : Pkt) (o : Option Opts) (off : String) :
    addOffset rec p o off = Spec.withOffset rec off o p := by
  rcases p with ⟨t, nsp, d, i⟩
  unfold addOffset Spec.withOffset
  rw [notVolatile_eq]
  cases t <;> cases d <;> cases i <;> simp

theorem withOffset_wire (rec : Bool) (p : Pkt) (o : Option Opts) (off : String) :
    Spec.withOffset rec off (Spec.wire o) p = Spec.withOffset rec off o p := by
  unfold Spec.withOffset Spec.wire; simp

/-- What a receiver executes for a message. -/
def opOf (rec : Bool) (m : Msg) : Op :=
  match m.body with
  | .broadcast p o => .broadcast (addOffset rec p (decodeOptions o) m.offset) (decodeOptions o)
  | .join o rooms => .join (decodeOptions o) rooms
  | .leave o rooms => .leave (decodeOptions o) rooms
  | .disconnect o close => .disconnect (decodeOptions o) close
  | .event args none => .event args
  | .event args (some req) => .event (args ++ [.fn req])

def pendFor (rec : Bool) (j : Nat) (x : Nat × Msg) : List Op :=
  if x.1 = j ∧ x.2.src ≠ j then [opOf rec x.2] else []

/-- The executions still to come at `j` from the messages under way. -/
def inflight (rec : Bool) (j : Nat) (net : List (Nat × Msg)) : List Op := net.flatMap (pendFor rec j)

section
variable {σ : Type} (exec : Op → σ → σ) (n : Nat) (echo rec : Bool)

theorem onMessage_eq (s : St σ) (j : Nat) (m : Msg) :
    onMessage exec rec s j m = if m.src = j then s else local_ exec s j (opOf rec m) := by
  unfold onMessage opOf
  split
  · rfl
  · split <;> simp_all

theorem inflight_publish (j i : Nat) (off : String) (b : Body) (hj : j < n) :
    inflight rec j (((List.range n).filter (fun j => echo || j != i)).map (fun j => (j, (⟨i, off, b⟩ : Msg)))) =
      if j = i then [] else [opOf rec ⟨i, off, b⟩] := by
  unfold inflight
  rw [List.flatMap_map]
  have key : ∀ l : List Nat, l.Nodup →
      (l.filter (fun j => echo || j != i)).flatMap (fun a => pendFor rec j (a, (⟨i, off, b⟩ : Msg))) =
        if j ∈ l ∧ j ≠ i then [opOf rec ⟨i, off, b⟩] else [] := by
    intro l hl
    induction l with
    | nil => simp
    | cons a l ih =>
      have ih := ih (List.nodup_cons.1 hl).2
      have ha := (List.nodup_cons.1 hl).1
      by_cases haj : a = j
      · subst haj
        by_cases hai : a = i
        · subst hai
          simp only [List.filter_cons]
          split <;> simp_all [pendFor]
        · have : ¬ i = a := fun e => hai e.symm
          rw [if_neg (by simp [ha])] at ih
          rw [List.filter_cons_of_pos (by simp [hai]), List.flatMap_cons, ih]
          simp [pendFor, hai, this]
      · have e1 : ∀ q : Msg, pendFor rec j (a, q) = [] := by intro q; simp [pendFor, haj]
        have e2 : (j ∈ a :: l ∧ j ≠ i) ↔ (j ∈ l ∧ j ≠ i) := by
          have : ¬ j = a := fun e => haj e.symm
          simp [this]
        simp only [e2]
        rw [← ih]
        simp only [List.filter_cons]
        split <;> simp [e1]
  rw [key _ List.nodup_range]
  by_cases h : j = i <;> simp [h, hj]

theorem inflight_append (j : Nat) (a b : List (Nat × Msg)) :
    inflight rec j (a ++ b) = inflight rec j a ++ inflight rec j b := by simp [inflight]

theorem inflight_erase (j k : Nat) (net : List (Nat × Msg)) (x : Nat × Msg) (h : net[k]? = some x) :
    (pendFor rec j x ++ inflight rec j (net.eraseIdx k)).Perm (inflight rec j net) := by
  unfold inflight
  induction net generalizing k with
  | nil => simp at h
  | cons a l ih =>
    cases k with
    | zero => simp at h; subst h; simp
    | succ k =>
      have := ih k (by simpa using h)
      simp only [List.eraseIdx_cons_succ, List.flatMap_cons]
      refine List.Perm.trans ?_ (this.append_left _)
      rw [← List.append_assoc, ← List.append_assoc]
      exact List.perm_append_comm.append_right _

theorem inflight_tryPublish (s : St σ) (i j : Nat) (res : Option String) (b : Body) (hj : j < n) :
    inflight rec j (tryPublish n echo s i res b).net = inflight rec j s.net ++
      (match res with | none => [] | some off => if j = i then [] else [opOf rec ⟨i, off, b⟩]) := by
  cases res with
  | none => simp [tryPublish]
  | some off => simp only [tryPublish, publish, inflight_append, inflight_publish n echo rec j i off b hj]

@[simp] theorem tryPublish_hist (s : St σ) (i : Nat) (res : Option String) (b : Body) :
    (tryPublish n echo s i res b).hist = s.hist := by cases res <;> rfl
@[simp] theorem tryPublish_nodes (s : St σ) (i : Nat) (res : Option String) (b : Body) :
    (tryPublish n echo s i res b).nodes = s.nodes := by cases res <;> rfl
@[simp] theorem local_net (s : St σ) (i : Nat) (op : Op) : (local_ exec s i op).net = s.net := rfl
theorem local_hist (s : St σ) (i j : Nat) (op : Op) :
    (local_ exec s i op).hist j = s.hist j ++ (if j = i then [op] else []) := by
  simp only [local_]; split <;> simp

theorem call_conserves (s : St σ) (i j : Nat) (op : Cmd) (res : Option String) (hi : i < n) (hj : j < n) :
    ((call exec n echo rec s i op res).hist j ++ inflight rec j (call exec n echo rec s i op res).net).Perm
      ((s.hist j ++ inflight rec j s.net) ++ Spec.due n rec j (.call i op res)) := by
  have comm : ∀ x y z : List Op, ((x ++ y) ++ z).Perm ((x ++ z) ++ y) := by
    intro x y z
    simp only [List.append_assoc]
    exact List.perm_append_comm.append_left _
  have comm1 : ∀ (x : List Op) (a : Op) (z : List Op), (x ++ a :: z).Perm (x ++ (z ++ [a])) := by
    intro x a z
    exact (List.perm_append_comm (l₁ := [a]) (l₂ := z)).append_left x
  cases op with
  | broadcast p o =>
    simp only [call, Spec.due, hi, hj, and_self, if_true, onlyLocal_eq]
    cases hl : Spec.LocalOnly o with
    | true => simp only [if_true, local_hist, local_net]; exact comm _ _ _
    | false =>
      cases res with
      | none => simp
      | some off =>
        have ep : ∀ b, publish n echo s i off b = tryPublish n echo s i (some off) b := fun _ => rfl
        simp only [local_hist, local_net, ep, tryPublish_hist, inflight_tryPublish n echo rec s i j _ _ hj,
          addOffset_eq, Bool.false_eq_true, if_false]
        by_cases hji : j = i
        · subst hji; simpa using comm1 _ _ _
        · simp [hji, opOf, addOffset_eq, decode_encode, withOffset_wire]
  | join o rooms =>
    simp only [call, Spec.due, hi, hj, and_self, if_true, onlyLocal_eq, local_hist, local_net]
    by_cases hji : j = i
    · subst hji
      cases hl : Spec.LocalOnly o with
      | true => simp only [if_true]; exact comm _ _ _
      | false =>
        simp only [inflight_tryPublish n echo rec s j j res _ hj, tryPublish_hist, if_true, Bool.false_eq_true, if_false]
        cases res <;> simpa using comm1 _ _ _
    · cases hl : Spec.LocalOnly o with
      | true => simp [hji]
      | false =>
        cases res <;> simp [hji, opOf, decode_encode, inflight_tryPublish n echo rec s i j _ _ hj]
  | leave o rooms =>
    simp only [call, Spec.due, hi, hj, and_self, if_true, onlyLocal_eq, local_hist, local_net]
    by_cases hji : j = i
    · subst hji
      cases hl : Spec.LocalOnly o with
      | true => simp only [if_true]; exact comm _ _ _
      | false =>
        simp only [inflight_tryPublish n echo rec s j j res _ hj, tryPublish_hist, if_true, Bool.false_eq_true, if_false]
        cases res <;> simpa using comm1 _ _ _
    · cases hl : Spec.LocalOnly o with
      | true => simp [hji]
      | false => cases res <;> simp [hji, opOf, decode_encode, inflight_tryPublish n echo rec s i j _ _ hj]
  | disconnect o c =>
    simp only [call, Spec.due, hi, hj, and_self, if_true, onlyLocal_eq, local_hist, local_net]
    by_cases hji : j = i
    · subst hji
      cases hl : Spec.LocalOnly o with
      | true => simp only [if_true]; exact comm _ _ _
      | false =>
        simp only [inflight_tryPublish n echo rec s j j res _ hj, tryPublish_hist, if_true, Bool.false_eq_true, if_false]
        cases res <;> simpa using comm1 _ _ _
    · cases hl : Spec.LocalOnly o with
      | true => simp [hji]
      | false => cases res <;> simp [hji, opOf, decode_encode, inflight_tryPublish n echo rec s i j _ _ hj]
  | emit packet expected req =>
    simp only [call, Spec.due, hi, hj, and_self, if_true]
    rcases List.eq_nil_or_concat packet with rfl | ⟨l, x, rfl⟩
    · simp [Spec.sseArgs]
    · simp only [List.concat_eq_append, List.getLast?_append, List.getLast?_singleton, Option.some_or,
        Spec.sseArgs, List.reverse_append, List.reverse_cons, List.reverse_nil, List.nil_append,
        List.singleton_append, List.dropLast_concat]
      cases x with
      | fn k =>
        by_cases he : expected = 0
        · simp [he]
        · simp only [he, if_false, tryPublish_hist, inflight_tryPublish n echo rec s i j res _ hj]
          cases res <;> by_cases hji : j = i <;> simp [hji, opOf]
      | «at» a =>
        simp only [tryPublish_hist, inflight_tryPublish n echo rec s i j res _ hj]
        cases res <;> by_cases hji : j = i <;> simp [hji, opOf]
      | arr a =>
        simp only [tryPublish_hist, inflight_tryPublish n echo rec s i j res _ hj]
        cases res <;> by_cases hji : j = i <;> simp [hji, opOf]

theorem step_conserves (s : St σ) (j : Nat) (e : Ev) (hj : j < n) :
    ((step exec n echo rec s e).hist j ++ inflight rec j (step exec n echo rec s e).net).Perm
      ((s.hist j ++ inflight rec j s.net) ++ Spec.due n rec j e) := by
  cases e with
  | call i op res =>
    simp only [step]
    split
    · exact call_conserves exec n echo rec s i j op res ‹_› hj
    · simp [Spec.due, *]
  | deliver k =>
    simp only [step, Spec.due, List.append_nil]
    split
    · rename_i d m hm
      have hperm := inflight_erase rec j k s.net (d, m) hm
      rw [onMessage_eq]
      split
      · rename_i hsrc
        have : pendFor rec j (d, m) = [] := by
          simp only [pendFor]; rw [if_neg]; rintro ⟨rfl, h⟩; exact h hsrc
        rw [this] at hperm
        exact List.Perm.append_left _ hperm
      · rename_i hsrc
        simp only [local_hist, local_net]
        have e : pendFor rec j (d, m) = if j = d then [opOf rec m] else [] := by
          simp only [pendFor]
          by_cases hjd : j = d
          · subst hjd; simp [hsrc]
          · have : ¬ d = j := fun e => hjd e.symm
            simp [hjd, this]
        rw [← e]
        simp only [List.append_assoc]
        exact List.Perm.append_left _ hperm
    · exact List.Perm.refl _

/-- Every execution due at `j` has happened or is under way, and nothing else has. -/
theorem conserved (init : Nat → σ) (h : List Ev) (j : Nat) (hj : j < n) :
    ((run exec n echo rec init h).hist j ++ inflight rec j (run exec n echo rec init h).net).Perm
      (Spec.dues n rec j h) := by
  induction h using snocRec with
  | nil => simp [run, inflight, Spec.dues]
  | append_singleton h e ih =>
    have e1 : run exec n echo rec init (h ++ [e]) = step exec n echo rec (run exec n echo rec init h) e := by
      simp [run]
    rw [e1]
    refine (step_conserves exec n echo rec _ j e hj).trans ?_
    have : Spec.dues n rec j (h ++ [e]) = Spec.dues n rec j h ++ Spec.due n rec j e := by simp [Spec.dues]
    rw [this]
    exact ih.append_right _

theorem local_nodes (init : Nat → σ) (s : St σ) (i : Nat) (op : Op)
    (h : ∀ j, s.nodes j = (s.hist j).foldl (fun a b => exec b a) (init j)) (j : Nat) :
    (local_ exec s i op).nodes j = ((local_ exec s i op).hist j).foldl (fun a b => exec b a) (init j) := by
  simp only [local_]
  split <;> simp [h j]

theorem nodes_call (init : Nat → σ) (s : St σ) (i : Nat) (op : Cmd) (res : Option String)
    (h : ∀ j, s.nodes j = (s.hist j).foldl (fun a b => exec b a) (init j)) (j : Nat) :
    (call exec n echo rec s i op res).nodes j =
      ((call exec n echo rec s i op res).hist j).foldl (fun a b => exec b a) (init j) := by
  have hif : ∀ (c : Bool) (b : Body) (j : Nat), (if c = true then s else tryPublish n echo s i res b).nodes j =
      ((if c = true then s else tryPublish n echo s i res b).hist j).foldl (fun a b => exec b a) (init j) := by
    intro c b j; cases c <;> simp [h j]
  cases op with
  | broadcast p o =>
    simp only [call]
    split
    · exact local_nodes exec init s i _ h j
    · cases res with
      | none => exact h j
      | some off => exact local_nodes exec init _ i _ (fun j => by simp [publish, h j]) j
  | join o rooms => exact local_nodes exec init _ i _ (hif _ _) j
  | leave o rooms => exact local_nodes exec init _ i _ (hif _ _) j
  | disconnect o c => exact local_nodes exec init _ i _ (hif _ _) j
  | emit packet expected req =>
    simp only [call]
    split
    · exact h j
    · split
      · exact h j
      · simp [h j]
    · simp [h j]

/-- The state of a server is the result of the calls it has executed. -/
theorem nodes_eq (init : Nat → σ) (h : List Ev) (j : Nat) :
    (run exec n echo rec init h).nodes j =
      ((run exec n echo rec init h).hist j).foldl (fun a b => exec b a) (init j) := by
  revert j
  induction h using snocRec with
  | nil => intro j; rfl
  | append_singleton h e ih =>
    have e1 : run exec n echo rec init (h ++ [e]) = step exec n echo rec (run exec n echo rec init h) e := by
      simp [run]
    rw [e1]
    intro j
    cases e with
    | call i op res =>
      simp only [step]; split
      · exact nodes_call exec n echo rec init _ i op res ih j
      · exact ih j
    | deliver k =>
      simp only [step]; split
      · rw [onMessage_eq]; split
        · exact ih j
        · exact local_nodes exec init _ _ _ ih j
      · exact ih j

end
end Verif.Cluster
