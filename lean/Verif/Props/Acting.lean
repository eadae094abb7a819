import Verif.Model.Acting
import Verif.Props.Operator
import Verif.Props.Fetch

/-! # C78: what is done through an operator is done to the sockets it selects -/

namespace Verif.Props
open Verif Verif.Spec Verif.Adapter Verif.Delivery Verif.Operator Verif.Acting

section
variable (rec : Bool) (prog : List Cmd) (k : Nat) (v : OpVal) (hk : opVal rec prog k = some v) (d : Bool) (n : Nsp) (hn : OK n)
include hk hn

/-- The operator the program made `k`-th. -/
theorem options_of : ∃ o, (Operator.run rec prog).ops[k]? = some o ∧
    options (Operator.run rec prog) o = some { rooms := some v.rooms, except := some v.except, flags := some v.flags } := by
  obtain ⟨o, ho, hv⟩ := opVal_some.1 hk
  subst hv
  exact ⟨o, ho, rfl⟩

/-- **C78, `FetchSockets`**: the ids of exactly the sockets selected by the rooms and exceptions the program gave to the operator, each once,
and nothing changes. -/
theorem C78_fetch : ∃ o, (Operator.run rec prog).ops[k]? = some o ∧
    (act d (Operator.run rec prog) o n .fetchSockets).1 = n ∧ (act d (Operator.run rec prog) o n .fetchSockets).2.Nodup ∧
    ∀ s, s ∈ (act d (Operator.run rec prog) o n .fetchSockets).2 ↔ Sel n v.rooms v.except s := by
  obtain ⟨o, ho, hv⟩ := options_of rec prog k v hk n hn
  refine ⟨o, ho, rfl, ?_, ?_⟩
  · simp only [act, hv]; exact (found_spec _ n hn).1
  · intro s; simp only [act, hv]; exact (found_spec _ n hn).2 s

/-- **C78, `SocketsJoin`**: exactly the selected sockets are afterwards in the rooms given. -/
theorem C78_join (joined : List Room) : ∃ o, (Operator.run rec prog).ops[k]? = some o ∧
    ∀ s r, r ∈ roomsOf (act d (Operator.run rec prog) o n (.socketsJoin joined)).1.ad s ↔
      r ∈ roomsOf n.ad s ∨ (Sel n v.rooms v.except s ∧ r ∈ joined) := by
  obtain ⟨o, ho, hv⟩ := options_of rec prog k v hk n hn
  refine ⟨o, ho, ?_⟩
  simp only [act, hv]
  exact (C06_socketsJoin n hn v.rooms v.except joined _).2.2

/-- **C78, `SocketsLeave`**. -/
theorem C78_leave (left : List Room) : ∃ o, (Operator.run rec prog).ops[k]? = some o ∧
    ∀ s r, r ∈ roomsOf (act d (Operator.run rec prog) o n (.socketsLeave left)).1.ad s ↔
      r ∈ roomsOf n.ad s ∧ ¬ (Sel n v.rooms v.except s ∧ r ∈ left) := by
  obtain ⟨o, ho, hv⟩ := options_of rec prog k v hk n hn
  refine ⟨o, ho, ?_⟩
  simp only [act, hv]
  exact (C06_socketsLeave d n hn v.rooms v.except left _).2.2

/-- **C78, `DisconnectSockets`**: exactly the selected sockets are disconnected. -/
theorem C78_disconnect (close : Bool) : ∃ o, (Operator.run rec prog).ops[k]? = some o ∧
    ∀ s, Connected (act d (Operator.run rec prog) o n (.disconnectSockets close)).1 s ↔ Connected n s ∧ ¬ Sel n v.rooms v.except s := by
  obtain ⟨o, ho, hv⟩ := options_of rec prog k v hk n hn
  refine ⟨o, ho, ?_⟩
  simp only [act, hv]
  obtain ⟨_, _, _, _, h1, h2⟩ := C07_disconnectSockets d close n hn v.rooms v.except (some v.flags)
  intro s
  by_cases hs : Sel n v.rooms v.except s
  · simp only [hs, not_true_eq_false, and_false, iff_false]; exact (h1 s hs).1
  · simp only [hs, not_false_eq_true, and_true, Connected]; rw [(h2 s hs).1]

/-- **C78, `AllSockets`**, for an operator without exceptions (a namespace's, or a remote socket's). -/
theorem C78_all_partial (he : v.except = []) : ∃ o, (Operator.run rec prog).ops[k]? = some o ∧
    ∀ s, s ∈ (act d (Operator.run rec prog) o n .allSockets).2 ↔ Sel n v.rooms v.except s := by
  obtain ⟨o, ho, hv⟩ := opVal_some.1 hk
  subst hv
  refine ⟨o, ho, fun s => ?_⟩
  rw [he]
  exact C03_allSockets n hn _ s

end

/-- A program: `socket.To("x").Except("c")` of socket `b`, and `To("x")` of the namespace. -/
def Demo.acting : List Cmd := [.newSock "b", .sockOp 0, .chain 0 (.to ["x"]), .chain 1 (.except ["c"]), .nspOp, .chain 3 (.to ["y"])]

/-- Non-vacuity for C78: `socket.To("x").Except("c")` selects `a` alone. -/
example : (∃ f, opVal false Demo.acting 2 = some ⟨["x"], ["c", "b"], f⟩) ∧ OK demo ∧
    ((Operator.run false Demo.acting).ops[2]?.map fun o => (act true (Operator.run false Demo.acting) o demo .fetchSockets).2) = some ["a"] :=
  ⟨⟨_, rfl⟩, demo_ok, by decide⟩

example : (∃ f, opVal false Demo.acting 4 = some ⟨["y"], [], f⟩) ∧
    ((Operator.run false Demo.acting).ops[4]?.map fun o => (act true (Operator.run false Demo.acting) o demo .allSockets).2) = some ["a", "c"] :=
  ⟨⟨_, rfl⟩, by decide⟩

/-- **C78 is false for `AllSockets`**: the exceptions are ignored, so that `socket.To("x").AllSockets()` contains the socket itself. -/
theorem C78_all_fails : ∃ (prog : List Cmd) (k : Nat) (v : OpVal) (o : OpPtr) (s : Sid), opVal false prog k = some v ∧
    (Operator.run false prog).ops[k]? = some o ∧ (originsOf prog)[k]? = some (some s) ∧ OK demo ∧
    s ∈ (act true (Operator.run false prog) o demo .allSockets).2 ∧ ¬ Sel demo v.rooms v.except s := by
  refine ⟨Demo.acting, 1, _, _, "b", rfl, rfl, by decide, demo_ok, by decide, ?_⟩
  rintro ⟨_, _, h⟩
  exact h ⟨"b", by decide, by decide⟩

end Verif.Props
