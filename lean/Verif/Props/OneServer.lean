import Verif.Proof.OneServer

/-! # C72: a cluster behaves like one server -/

namespace Verif.Props
open Verif Verif.Adapter Verif.Delivery

/-- **C72** (partial: the calls must be published without error and, unlike what servers ensure, each server
must have received the messages of the earlier calls when it makes one itself, and receive them in order).
For every number of servers and every such history of broadcasts, joins, leaves, disconnections and
server-side events made anywhere: once everything has been delivered, a socket, wherever it is connected, is
connected or not, is in the rooms and was sent the packets, in that order, that it would be, be in and be sent
if one single server had executed the calls one after the other. -/
theorem C72_one_server_partial (d : Bool) (n : Nat) (echo recovery : Bool) (init : Nat → Cluster.Node)
    (hok : ∀ j, OK (init j).nsp) (h : List Cluster.Ev) (hp : Spec.Published n h)
    (ho : Spec.InTurn (Cluster.execNode d) n echo recovery init h)
    (drained : (Cluster.run (Cluster.execNode d) n echo recovery init h).net = [])
    (j : Nat) (hj : j < n) (s : Sid) (ref : Nat) (x : Spec.OneSock)
    (hown : (init j).nsp.sidOf ref = s) (hx : Spec.Shows (init j).nsp s ref x) :
    Spec.Shows ((Cluster.run (Cluster.execNode d) n echo recovery init h).nodes j).nsp s ref
      (x.afterAll recovery j h) := by
  have e := Cluster.ordered (Cluster.execNode d) n echo recovery init h ho (fun i op res hm => (hp i op res hm).1) j hj
  rw [drained] at e
  replace e : (Cluster.run (Cluster.execNode d) n echo recovery init h).hist j = Spec.dues n recovery j h := by
    simpa [Cluster.inflight] using e
  rw [Cluster.nodes_eq, e]
  exact (fits_dues d n recovery j hj h hp (init j) s ref x ⟨hok j, hown, hx⟩).shows_

section
variable {σ : Type} (exec : Cluster.Op → σ → σ) (n : Nat) (echo recovery : Bool) (init : Nat → σ)

/-- The order required above is there if all calls are made on the same server and every server receives the
messages in the order they were sent: then nobody has to wait for anything. -/
theorem C72_one_caller (h : List Cluster.Ev) (c : Nat)
    (one : ∀ i op res, Cluster.Ev.call i op res ∈ h → i = c)
    (fifo : ∀ h₁ k h₂, h = h₁ ++ .deliver k :: h₂ → Spec.Oldest (Cluster.run exec n echo recovery init h₁) k) :
    Spec.InTurn exec n echo recovery init h := by
  intro h₁ e h₂ hh
  refine ⟨?_, fun k hk => fifo h₁ k h₂ (hk ▸ hh)⟩
  intro i op res he
  subst he
  have hi : i = c := one i op res (by simp [hh])
  subst hi
  have hall : ∀ i' op res, Cluster.Ev.call i' op res ∈ h₁ → i' = i := fun i' op' res' hm => one i' op' res' (by simp [hh, hm])
  intro m hm
  have := Cluster.srcs exec n echo recovery init h₁ i hall (i, m) hm
  exact this

/-- It is there as well if every call is only made when the messages of the previous ones have been delivered,
in whatever order these are. -/
theorem C72_one_at_a_time (h : List Cluster.Ev)
    (quiet : ∀ h₁ i op res h₂, h = h₁ ++ .call i op res :: h₂ → (Cluster.run exec n echo recovery init h₁).net = []) :
    Spec.InTurn exec n echo recovery init h := by
  intro h₁ e h₂ hh
  constructor
  · intro i op res he m hm
    subst he
    rw [quiet h₁ i op res h₂ hh] at hm
    cases hm
  · intro k _ k' j m m' hlt hk hk'
    have := Cluster.oneEach exec n echo recovery init h₁
      (fun h₃ i op res h₄ h5 => quiet h₃ i op res (h₄ ++ e :: h₂) (by simp [hh, h5]))
    exact Cluster.oneEach_index this hlt hk' hk

end

/-- Sockets "a" on server 0 and "c" on server 1, the calls all on server 0, nobody waits. -/
def Demo.oneCaller : List Cluster.Ev :=
  [.call 0 (.join none ["k"]) (some "1"),
    .call 0 (.broadcast { type := .event, data := .args [.str "hi"] } (some { rooms := some ["k"] })) (some "2"),
    .deliver 0,
    .call 0 (.leave (some { rooms := some ["k"] }) ["k"]) (some "3"),
    .call 0 (.broadcast { type := .event, data := .args [.str "no"] } (some { rooms := some ["k"] })) (some "4"),
    .deliver 0, .deliver 0,
    .call 0 (.disconnect (some { rooms := some ["x"] }) true) (some "5"), .deliver 0, .deliver 0]

example :
    let s := Cluster.run (Cluster.execNode true) 2 false true (fun _ => ⟨demo, []⟩) Demo.oneCaller
    Spec.Published 2 Demo.oneCaller ∧
    Spec.InTurn (Cluster.execNode true) 2 false true (fun _ => ⟨demo, []⟩) Demo.oneCaller ∧ s.net = [] ∧
    (Spec.OneSock.afterAll true 1 { rooms := ["c", "y"] } Demo.oneCaller) =
      { on := true, rooms := ["c", "y"], got := [{ type := .event, data := .args [.str "hi", .str "2"] }] } ∧
    (Spec.OneSock.afterAll true 0 { rooms := ["a", "x"] } Demo.oneCaller).on = false ∧
    (s.nodes 1).nsp.sockets = [("c", 3)] ∧
    (s.nodes 1).nsp.out.filter (·.1 == 3) = [(3, { type := .event, data := .args [.str "hi", .str "2"] })] := by
  refine ⟨?_, C72_one_caller _ _ _ _ _ _ 0 ?_ ?_, by decide, by decide, by decide, by decide, by decide⟩
  · intro i op res hm
    simp only [Demo.oneCaller, List.mem_cons, Cluster.Ev.call.injEq, reduceCtorEq, List.not_mem_nil] at hm
    rcases hm with h | h | h | h | h | h | h | h | h | h | h <;> first | exact h.elim | (obtain ⟨rfl, rfl, rfl⟩ := h; simp)
  · intro i op res hm
    simp only [Demo.oneCaller, List.mem_cons, Cluster.Ev.call.injEq, reduceCtorEq, List.not_mem_nil] at hm
    rcases hm with h | h | h | h | h | h | h | h | h | h | h <;> first | exact h.elim | exact h.1
  · intro h₁ k h₂ hh k' j m m' hlt hk
    have : k = 0 := by
      have : Cluster.Ev.deliver k ∈ Demo.oneCaller := by rw [hh]; simp
      simp only [Demo.oneCaller, List.mem_cons, Cluster.Ev.deliver.injEq, reduceCtorEq, List.not_mem_nil, false_or,
        or_self, or_false] at this
      exact this
    omega

/-- Two servers call at the same time: server 0 makes everybody join "k", server 1 makes everybody leave it. -/
def Demo.atOnce : List Cluster.Ev :=
  [.call 0 (.join none ["k"]) (some "1"), .call 1 (.leave none ["k"]) (some "2"), .deliver 0, .deliver 0]

/-- **C72 fails** without that order, even if each server receives messages in the order they were sent: a server
executes its own calls at once, so two servers may execute the same two calls in different orders.  Here
everybody ends up in the room on server 1 and nobody on server 0, which no order of the two calls on one server
leads to. -/
theorem C72_at_once_fails :
    let s := Cluster.run (Cluster.execNode true) 2 false false (fun _ => ⟨demo, []⟩) Demo.atOnce
    Spec.Published 2 Demo.atOnce ∧ s.net = [] ∧
    (∀ h₁ k h₂, Demo.atOnce = h₁ ++ .deliver k :: h₂ →
      Spec.Oldest (Cluster.run (Cluster.execNode true) 2 false false (fun _ => ⟨demo, []⟩) h₁) k) ∧
    "k" ∉ roomsOf (s.nodes 0).nsp.ad "c" ∧ "k" ∈ roomsOf (s.nodes 1).nsp.ad "c" ∧
    ∀ h : List Cluster.Ev, h.Perm Demo.atOnce → ∀ x : Spec.OneSock,
      (x.afterAll false 0 h).rooms = (x.afterAll false 1 h).rooms := by
  refine ⟨?_, by decide, ?_, by decide, by decide, ?_⟩
  · intro i op res hm
    simp only [Demo.atOnce, List.mem_cons, Cluster.Ev.call.injEq, reduceCtorEq, List.not_mem_nil] at hm
    rcases hm with h | h | h | h | h <;> first | exact h.elim | (obtain ⟨rfl, rfl, rfl⟩ := h; simp)
  · intro h₁ k h₂ hh k' j m m' hlt hk
    have : k = 0 := by
      have : Cluster.Ev.deliver k ∈ Demo.atOnce := by rw [hh]; simp
      simp only [Demo.atOnce, List.mem_cons, Cluster.Ev.deliver.injEq, reduceCtorEq, List.not_mem_nil, false_or,
        or_self, or_false] at this
      exact this
    omega
  · intro h hp x
    have key : ∀ e ∈ h, ∀ x : Spec.OneSock, x.afterAll false 0 [e] = x.afterAll false 1 [e] := by
      intro e he x
      have := hp.mem_iff.1 he
      simp only [Demo.atOnce, List.mem_cons, List.not_mem_nil, or_false] at this
      rcases this with rfl | rfl | rfl | rfl <;>
        simp [Spec.OneSock.afterAll, Spec.OneSock.after, Spec.LocalOnly]
    clear hp
    have cons : ∀ (home : Nat) (x : Spec.OneSock) (e : Cluster.Ev) (h : List Cluster.Ev),
        x.afterAll false home (e :: h) = (x.afterAll false home [e]).afterAll false home h := fun _ _ _ _ => rfl
    congr 1
    induction h generalizing x with
    | nil => rfl
    | cons e h ih =>
      rw [cons, cons 1, key e (by simp)]
      exact ih _ (fun e' he' => key e' (by simp [he']))

end Verif.Props
