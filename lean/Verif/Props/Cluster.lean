import Verif.Proof.ClusterSel
import Verif.Proof.Once

/-! # C37, C38, C39, C44: calls that act on a whole cluster -/

namespace Verif.Props
open Verif Verif.Adapter Verif.Delivery

/-! ## C37 -/

/-- **C37.**  Whatever order the keys of the sets are sent in, decoding the encoded options on another server
gives the same flags and the same selection, in every adapter state: same sockets fetched, the packet handed
to the same sockets, and the other calls act on the same sockets (`selected`). -/
theorem C37_options_roundtrip (o : Option Opts) (q : Cluster.PacketOptions)
    (hr : q.rooms.Perm (Cluster.encodeOptions o).rooms) (he : q.except.Perm (Cluster.encodeOptions o).except)
    (hf : q.flags = (Cluster.encodeOptions o).flags) :
    (Cluster.decodeOptions q).bind (·.flags) = o.bind (·.flags) ∧
    ∀ n : Nsp, OK n →
      (∀ s, Sel n (Spec.targeted (Cluster.decodeOptions q)) (Spec.excepted (Cluster.decodeOptions q)) s ↔
        Sel n (Spec.targeted o) (Spec.excepted o) s) ∧
      (fetchSockets n (Cluster.decodeOptions q)).Perm (fetchSockets n o) ∧
      ∀ p, ∃ refs refs' : List Nat, refs.Perm refs' ∧
        broadcast n p (Cluster.decodeOptions q) = { n with out := n.out ++ refs.map (·, p) } ∧
        broadcast n p o = { n with out := n.out ++ refs'.map (·, p) } := by
  have hflags : (Cluster.decodeOptions q).bind (·.flags) = o.bind (·.flags) := by
    cases o <;> simp_all [Cluster.decodeOptions, Cluster.encodeOptions]
  have ht : ∀ x, x ∈ Spec.targeted (Cluster.decodeOptions q) ↔ x ∈ Spec.targeted o := by
    intro x
    have h1 : x ∈ Spec.targeted (Cluster.decodeOptions q) ↔ x ∈ q.rooms := by
      simp [Spec.targeted, Cluster.decodeOptions]
    rw [h1, hr.mem_iff]
    cases o <;> simp [Spec.targeted, Cluster.encodeOptions]
  have hx : ∀ x, x ∈ Spec.excepted (Cluster.decodeOptions q) ↔ x ∈ Spec.excepted o := by
    intro x
    have h1 : x ∈ Spec.excepted (Cluster.decodeOptions q) ↔ x ∈ q.except := by
      simp [Spec.excepted, Cluster.decodeOptions]
    rw [h1, he.mem_iff]
    cases o <;> simp [Spec.excepted, Cluster.encodeOptions]
  refine ⟨hflags, fun n hn => ⟨sel_congr ht hx, ?_, ?_⟩⟩
  · have ex : ∀ o : Option Opts, fetchSockets n o =
        fetchSockets n (some ⟨some (Spec.targeted o), some (Spec.excepted o), o.bind (·.flags)⟩) := by
      intro o; unfold fetchSockets; rw [apply_explicit]
    rw [ex, ex o]
    obtain ⟨ids, ptr, nd, hm, hp, e⟩ := C03_fetchSockets n hn (Spec.targeted (Cluster.decodeOptions q))
      (Spec.excepted (Cluster.decodeOptions q)) ((Cluster.decodeOptions q).bind (·.flags))
    obtain ⟨ids', ptr', nd', hm', hp', e'⟩ := C03_fetchSockets n hn (Spec.targeted o) (Spec.excepted o)
      (o.bind (·.flags))
    rw [e, e']
    exact perm_of_ids nd nd' (fun s => by rw [hm, hm', sel_congr ht hx]) hp hp'
  · intro p
    have ex : ∀ o : Option Opts, broadcast n p o =
        broadcast n p (some ⟨some (Spec.targeted o), some (Spec.excepted o), o.bind (·.flags)⟩) := by
      intro o; unfold broadcast; rw [apply_explicit]
    rw [ex, ex o]
    obtain ⟨ids, ptr, nd, hm, hp, e⟩ := C03_broadcast n hn p (Spec.targeted (Cluster.decodeOptions q))
      (Spec.excepted (Cluster.decodeOptions q)) ((Cluster.decodeOptions q).bind (·.flags))
    obtain ⟨ids', ptr', nd', hm', hp', e'⟩ := C03_broadcast n hn p (Spec.targeted o) (Spec.excepted o)
      (o.bind (·.flags))
    refine ⟨ids.map ptr, ids'.map ptr',
      perm_of_ids nd nd' (fun s => by rw [hm, hm', sel_congr ht hx]) hp hp', ?_, ?_⟩
    · rw [e]; simp
    · rw [e']; simp

/-- Options as sent over the wire in another order. -/
example : OK demo ∧
    fetchSockets demo (Cluster.decodeOptions { rooms := ["y", "x"], except := ["c"], flags := some { volatile := true } })
      = [2, 1] ∧
    fetchSockets demo (some { rooms := some ["x", "y"], except := some ["c"], flags := some { volatile := true } })
      = [2, 1] := ⟨demo_ok, by decide, by decide⟩

/-! ## C38, C39, C44: every server does its part exactly once -/

section
variable {σ : Type} (exec : Cluster.Op → σ → σ) (n : Nat) (echo recovery : Bool) (init : Nat → σ)

/-- **C38, C39, C44.**  For every number of servers, every history of calls on them and of deliveries in any
order: once all messages have been delivered, every server has executed exactly the calls due to it, each as
often as due, and its state is the result of executing them. -/
theorem C38_exactly_once (h : List Cluster.Ev)
    (drained : (Cluster.run exec n echo recovery init h).net = []) (j : Nat) (hj : j < n) :
    ∃ ops : List Cluster.Op, ops.Perm (Spec.dues n recovery j h) ∧
      (Cluster.run exec n echo recovery init h).nodes j = ops.foldl (fun s op => exec op s) (init j) := by
  refine ⟨_, ?_, Cluster.nodes_eq exec n echo recovery init h j⟩
  have := Cluster.conserved exec n echo recovery init h j hj
  rw [drained] at this
  simpa [Cluster.inflight] using this

/-- **C38, C39, C44**, at any time: no server has executed anything that is not due, or more often. -/
theorem C38_never_more (h : List Cluster.Ev) (j : Nat) (hj : j < n) :
    ∃ ops rest : List Cluster.Op, (ops ++ rest).Perm (Spec.dues n recovery j h) ∧
      (Cluster.run exec n echo recovery init h).nodes j = ops.foldl (fun s op => exec op s) (init j) :=
  ⟨_, _, Cluster.conserved exec n echo recovery init h j hj, Cluster.nodes_eq exec n echo recovery init h j⟩

/-- Delivering what is under way empties the network. -/
theorem C38_can_drain (h : List Cluster.Ev) :
    ∃ ds : List Cluster.Ev, (∀ e ∈ ds, e = .deliver 0) ∧
      (Cluster.run exec n echo recovery init (h ++ ds)).net = [] := by
  have key : ∀ (k : Nat) (s : Cluster.St σ), s.net.length = k →
      ((List.replicate k (Cluster.Ev.deliver 0)).foldl (Cluster.step exec n echo recovery) s).net = [] := by
    intro k
    induction k with
    | zero => intro s hs; exact List.length_eq_zero_iff.1 hs
    | succ k ih =>
      intro s hs
      rw [List.replicate_succ, List.foldl_cons]
      apply ih
      obtain ⟨x, l, hx⟩ := List.exists_cons_of_length_eq_add_one hs
      simp only [Cluster.step, hx, List.getElem?_cons_zero, Cluster.onMessage_eq]
      have : l.length = k := by rw [hx] at hs; simpa using hs
      split <;> simpa using this
  refine ⟨List.replicate (Cluster.run exec n echo recovery init h).net.length (.deliver 0), ?_, ?_⟩
  · intro e he; exact List.eq_of_mem_replicate he
  · have := key _ (Cluster.run exec n echo recovery init h) rfl
    simpa [Cluster.run, List.foldl_append] using this

end

/-- Server `j` takes part in a call made on server `i`: always if it is the calling one, otherwise unless the
call is restricted to the local server or could not be published. -/
def TakesPart (i : Nat) (o : Option Opts) (res : Option String) (j : Nat) : Prop :=
  j = i ∨ (Spec.LocalOnly o = false ∧ res ≠ none)

/-- **C38**, seen by the clients.  `Broadcast` on server `i`, then the deliveries in any order until the
network is empty: on every server `j` the packet (with the offset, if there is one) is handed to exactly the
sockets selected there, to each once, and nothing else changes; with the Local flag this happens on server
`i` only, and without it nowhere if publishing failed. -/
theorem C38_clients (d : Bool) (n : Nat) (echo recovery : Bool) (init : Nat → Cluster.Node)
    (hok : ∀ j, OK (init j).nsp) (i : Nat) (hi : i < n) (p : Pkt) (o : Option Opts) (res : Option String)
    (ds : List Cluster.Ev) (only : ∀ e ∈ ds, ∃ k, e = .deliver k)
    (drained : (Cluster.run (Cluster.execNode d) n echo recovery init (.call i (.broadcast p o) res :: ds)).net = [])
    (j : Nat) (hj : j < n) :
    ∃ ids : List Sid, ∃ ptr : Sid → Nat, ids.Nodup ∧
      (∀ s, s ∈ ids ↔ (if Spec.LocalOnly o then j = i else res ≠ none) ∧
        Sel (init j).nsp (Spec.targeted o) (Spec.excepted o) s) ∧
      (∀ s ∈ ids, (init j).nsp.sockets.get? s = some (ptr s)) ∧
      (Cluster.run (Cluster.execNode d) n echo recovery init (.call i (.broadcast p o) res :: ds)).nodes j =
        { init j with nsp := { (init j).nsp with out := (init j).nsp.out ++ ids.map (fun s => (ptr s,
          if Spec.LocalOnly o then p else Spec.withOffset recovery (res.getD "") o p)) } } := by
  rw [one_call (Cluster.execNode d) n echo recovery init i _ res ds only drained j hj]
  have bc : ∀ (q : Pkt) (o' : Option Opts), (∀ x, x ∈ Spec.targeted o' ↔ x ∈ Spec.targeted o) →
      (∀ x, x ∈ Spec.excepted o' ↔ x ∈ Spec.excepted o) →
      ∃ ids : List Sid, ∃ ptr : Sid → Nat, ids.Nodup ∧
        (∀ s, s ∈ ids ↔ Sel (init j).nsp (Spec.targeted o) (Spec.excepted o) s) ∧
        (∀ s ∈ ids, (init j).nsp.sockets.get? s = some (ptr s)) ∧
        broadcast (init j).nsp q o' =
          { (init j).nsp with out := (init j).nsp.out ++ ids.map (fun s => (ptr s, q)) } := by
    intro q o' h1 h2
    have ex : broadcast (init j).nsp q o' =
        broadcast (init j).nsp q (some ⟨some (Spec.targeted o'), some (Spec.excepted o'), o'.bind (·.flags)⟩) := by
      unfold broadcast; rw [apply_explicit]
    obtain ⟨ids, ptr, nd, hm, hp, e⟩ := C03_broadcast (init j).nsp (hok j) q (Spec.targeted o')
      (Spec.excepted o') (o'.bind (·.flags))
    exact ⟨ids, ptr, nd, fun s => by rw [hm, sel_congr h1 h2], hp, by rw [ex, e]⟩
  have none_ : ∀ P : Prop, ¬ P → ∀ pk : Pkt, ∃ ids : List Sid, ∃ ptr : Sid → Nat, ids.Nodup ∧
      (∀ s, s ∈ ids ↔ P ∧ Sel (init j).nsp (Spec.targeted o) (Spec.excepted o) s) ∧
      (∀ s ∈ ids, (init j).nsp.sockets.get? s = some (ptr s)) ∧
      init j = { init j with nsp := { (init j).nsp with out := (init j).nsp.out ++ ids.map (fun s => (ptr s, pk)) } } := by
    intro P hP pk
    exact ⟨[], fun _ => 0, List.nodup_nil, by simp [hP], by simp, by simp⟩
  simp only [Spec.due, hi, hj, and_self, if_true]
  cases hl : Spec.LocalOnly o with
  | true =>
    by_cases hji : j = i
    · subst hji
      obtain ⟨ids, ptr, nd, hm, hp, e⟩ := bc p o (fun _ => Iff.rfl) (fun _ => Iff.rfl)
      refine ⟨ids, ptr, nd, by simpa using hm, hp, ?_⟩
      simp [Cluster.execNode, e]
    · simpa [hji] using none_ (j = i) hji p
  | false =>
    cases res with
    | none => simpa using none_ False (fun h => h) (Spec.withOffset recovery "" o p)
    | some off =>
      obtain ⟨ids, ptr, nd, hm, hp, e⟩ := bc (Spec.withOffset recovery off o p) (if j = i then o else Spec.wire o)
        (by split <;> simp [wire_targeted]) (by split <;> simp [wire_excepted])
      refine ⟨ids, ptr, nd, by simpa using hm, hp, ?_⟩
      simp [Cluster.execNode, e]

/-- Three servers, the middle one broadcasts; a message echoed to the sender changes nothing. -/
example :
    let s := Cluster.run (Cluster.execNode true) 3 true true (fun _ => ⟨demo, []⟩)
      [.call 1 (.broadcast { type := .event, data := .args [.str "hi"] } (some { rooms := some ["x"] })) (some "o1"),
        .deliver 2, .deliver 1, .deliver 0]
    s.net = [] ∧ (∀ j ∈ [0, 1, 2], (s.nodes j).nsp.out =
      [(2, { type := .event, data := .args [.str "hi", .str "o1"] }),
       (1, { type := .event, data := .args [.str "hi", .str "o1"] })]) := by decide

/-! ## C39 -/

section
variable (d : Bool) (n : Nat) (echo recovery : Bool) (init : Nat → Cluster.Node)
  (hok : ∀ j, OK (init j).nsp) (i : Nat) (hi : i < n) (o : Option Opts) (res : Option String)
  (ds : List Cluster.Ev) (only : ∀ e ∈ ds, ∃ k, e = .deliver k) (j : Nat) (hj : j < n)
include hok hi only hj

/-- **C39, join.**  After `SocketsJoin(joined)` on server `i` and all deliveries, in any order: on every server
that takes part exactly the sockets selected there have joined exactly the given rooms; on a server that does
not take part nothing has changed. -/
theorem C39_join (joined : List Room)
    (drained : (Cluster.run (Cluster.execNode d) n echo recovery init (.call i (.join o joined) res :: ds)).net = []) :
    let n' := ((Cluster.run (Cluster.execNode d) n echo recovery init (.call i (.join o joined) res :: ds)).nodes j).nsp
    OK n' ∧ n'.sockets = (init j).nsp.sockets ∧
    ∀ s r, r ∈ roomsOf n'.ad s ↔ r ∈ roomsOf (init j).nsp.ad s ∨
      (TakesPart i o res j ∧ Sel (init j).nsp (Spec.targeted o) (Spec.excepted o) s ∧ r ∈ joined) := by
  rw [one_call (Cluster.execNode d) n echo recovery init i _ res ds only drained j hj]
  have yes : ∀ (o' : Option Opts), (∀ x, x ∈ Spec.targeted o' ↔ x ∈ Spec.targeted o) →
      (∀ x, x ∈ Spec.excepted o' ↔ x ∈ Spec.excepted o) →
      OK (addSockets (init j).nsp o' joined) ∧ (addSockets (init j).nsp o' joined).sockets = (init j).nsp.sockets ∧
      ∀ s r, r ∈ roomsOf (addSockets (init j).nsp o' joined).ad s ↔ r ∈ roomsOf (init j).nsp.ad s ∨
        (Sel (init j).nsp (Spec.targeted o) (Spec.excepted o) s ∧ r ∈ joined) := by
    intro o' h1 h2
    have ex : addSockets (init j).nsp o' joined = addSockets (init j).nsp
        (some ⟨some (Spec.targeted o'), some (Spec.excepted o'), o'.bind (·.flags)⟩) joined := by
      unfold addSockets; rw [apply_explicit]
    have := C06_socketsJoin (init j).nsp (hok j) (Spec.targeted o') (Spec.excepted o') joined (o'.bind (·.flags))
    simp only [sel_congr h1 h2] at this
    rw [ex]; exact this
  simp only [Spec.due, hi, hj, and_self, if_true]
  by_cases hji : j = i
  · have := yes o (fun _ => Iff.rfl) (fun _ => Iff.rfl)
    simpa [hji, Cluster.execNode, TakesPart] using hji ▸ this
  · by_cases hc : Spec.LocalOnly o = true ∨ res = none
    · have : ¬ TakesPart i o res j := by
        rintro (h | ⟨h1, h2⟩)
        · exact hji h
        · rcases hc with h | h
          · rw [h1] at h; cases h
          · exact h2 h
      simp [hji, hc, this, hok j]
    · have hT : TakesPart i o res j := .inr ⟨by simpa using fun h => hc (.inl h), fun h => hc (.inr h)⟩
      have := yes (Spec.wire o) (wire_targeted o) (wire_excepted o)
      simpa [hji, hc, hT, Cluster.execNode] using this

/-- **C39, leave.** -/
theorem C39_leave (left : List Room)
    (drained : (Cluster.run (Cluster.execNode d) n echo recovery init (.call i (.leave o left) res :: ds)).net = []) :
    let n' := ((Cluster.run (Cluster.execNode d) n echo recovery init (.call i (.leave o left) res :: ds)).nodes j).nsp
    OK n' ∧ n'.sockets = (init j).nsp.sockets ∧
    ∀ s r, r ∈ roomsOf n'.ad s ↔ r ∈ roomsOf (init j).nsp.ad s ∧
      ¬ (TakesPart i o res j ∧ Sel (init j).nsp (Spec.targeted o) (Spec.excepted o) s ∧ r ∈ left) := by
  rw [one_call (Cluster.execNode d) n echo recovery init i _ res ds only drained j hj]
  have yes : ∀ (o' : Option Opts), (∀ x, x ∈ Spec.targeted o' ↔ x ∈ Spec.targeted o) →
      (∀ x, x ∈ Spec.excepted o' ↔ x ∈ Spec.excepted o) →
      OK (delSockets d (init j).nsp o' left) ∧ (delSockets d (init j).nsp o' left).sockets = (init j).nsp.sockets ∧
      ∀ s r, r ∈ roomsOf (delSockets d (init j).nsp o' left).ad s ↔ r ∈ roomsOf (init j).nsp.ad s ∧
        ¬ (Sel (init j).nsp (Spec.targeted o) (Spec.excepted o) s ∧ r ∈ left) := by
    intro o' h1 h2
    have ex : delSockets d (init j).nsp o' left = delSockets d (init j).nsp
        (some ⟨some (Spec.targeted o'), some (Spec.excepted o'), o'.bind (·.flags)⟩) left := by
      unfold delSockets; rw [apply_explicit]
    have := C06_socketsLeave d (init j).nsp (hok j) (Spec.targeted o') (Spec.excepted o') left (o'.bind (·.flags))
    simp only [sel_congr h1 h2] at this
    rw [ex]; exact this
  simp only [Spec.due, hi, hj, and_self, if_true]
  by_cases hji : j = i
  · have := yes o (fun _ => Iff.rfl) (fun _ => Iff.rfl)
    have hT : TakesPart i o res j := .inl hji
    simp only [if_pos hji, Cluster.execNode, List.foldl_cons, List.foldl_nil]
    simpa only [hT, true_and] using this
  · by_cases hc : Spec.LocalOnly o = true ∨ res = none
    · have : ¬ TakesPart i o res j := by
        rintro (h | ⟨h1, h2⟩)
        · exact hji h
        · rcases hc with h | h
          · rw [h1] at h; cases h
          · exact h2 h
      simp [hji, hc, this, hok j]
    · have hT : TakesPart i o res j := .inr ⟨by simpa using fun h => hc (.inl h), fun h => hc (.inr h)⟩
      have := yes (Spec.wire o) (wire_targeted o) (wire_excepted o)
      simpa only [hji, hc, hT, Cluster.execNode, if_false, List.foldl_cons, List.foldl_nil, true_and] using this

/-- **C39, disconnect.**  Likewise: exactly the selected sockets of the servers that take part are
disconnected. -/
theorem C39_disconnect (close : Bool)
    (drained : (Cluster.run (Cluster.execNode d) n echo recovery init (.call i (.disconnect o close) res :: ds)).net = []) :
    let n' := ((Cluster.run (Cluster.execNode d) n echo recovery init (.call i (.disconnect o close) res :: ds)).nodes j).nsp
    OK n' ∧
    (∀ s, TakesPart i o res j → Sel (init j).nsp (Spec.targeted o) (Spec.excepted o) s →
      ¬ Connected n' s ∧ roomsOf n'.ad s = []) ∧
    (∀ s, ¬ (TakesPart i o res j ∧ Sel (init j).nsp (Spec.targeted o) (Spec.excepted o) s) →
      n'.sockets.get? s = (init j).nsp.sockets.get? s ∧
      ∀ r, r ∈ roomsOf n'.ad s ↔ r ∈ roomsOf (init j).nsp.ad s) := by
  rw [one_call (Cluster.execNode d) n echo recovery init i _ res ds only drained j hj]
  have yes : ∀ (o' : Option Opts), (∀ x, x ∈ Spec.targeted o' ↔ x ∈ Spec.targeted o) →
      (∀ x, x ∈ Spec.excepted o' ↔ x ∈ Spec.excepted o) →
      OK (disconnectSockets d (init j).nsp o' close) ∧
      (∀ s, Sel (init j).nsp (Spec.targeted o) (Spec.excepted o) s →
        ¬ Connected (disconnectSockets d (init j).nsp o' close) s ∧
        roomsOf (disconnectSockets d (init j).nsp o' close).ad s = []) ∧
      (∀ s, ¬ Sel (init j).nsp (Spec.targeted o) (Spec.excepted o) s →
        (disconnectSockets d (init j).nsp o' close).sockets.get? s = (init j).nsp.sockets.get? s ∧
        ∀ r, r ∈ roomsOf (disconnectSockets d (init j).nsp o' close).ad s ↔ r ∈ roomsOf (init j).nsp.ad s) := by
    intro o' h1 h2
    have ex : disconnectSockets d (init j).nsp o' close = disconnectSockets d (init j).nsp
        (some ⟨some (Spec.targeted o'), some (Spec.excepted o'), o'.bind (·.flags)⟩) close := by
      unfold disconnectSockets; rw [apply_explicit]
    obtain ⟨a, _, _, _, b, c⟩ := C07_disconnectSockets d close (init j).nsp (hok j) (Spec.targeted o')
      (Spec.excepted o') (o'.bind (·.flags))
    rw [ex]
    exact ⟨a, fun s hs => b s ((sel_congr h1 h2 s).2 hs), fun s hs => c s (fun h => hs ((sel_congr h1 h2 s).1 h))⟩
  simp only [Spec.due, hi, hj, and_self, if_true]
  by_cases hji : j = i
  · have := yes o (fun _ => Iff.rfl) (fun _ => Iff.rfl)
    have hT : TakesPart i o res j := .inl hji
    simp only [if_pos hji, Cluster.execNode, List.foldl_cons, List.foldl_nil]
    exact ⟨this.1, fun s _ => this.2.1 s, fun s hs => this.2.2 s (fun h => hs ⟨hT, h⟩)⟩
  · by_cases hc : Spec.LocalOnly o = true ∨ res = none
    · have : ¬ TakesPart i o res j := by
        rintro (h | ⟨h1, h2⟩)
        · exact hji h
        · rcases hc with h | h
          · rw [h1] at h; cases h
          · exact h2 h
      simp [hji, hc, this, hok j]
    · have hT : TakesPart i o res j := .inr ⟨by simpa using fun h => hc (.inl h), fun h => hc (.inr h)⟩
      have := yes (Spec.wire o) (wire_targeted o) (wire_excepted o)
      simp only [if_neg hji, if_neg hc, Cluster.execNode, List.foldl_cons, List.foldl_nil]
      exact ⟨this.1, fun s _ => this.2.1 s, fun s hs => this.2.2 s (fun h => hs ⟨hT, h⟩)⟩

end

/-- A bulk disconnection on server 0 of two, published and delivered. -/
example :
    let s := Cluster.run (Cluster.execNode true) 2 false false (fun _ => ⟨demo, []⟩)
      [.call 0 (.disconnect (some { rooms := some ["x"] }) true) (some "o1"), .deliver 0]
    s.net = [] ∧ (∀ j ∈ [0, 1], (s.nodes j).nsp.sockets = [("c", 3)]) := by decide

/-! ## C44 -/

/-- **C44.**  `ServerSideEmit` on server `i`, then all deliveries in any order: the listeners of every other
server get the event once, with its arguments (the acknowledgement function replaced by the one that answers
over the network), those of the sender get nothing; an event that is empty or whose name is not a string
reaches no listener. -/
theorem C44_others_once (d : Bool) (n : Nat) (echo recovery : Bool) (init : Nat → Cluster.Node)
    (i : Nat) (hi : i < n) (packet : List Val) (expected req : Nat) (off : String)
    (ds : List Cluster.Ev) (only : ∀ e ∈ ds, ∃ k, e = .deliver k)
    (drained : (Cluster.run (Cluster.execNode d) n echo recovery init
      (.call i (.emit packet expected req) (some off) :: ds)).net = [])
    (j : Nat) (hj : j < n) :
    (Cluster.run (Cluster.execNode d) n echo recovery init
      (.call i (.emit packet expected req) (some off) :: ds)).nodes j =
    { init j with heard := (init j).heard ++
        (match Spec.sseArgs packet expected req with
         | some (.at (.str ev) :: args) => if j = i then [] else [(ev, args)]
         | _ => []) } := by
  rw [one_call (Cluster.execNode d) n echo recovery init i _ _ ds only drained j hj]
  simp only [Spec.due, hi, hj, and_self, if_true]
  by_cases hji : j = i
  · simp only [hji, true_or, if_true, List.foldl_nil]
    split <;> simp
  · simp only [hji, false_or, if_false]
    simp only [reduceCtorEq, if_false]
    cases h : Spec.sseArgs packet expected req with
    | none => simp
    | some args =>
      match args with
      | [] => simp [Cluster.execNode, Cluster.onServerSideEmit]
      | .at (.str ev) :: rest => simp [Cluster.execNode, Cluster.onServerSideEmit]
      | .at (.num k) :: rest => simp [Cluster.execNode, Cluster.onServerSideEmit]
      | .arr _ :: rest => simp [Cluster.execNode, Cluster.onServerSideEmit]
      | .fn _ :: rest => simp [Cluster.execNode, Cluster.onServerSideEmit]

/-- **C44**, the namespace's API: a reserved name is refused, any other event is sent with its arguments. -/
theorem C44_reserved (ev : String) (args : List Val) :
    (Cluster.nspServerSideEmit ev args = none ↔ ev = "connect" ∨ ev = "connection" ∨ ev = "new_namespace") ∧
    (∀ packet, Cluster.nspServerSideEmit ev args = some packet →
      Cluster.onServerSideEmit packet = some (ev, args)) := by
  constructor
  · unfold Cluster.nspServerSideEmit Cluster.reserved
    split <;> simp_all
  · intro packet h
    unfold Cluster.nspServerSideEmit at h
    split at h
    · cases h
    · cases h; rfl

/-- **C44**, the acknowledgement function of a receiver: however many goroutines call it and however their
steps interleave, at most one response is sent to the requesting server, with the arguments of one of the
calls; one has been sent as soon as a call has returned. -/
theorem C44_answer_once (requester req : Nat) (h₁ h₂ : List Once.Ev) :
    let r := Once.run (Once.sseResponse requester req)
    ((r h₁).sent = [] ∨ ∃ (k : Nat) (args : List Val) (pc : Once.Pc), (r h₁).calls[k]? = some (args, pc) ∧
      (r h₁).sent = [⟨requester, req, args⟩] ∧ (r (h₁ ++ h₂)).sent = (r h₁).sent) ∧
    (∀ (k : Nat) (args : List Val), (r h₁).calls[k]? = some (args, .returned) → (r h₁).sent ≠ []) :=
  Once.once_spec (Once.sseResponse requester req) h₁ h₂

/-- Server 2 of 3 emits with an acknowledgement. -/
example :
    let s := Cluster.run (Cluster.execNode true) 3 false false (fun _ => ⟨demo, []⟩)
      [.call 2 (.emit [.str "ev", .num 1, .fn 4] 2 9) (some "o1"), .deliver 1, .deliver 0]
    s.net = [] ∧ (s.nodes 0).heard = [("ev", [.num 1, .fn 9])] ∧ (s.nodes 1).heard = [("ev", [.num 1, .fn 9])] ∧
    (s.nodes 2).heard = [] := by decide

end Verif.Props
