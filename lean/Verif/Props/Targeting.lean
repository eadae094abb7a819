import Verif.Proof.Delivery
import Verif.Proof.Session

/-! # C03, C06, C09: which sockets an emission, a bulk operation and a replay select -/

namespace Verif.Props
open Verif Verif.Adapter Verif.Delivery

/-- A socket is connected to the namespace: it is listed in `Sockets()`. -/
def Connected (n : Nsp) (s : Sid) : Prop := ∃ ref, n.sockets.get? s = some ref

/-- The selection in terms of `Sockets()` and `Rooms()`. -/
def Sel (n : Nsp) (rooms except : List Room) (s : Sid) : Prop :=
  Spec.Selected (Connected n) (fun s r => r ∈ roomsOf n.ad s) rooms except s

/-- **C03.**  An emission with targeted rooms `rooms` and excepted rooms `except` hands the packet to
exactly the selected sockets, to each of them once, and changes nothing else.  `ids` are the ids of
the sockets reached, in the order in which they are reached. -/
theorem C03_broadcast (n : Nsp) (hn : OK n) (p : Pkt) (rooms except : List Room) (f : Option Flags) :
    ∃ ids : List Sid, ∃ ptr : Sid → Nat, ids.Nodup ∧
      (∀ s, s ∈ ids ↔ Sel n rooms except s) ∧
      (∀ s ∈ ids, n.sockets.get? s = some (ptr s)) ∧
      broadcast n p (some { rooms := some rooms, except := some except, flags := f }) =
        { n with out := n.out ++ ids.map (fun s => (ptr s, p)) } := by
  let o : Option Opts := some { rooms := some rooms, except := some except, flags := f }
  obtain ⟨h1, h2, _, _⟩ := apply_spec (local_write p) o n hn
  have h3 := visited_iff (local_write p) hn o
  refine ⟨(apply view o (write p) n).2, fun s => (n.sockets.get? s).getD 0, h2, h3, ?_, ?_⟩
  · intro s hs
    obtain ⟨ref, hr⟩ := ((h3 s).1 hs).1
    simp [hr]
  · show (apply view o (write p) n).1 = _
    rw [h1]
    apply foldl_write
    intro s hs
    obtain ⟨ref, hr⟩ := ((h3 s).1 hs).1
    simp [hr]

/-- C03 for a nil options pointer (`adapter.Broadcast(packet, nil)`): everybody. -/
theorem C03_broadcast_nil (n : Nsp) (hn : OK n) (p : Pkt) :
    ∃ ids : List Sid, ∃ ptr : Sid → Nat, ids.Nodup ∧
      (∀ s, s ∈ ids ↔ Connected n s) ∧
      (∀ s ∈ ids, n.sockets.get? s = some (ptr s)) ∧
      broadcast n p none = { n with out := n.out ++ ids.map (fun s => (ptr s, p)) } := by
  obtain ⟨h1, h2, _, _⟩ := apply_spec (local_write p) none n hn
  have h3 : ∀ s, s ∈ (apply view none (write p) n).2 ↔ Connected n s := by
    intro s; rw [visited_iff (local_write p) hn none s]
    simp [Spec.Selected, Spec.Matches, Opts.targets, Opts.excepts, Connected]
  refine ⟨(apply view none (write p) n).2, fun s => (n.sockets.get? s).getD 0, h2, h3, ?_, ?_⟩
  · intro s hs; obtain ⟨ref, hr⟩ := (h3 s).1 hs; simp [hr]
  · show (apply view none (write p) n).1 = _
    rw [h1]
    apply foldl_write
    intro s hs; obtain ⟨ref, hr⟩ := (h3 s).1 hs; simp [hr]

/-- C03 for `FetchSockets`: exactly the selected sockets, each once. -/
theorem C03_fetchSockets (n : Nsp) (hn : OK n) (rooms except : List Room) (f : Option Flags) :
    ∃ ids : List Sid, ∃ ptr : Sid → Nat, ids.Nodup ∧
      (∀ s, s ∈ ids ↔ Sel n rooms except s) ∧
      (∀ s ∈ ids, n.sockets.get? s = some (ptr s)) ∧
      fetchSockets n (some { rooms := some rooms, except := some except, flags := f }) = ids.map ptr := by
  let o : Option Opts := some { rooms := some rooms, except := some except, flags := f }
  obtain ⟨h1, h2, _, _⟩ := apply_spec (local_collect (fun b ref => b ++ [ref])) o (n, []) hn
  have h3 := collect_visited (fun b ref => b ++ [ref]) hn [] o
  refine ⟨_, fun s => (n.sockets.get? s).getD 0, h2, h3, ?_, ?_⟩
  · intro s hs; obtain ⟨ref, hr⟩ := ((h3 s).1 hs).1; simp [hr]
  · unfold fetchSockets
    rw [h1, foldl_collect (fun b ref => b ++ [ref]) _ n [] (fun s => (n.sockets.get? s).getD 0)]
    · generalize List.map _ _ = l
      have : ∀ b : List Nat, l.foldl (fun b ref => b ++ [ref]) b = b ++ l := by
        induction l with
        | nil => simp
        | cons x l ih => intro b; simp [ih]
      simpa using this []
    · intro s hs; obtain ⟨ref, hr⟩ := ((h3 s).1 hs).1; simp [hr]

/-- C03 for `AllSockets`: the ids of the sockets in at least one of the rooms (all if no room). -/
theorem C03_allSockets (n : Nsp) (hn : OK n) (rooms : List Room) (s : Sid) :
    s ∈ allSockets n rooms ↔ Sel n rooms [] s := by
  let o : Option Opts := some { rooms := some rooms }
  obtain ⟨h1, _, _, _⟩ := apply_spec (local_collect (fun b ref => LSet.add b (n.sidOf ref))) o (n, []) hn
  have h3 := collect_visited (fun b ref => LSet.add b (n.sidOf ref)) hn [] o
  unfold allSockets
  rw [h1, foldl_collect (fun b ref => LSet.add b (n.sidOf ref)) _ n [] (fun s => (n.sockets.get? s).getD 0)
    (by intro s hs; obtain ⟨ref, hr⟩ := ((h3 s).1 hs).1; simp [hr])]
  have h4 : Sel n rooms [] s ↔ s ∈ (apply (σ := Nsp × List Sid)
      ⟨fun s => s.1.ad, fun s id => s.1.sockets.get? id⟩ o
      (fun s ref => (s.1, LSet.add s.2 (n.sidOf ref))) (n, [])).2 := (h3 s).symm
  rw [h4]
  generalize hl : (apply (σ := Nsp × List Sid) _ o _ (n, [])).2 = l at h3
  have hown : ∀ x ∈ l, n.sidOf ((n.sockets.get? x).getD 0) = x := by
    intro x hx; obtain ⟨ref, hr⟩ := ((h3 x).1 hx).1
    simp [hr, hn.ownId x ref hr]
  have gen : ∀ b : List Sid, s ∈ (l.map (fun s => (n.sockets.get? s).getD 0)).foldl
      (fun b ref => LSet.add b (n.sidOf ref)) b ↔ s ∈ b ∨ s ∈ l := by
    clear h3 hl h1 h4
    induction l with
    | nil => simp
    | cons x l ih =>
      intro b
      simp only [List.map_cons, List.foldl_cons]
      rw [ih (fun y hy => hown y (by simp [hy])), LSet.mem_add, hown x (by simp), List.mem_cons]
      constructor
      · rintro ((h | h) | h)
        · exact .inr (.inl h)
        · exact .inl h
        · exact .inr (.inr h)
      · rintro (h | h | h)
        · exact .inl (.inr h)
        · exact .inl (.inl h)
        · exact .inr h
  rw [gen]; simp

/-- A concrete namespace used to show that the hypotheses of these theorems can be met: three sockets,
overlapping rooms. -/
def demo : Nsp where
  ad := (addAll (addAll (addAll {} "a" ["a", "x", "y"]).1 "b" ["b", "x"]).1 "c" ["c", "y"]).1
  sockets := [("a", 1), ("b", 2), ("c", 3)]
  sidOf := fun k => if k = 1 then "a" else if k = 2 then "b" else "c"
  canJoin := fun _ => true

theorem demo_ok : OK demo := by
  refine ok_of_inv ?_ ?_ ?_ ?_
  · exact (addAll_spec (addAll_spec (addAll_spec inv_empty _ _).1 _ _).1 _ _).1
  · intro s ref h; simp only [demo, FMap.get?_cons] at h ⊢
    split at h
    · cases h; simp_all
    · split at h
      · cases h; simp_all
      · split at h
        · cases h; simp_all
        · simp at h
  · intro s ref h; rfl
  · intro s ref h
    simp only [demo, FMap.get?_cons] at h
    have : ∀ x ∈ ["a", "b", "c"], x ∈ demo.ad.sids.keys := by decide
    apply this
    split at h
    · simp_all
    · split at h
      · simp_all
      · split at h
        · simp_all
        · simp at h

/-- Non-vacuity for C03: `To("x","y").Except("c")` reaches sockets 1 and 2 once, not 3. -/
example : OK demo ∧
    (broadcast demo { type := .event } (some { rooms := some ["x", "y"], except := some ["c"] })).out.map (·.1)
      = [2, 1] := ⟨demo_ok, by decide⟩

/-- **C06, join.**  `SocketsJoin(joined...)` on a selection: afterwards `s` is in `r` iff it was before
or it was selected at the time of the call and `r` is one of the given rooms.  The registered sockets
stay the same. -/
theorem C06_socketsJoin (n : Nsp) (hn : OK n) (rooms except joined : List Room) (f : Option Flags) :
    let n' := addSockets n (some { rooms := some rooms, except := some except, flags := f }) joined
    OK n' ∧ n'.sockets = n.sockets ∧
    ∀ s r, r ∈ roomsOf n'.ad s ↔ r ∈ roomsOf n.ad s ∨ (Sel n rooms except s ∧ r ∈ joined) := by
  let o : Option Opts := some { rooms := some rooms, except := some except, flags := f }
  obtain ⟨h1, _, _, _⟩ := apply_spec (local_join joined) o n hn
  have h3 := visited_iff (local_join joined) hn o
  obtain ⟨k1, k2, k3⟩ := foldl_join joined (apply view o (join joined) n).2 n hn
    (fun x hx => ((h3 x).1 hx).1)
  rw [← h1] at k1 k2 k3
  refine ⟨k1, k2, ?_⟩
  intro s r
  refine (mem_roomsOf k1.inv s r).trans ?_
  rw [k3, h3, mem_roomsOf hn.inv]; exact Iff.rfl

/-- **C06, leave.**  `SocketsLeave(left...)` likewise. -/
theorem C06_socketsLeave (d : Bool) (n : Nsp) (hn : OK n) (rooms except left : List Room)
    (f : Option Flags) :
    let n' := delSockets d n (some { rooms := some rooms, except := some except, flags := f }) left
    OK n' ∧ n'.sockets = n.sockets ∧
    ∀ s r, r ∈ roomsOf n'.ad s ↔ r ∈ roomsOf n.ad s ∧ ¬ (Sel n rooms except s ∧ r ∈ left) := by
  let o : Option Opts := some { rooms := some rooms, except := some except, flags := f }
  obtain ⟨h1, _, _, _⟩ := apply_spec (local_leaveEach d left) o n hn
  have h3 := visited_iff (local_leaveEach d left) hn o
  obtain ⟨k1, k2, k3⟩ := foldl_leave d left (apply view o (leaveEach d left) n).2 n hn
    (fun x hx => ((h3 x).1 hx).1)
  rw [← h1] at k1 k2 k3
  refine ⟨k1, k2, ?_⟩
  intro s r
  refine (mem_roomsOf k1.inv s r).trans ?_
  rw [k3, h3, mem_roomsOf hn.inv]; exact Iff.rfl

/-- Non-vacuity for C06: leaving the very room that is being iterated over. -/
example : OK demo ∧
    roomsOf (delSockets true demo (some { rooms := some ["x", "y"], except := some ["c"] }) ["x", "y"]).ad "a"
      = ["a"] ∧
    roomsOf (delSockets true demo (some { rooms := some ["x", "y"], except := some ["c"] }) ["x", "y"]).ad "c"
      = ["y", "c"] := ⟨demo_ok, by decide, by decide⟩

/-- **C07.**  `DisconnectSockets(close)` on a selection disconnects precisely the sockets selected at the
time of the call, each once: they are in no room, not registered and cannot join any more; the others stay
registered, with their rooms, and nothing is sent to them. -/
theorem C07_disconnectSockets (d close : Bool) (n : Nsp) (hn : OK n) (rooms except : List Room)
    (f : Option Flags) :
    let n' := disconnectSockets d n (some { rooms := some rooms, except := some except, flags := f }) close
    OK n' ∧ n'.out = n.out ∧ n'.sidOf = n.sidOf ∧
    (∃ ids : List Sid, ∃ ptr : Sid → Nat, ids.Nodup ∧
      (∀ s, s ∈ ids ↔ Sel n rooms except s) ∧ (∀ s ∈ ids, n.sockets.get? s = some (ptr s)) ∧
      n'.kicked = n.kicked ++ ids.map (fun s => (ptr s, close)) ∧
      ∀ ref, n'.canJoin ref = true ↔ n.canJoin ref = true ∧ ref ∉ ids.map ptr) ∧
    (∀ s, Sel n rooms except s → ¬ Connected n' s ∧ roomsOf n'.ad s = []) ∧
    (∀ s, ¬ Sel n rooms except s → n'.sockets.get? s = n.sockets.get? s ∧
      ∀ r, r ∈ roomsOf n'.ad s ↔ r ∈ roomsOf n.ad s) := by
  let o : Option Opts := some { rooms := some rooms, except := some except, flags := f }
  obtain ⟨h1, h2, _, _⟩ := apply_spec (local_kick d close) o n hn
  have h3 := visited_iff (local_kick d close) hn o
  have hptr : ∀ x ∈ (apply view o (kick d close) n).2, n.sockets.get? x = some ((n.sockets.get? x).getD 0) := by
    intro x hx; obtain ⟨ref, hr⟩ := ((h3 x).1 hx).1; simp [hr]
  obtain ⟨k1, k2, k3, k4, k5, k6, k7⟩ := foldl_kick d close (apply view o (kick d close) n).2 n hn h2
    (fun s => (n.sockets.get? s).getD 0) hptr
  rw [← h1] at k1 k2 k3 k4 k5 k6 k7
  refine ⟨k1, k3, k4, ⟨_, fun s => (n.sockets.get? s).getD 0, h2, h3, hptr, k2, ?_⟩, ?_, ?_⟩
  · intro ref
    refine (Bool.eq_iff_iff.1 (k6 ref)).trans ?_
    simp
  · intro s hs
    have hs' := (h3 s).2 hs
    constructor
    · rintro ⟨ref, hr⟩
      have := (k5 s).symm.trans hr
      simp [hs'] at this
    · apply List.eq_nil_iff_forall_not_mem.2
      intro r hr
      exact ((k7 s r).1 ((mem_roomsOf k1.inv s r).1 hr)).2 hs'
  · intro s hs
    have hs' : s ∉ (apply view o (kick d close) n).2 := fun h => hs ((h3 s).1 h)
    refine ⟨(k5 s).trans (by simp [hs']), ?_⟩
    intro r
    refine (mem_roomsOf k1.inv s r).trans ?_
    rw [mem_roomsOf hn.inv]
    exact (k7 s r).trans (by simp [hs'])

/-- Non-vacuity for C07: two of three sockets, one of them matched through two rooms. -/
example : OK demo ∧
    (disconnectSockets true demo (some { rooms := some ["x", "y"], except := some ["c"] }) false).kicked
      = [(2, false), (1, false)] ∧
    (disconnectSockets true demo (some { rooms := some ["x", "y"], except := some ["c"] }) false).sockets
      = [("c", 3)] := ⟨demo_ok, by decide, by decide⟩

/-- **C09.**  For every connected socket, and every options value an operator can pass, the replay rule
applied to the socket's rooms says "include" exactly when the broadcast reaches the socket. -/
theorem C09_replay_rule_agrees (n : Nsp) (hn : OK n) (p : Pkt) (rooms except : List Room)
    (f : Option Flags) (s : Sid) (hs : Connected n s) :
    let o : Option Opts := some { rooms := some rooms, except := some except, flags := f }
    Session.shouldInclude (roomsOf n.ad s) o = some true ↔ s ∈ (apply view o (write p) n).2 := by
  intro o
  rw [visited_iff (local_write p) hn o s, Session.shouldInclude_some]
  have hs' : ∃ ref, n.sockets.get? s = some ref := hs
  simp only [Spec.Selected, Spec.Matches, Opts.targets, Opts.excepts, o, Option.getD_some, hs', true_and,
    Option.some.injEq, Bool.and_eq_true, Bool.or_eq_true, List.isEmpty_iff, List.any_eq_true,
    decide_eq_true_eq, Bool.not_eq_true', Bool.eq_false_iff, ne_eq]
  constructor
  · rintro ⟨a, b⟩
    exact ⟨a.imp id (fun ⟨x, h1, h2⟩ => ⟨x, h2, h1⟩), fun ⟨x, h1, h2⟩ => b ⟨x, h2, h1⟩⟩
  · rintro ⟨a, b⟩
    exact ⟨a.imp id (fun ⟨x, h1, h2⟩ => ⟨x, h2, h1⟩), fun ⟨x, h1, h2⟩ => b ⟨x, h2, h1⟩⟩

/-- The replay rule decides membership of the session's rooms exactly as the selection rule says. -/
theorem C09_replay_rule (sessionRooms rooms except : List Room) (f : Option Flags) :
    Session.shouldInclude sessionRooms (some { rooms := some rooms, except := some except, flags := f })
      = some true ↔ Spec.Matches rooms except (fun r => r ∈ sessionRooms) := by
  rw [Session.shouldInclude_some]
  simp only [Spec.Matches, Option.some.injEq, Bool.and_eq_true, Bool.or_eq_true, List.isEmpty_iff,
    List.any_eq_true, decide_eq_true_eq, Bool.not_eq_true', Bool.eq_false_iff, ne_eq]
  constructor
  · rintro ⟨a, b⟩
    exact ⟨a.imp id (fun ⟨x, h1, h2⟩ => ⟨x, h2, h1⟩), fun ⟨x, h1, h2⟩ => b ⟨x, h2, h1⟩⟩
  · rintro ⟨a, b⟩
    exact ⟨a.imp id (fun ⟨x, h1, h2⟩ => ⟨x, h2, h1⟩), fun ⟨x, h1, h2⟩ => b ⟨x, h2, h1⟩⟩

/-- Non-vacuity for C09. -/
example : OK demo ∧ Connected demo "a" ∧
    Session.shouldInclude (roomsOf demo.ad "a") (some { rooms := some ["x"], except := some ["b"] }) = some true :=
  ⟨demo_ok, ⟨1, by decide⟩, by decide⟩

end Verif.Props
