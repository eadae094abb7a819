import Verif.Proof.Events
import Verif.Props.InboundRoute

/-!
# C83: what is handled is what the client sent

`Model/Inbound`: packets with any data, every goroutine the library starts is run at any later moment.  Lists are compared up to order
(the order is the subject of C47).
-/

namespace Verif.Props
open Verif Verif.Spec Verif.Inbound
open Classical

theorem gated_eq (ref : Nat) (s : Inbound.St) : gated ref s = s.tasks.flatMap (atGate ref) := by unfold gated; congr
theorem catchAlls_eq (ref : Nat) (s : Inbound.St) : catchAlls ref s = s.log.flatMap (atAll ref) := by unfold catchAlls; congr
theorem handled_eq (ref : Nat) (s : Inbound.St) : eventsHandled ref s = (s.log.flatMap (atFired ref)).filter notOwn := by unfold eventsHandled; congr

theorem flatMap_nil_of {α β} (f : α → List β) (l : List α) (h : ∀ a ∈ l, f a = []) : l.flatMap f = [] := List.flatMap_eq_nil_iff.2 h

/-- **C83**, catch-all listeners: they are called with exactly the events that arrived for the socket, once for each, apart from those
whose goroutine has not begun. -/
theorem C83_catchall (h : List Inbound.Ev) (hj : JoinedOnce h) (hd : ∀ p, .recv p ∈ h → Decoded p) (ref : Nat) :
    ∃ waiting, (catchAlls ref (Inbound.run h) ++ waiting).Perm (eventsIn ref h) ∧
      ((∀ t ∈ (Inbound.run h).tasks, hasPacket ref t = false) → waiting = []) := by
  refine ⟨(Inbound.run h).tasks.flatMap (atWaiting ref), ?_, fun hw => flatMap_nil_of _ _ fun t ht => ?_⟩
  · rw [List.perm_iff_count, eventsIn_eq, catchAlls_eq]
    intro x
    rw [List.count_append]
    exact (books ref h hj hd).wait x
  · have := hw t ht
    unfold hasPacket at this
    unfold atWaiting
    split at this
    · simp only [beq_eq_false_iff_ne] at this; simp [this]
    · rename_i hno
      split
      · rename_i r p; exact absurd rfl (hno r p)
      · rfl

/-- **C83**, listeners of events: of the events given to the catch-all listeners, each is given to the middlewares or goes on directly.
The listeners are called with exactly those that went on directly and those the middlewares let through, once each time, apart from
some (`rest`); if the socket is connected and no goroutine is about to call the listeners, there are no others. -/
theorem C83_listeners (h : List Inbound.Ev) (hj : JoinedOnce h) (hd : ∀ p, .recv p ∈ h → Decoded p) (ref : Nat) :
    ∃ direct rest, (direct ++ gated ref (Inbound.run h)).Perm (catchAlls ref (Inbound.run h)) ∧
      (eventsHandled ref (Inbound.run h) ++ rest).Perm ((direct ++ letThrough ref h).filter notOwn) ∧
      ((∃ nsp, In (Inbound.run h) nsp ref) → (∀ t ∈ (Inbound.run h).tasks, undelivered ref t = false) → rest = []) := by
  have b := books ref h hj hd
  refine ⟨gather (directAt ref) h, ((Inbound.run h).tasks.flatMap (atFlight ref) ++ gather (droppedAt ref) h).filter notOwn, ?_, ?_, ?_⟩
  · rw [List.perm_iff_count, catchAlls_eq, gated_eq]
    intro x
    have := b.gate x
    rw [List.count_append]
    simp only [cnt] at this
    omega
  · rw [List.perm_iff_count, handled_eq, through_eq]
    intro x
    cases hx : notOwn x with
    | true =>
      rw [List.count_append, List.count_filter hx, List.count_filter hx, List.count_filter hx, List.count_append, List.count_append]
      have := b.fire x hx
      simp only [cnt] at this
      omega
    | false =>
      have z : ∀ l : List (List JVal), (l.filter notOwn).count x = 0 := fun l => List.count_eq_zero.2 fun hm => by
        rw [(List.mem_filter.1 hm).2] at hx; cases hx
      rw [List.count_append, z, z, z]
  · rintro ⟨nsp, hi⟩ hu
    have hc := ((in_iff _ _ _).1 hi).1
    rw [dropped_nil h hj hc, List.append_nil, flatMap_nil_of]
    · rfl
    · intro t ht
      have := hu t ht
      unfold undelivered at this
      unfold atFlight
      split at this
      · simp only [beq_eq_false_iff_ne] at this; simp [this]
      · simp only [beq_eq_false_iff_ne] at this; simp [this]
      · rename_i h1 h2
        split
        · rename_i r a; exact absurd rfl (h1 r a)
        · rename_i r n a; exact absurd rfl (h2 r n a)
        · rfl

/-- **C83**, sockets without middlewares: the listeners are called with events that arrived, each at most once; if the socket is
connected and its goroutines have ended, each exactly once. -/
theorem C83_plain (h : List Inbound.Ev) (hj : JoinedOnce h) (hd : ∀ p, .recv p ∈ h → Decoded p) (ref : Nat) (hu : .use ref ∉ h) :
    ∃ rest, (eventsHandled ref (Inbound.run h) ++ rest).Perm ((eventsIn ref h).filter notOwn) ∧
      ((∃ nsp, In (Inbound.run h) nsp ref) → (∀ t ∈ (Inbound.run h).tasks, worksFor ref t = false) → rest = []) := by
  obtain ⟨w, h1, h2⟩ := C83_catchall h hj hd ref
  obtain ⟨d, r, h3, h4, h5⟩ := C83_listeners h hj hd ref
  have sp := (sound_run (ref := ref) h hj).plain hu
  have hg : gated ref (Inbound.run h) = [] := by
    rw [gated_eq]
    refine flatMap_nil_of _ _ fun t ht => ?_
    unfold atGate
    split
    · rename_i r' a
      by_cases hr : r' = ref
      · subst hr; exact absurd ht (sp.2 a)
      · simp [hr]
    · rfl
  have ht : letThrough ref h = [] := by
    rw [through_eq, through_passed]
    refine flatMap_nil_of _ _ fun k hk => ?_
    obtain ⟨h₁, h₂, args, e1, e2⟩ := passed_split hk
    have g1 : (Inbound.run h).tasks[k]? = some (some (.gate ref args)) := by rw [e1]; exact gate_run _ e2
    exact absurd (List.mem_of_getElem? g1) (sp.2 args)
  rw [hg, List.append_nil] at h3
  rw [ht, List.append_nil] at h4
  refine ⟨r ++ w.filter notOwn, ?_, fun hc hw => ?_⟩
  · rw [← List.append_assoc]
    refine (h4.append_right _).trans ?_
    rw [← List.filter_append]
    exact ((h3.append_right w).trans h1).filter _
  · have hp : ∀ t ∈ (Inbound.run h).tasks, hasPacket ref t = false := by
      intro t ht
      have := hw t ht
      unfold hasPacket; split
      · exact this
      · rfl
    have hq : ∀ t ∈ (Inbound.run h).tasks, undelivered ref t = false := by
      intro t ht
      have := hw t ht
      unfold undelivered; split
      · exact this
      · exact this
      · rfl
    rw [h5 hc hq, h2 hp]; rfl

/-- **C83**, sockets whose middlewares call `next` at most once for each event: the listeners are called with events that arrived, each
at most once. -/
theorem C83_once (h : List Inbound.Ev) (hj : JoinedOnce h) (hd : ∀ p, .recv p ∈ h → Decoded p) (ref : Nat) (hn : NextOncePerEvent ref h) :
    ∃ rest, (eventsHandled ref (Inbound.run h) ++ rest).Perm ((eventsIn ref h).filter notOwn) := by
  obtain ⟨w, h1, -⟩ := C83_catchall h hj hd ref
  obtain ⟨d, r, h3, h4, -⟩ := C83_listeners h hj hd ref
  obtain ⟨g, hg⟩ := through_gated (ref := ref) h hn
  rw [← through_eq, ← gated_eq] at hg
  refine ⟨r ++ (g ++ w).filter notOwn, ?_⟩
  rw [← List.append_assoc]
  refine (h4.append_right _).trans ?_
  rw [← List.filter_append]
  refine List.Perm.filter _ ?_
  rw [List.append_assoc, ← List.append_assoc (letThrough ref h), ← List.append_assoc]
  exact (((hg.append_left d).trans h3).append_right w).trans h1

/-- Two namespaces; socket 0 has a middleware from the second event on, which refuses the third.  Event "a" asks for an
acknowledgement. -/
def Demo.sent : List Inbound.Ev :=
  [.recv { type := .connect }, .join "/", .recv { type := .connect, nsp := "/x" }, .join "/x",
   .recv { type := .event, data := .arr [.str "a", .num 1], id := some 7 }, .run 0 true, .run 1 true, .run 2 true,
   .recv { type := .event, nsp := "/x", data := .arr [.str "b"] }, .run 3 true, .run 4 true, .run 5 true, .use 0,
   .recv { type := .event, data := .arr [.str "c"] }, .run 6 true, .run 7 true, .run 8 true, .run 9 true,
   .recv { type := .event, data := .arr [.str "d"] }, .run 10 true, .run 11 false, .run 12 true]

/-- No goroutine is run twice. -/
def Demo.goesOn : Inbound.Ev → List Nat
  | .run k _ => [k]
  | _ => []

theorem Demo.next_once (ref : Nat) (h : List Inbound.Ev) (hn : (h.flatMap Demo.goesOn).Nodup) : NextOncePerEvent ref h := by
  rintro h₁ h₂ h₃ k a b rfl
  simp [Demo.goesOn, List.nodup_append] at hn

example : (∀ p, .recv p ∈ Demo.sent → Decoded p) ∧ JoinedOnce Demo.sent ∧ .use 1 ∉ Demo.sent ∧ NextOncePerEvent 0 Demo.sent := by
  refine ⟨fun p hp => ?_, joinedOnce_of _ rfl, by simp [Demo.sent], Demo.next_once 0 _ (by decide)⟩
  simp only [Demo.sent, List.mem_cons, Inbound.Ev.recv.injEq, reduceCtorEq, false_or, List.not_mem_nil, or_false] at hp
  rcases hp with rfl | rfl | rfl | rfl | rfl | rfl <;> simp [Decoded]

example : eventsIn 0 Demo.sent = [[.str "a", .num 1, .ackFn 7], [.str "c"], [.str "d"]] ∧ eventsIn 1 Demo.sent = [[.str "b"]] ∧
    eventsHandled 0 (Inbound.run Demo.sent) = [[.str "a", .num 1, .ackFn 7], [.str "c"]] ∧ eventsHandled 1 (Inbound.run Demo.sent) = [[.str "b"]] ∧
    catchAlls 0 (Inbound.run Demo.sent) = [[.str "a", .num 1, .ackFn 7], [.str "c"], [.str "d"]] ∧
    gated 0 (Inbound.run Demo.sent) = [[.str "c"], [.str "d"]] ∧ letThrough 0 Demo.sent = [[.str "c"]] := ⟨rfl, rfl, rfl, rfl, rfl, rfl, rfl⟩

/-- The condition of `C83_once` is needed: if the middleware calls `next` twice, the listeners are called twice with one event. -/
theorem C83_twice_fails : ∃ h : List Inbound.Ev, (∀ p, .recv p ∈ h → Decoded p) ∧ JoinedOnce h ∧
    eventsIn 0 h = [[.str "a"]] ∧ eventsHandled 0 (Inbound.run h) = [[.str "a"], [.str "a"]] := by
  refine ⟨[.join "/", .use 0, .recv { type := .event, data := .arr [.str "a"] }, .run 0 true, .run 1 true, .run 1 true, .run 2 true,
    .run 3 true, .run 4 true, .run 5 true], ?_, joinedOnce_of _ rfl, rfl, rfl⟩
  intro p hp
  simp only [List.mem_cons, Inbound.Ev.recv.injEq, reduceCtorEq, false_or, List.not_mem_nil, or_false] at hp
  subst hp; simp [Decoded]

end Verif.Props
