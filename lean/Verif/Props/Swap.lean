import Verif.Proof.Swap

/-! # C86: `SetAdapter` on a running server -/

namespace Verif.Props
open Verif Verif.Spec Verif.Swap

/-- Part of C86.  Whatever happened before, a broadcast (or `FetchSockets`) reaches exactly the selected sockets that were made under the
adapter it goes through, each once.  What is missing: that these are all the selected sockets, see `C86_fails`. -/
theorem C86_partial (d : Bool) (h : List Swap.Ev) (who : Who) (rooms except : List String) :
    (∀ id, id ∈ (Swap.run d (h ++ [.cast who rooms except])).last ↔
      SameAdapter h who id ∧ Selected (isConnected d h) (inRoomOf d h) rooms except id) ∧
    (Swap.run d (h ++ [.cast who rooms except])).last.Nodup := by
  have hl : (Swap.run d (h ++ [.cast who rooms except])).last = reached (Swap.run d h) who rooms except := by
    rw [run_snoc]; rfl
  rw [hl]
  unfold reached
  cases hv : via (Swap.run d h) who with
  | none =>
    refine ⟨fun id => ?_, List.nodup_nil⟩
    simp [same_run d, hv]
  | some g =>
    refine ⟨fun id => ?_, (Adapter.apply_spec (local_cb cb_same g) (opts rooms except) _ (j_run d h)).2.1⟩
    refine (visited cb_same g (j_run d h) rooms except id).trans ?_
    rw [same_run d, hv]
    constructor
    · rintro ⟨h1, h2⟩; exact ⟨⟨g, rfl, h1⟩, h2⟩
    · rintro ⟨⟨g', h1, h1'⟩, h2⟩; cases h1; exact ⟨h1', h2⟩

/-- What a call on many sockets does, in terms of the history. -/
theorem bulk_run {cb : St → Sid → St} {P : Room → Prop → Prop} (hc : Cb cb P) (d : Bool) (h : List Swap.Ev) (e : Swap.Ev) (who : Who)
    (rooms except : List String)
    (he : ∀ s, Swap.step d s e = match via s who with
      | some g => (Adapter.apply (view g) (opts rooms except) cb s).1
      | none => s) (id r : String) :
    let hit := SameAdapter h who id ∧ Selected (isConnected d h) (inRoomOf d h) rooms except id
    ((hit → (inRoomOf d (h ++ [e]) id r ↔ P r (inRoomOf d h id r))) ∧ (¬ hit → (inRoomOf d (h ++ [e]) id r ↔ inRoomOf d h id r))) ∧
    (¬ hit → (isConnected d (h ++ [e]) id ↔ isConnected d h id)) := by
  intro hit
  unfold inRoomOf isConnected
  rw [run_snoc, he]
  cases hv : via (Swap.run d h) who with
  | none =>
    have : ¬ hit := by rintro ⟨hs, _⟩; rw [same_run d, hv] at hs; obtain ⟨_, hs, _⟩ := hs; cases hs
    exact ⟨⟨fun h => absurd h this, fun _ => Iff.rfl⟩, fun _ => Iff.rfl⟩
  | some g =>
    obtain ⟨_, _, _, _, k1, k2⟩ := bulk hc g (j_run d h) rooms except
    have hit' : hit ↔ ((Swap.run d h).own id = some g ∧
        Selected (fun x => (Swap.run d h).reg x = true) (fun x r => r ∈ Swap.rooms (Swap.run d h) x) rooms except id) := by
      show SameAdapter h who id ∧ _ ↔ _
      rw [same_run d, hv]
      constructor
      · rintro ⟨⟨g', h1, h1'⟩, h2⟩; cases h1; exact ⟨h1', h2⟩
      · rintro ⟨h1, h2⟩; exact ⟨⟨g, rfl, h1⟩, h2⟩
    exact ⟨⟨fun hh => (k1 id r).1 (hit'.1 hh), fun hh => (k1 id r).2 (fun x => hh (hit'.2 x))⟩,
      fun hh => by dsimp only; rw [(k2 id (fun x => hh (hit'.2 x))).1]⟩

/-- Part of C86.  `SocketsJoin` makes exactly those sockets join. -/
theorem C86_join_partial (d : Bool) (h : List Swap.Ev) (who : Who) (rooms except joined : List String) (id r : String) :
    inRoomOf d (h ++ [.bulkJoin who rooms except joined]) id r ↔ inRoomOf d h id r ∨
      (SameAdapter h who id ∧ Selected (isConnected d h) (inRoomOf d h) rooms except id ∧ r ∈ joined) := by
  have k := (bulk_run (cb_join joined) d h (.bulkJoin who rooms except joined) who rooms except (fun _ => rfl) id r).1
  by_cases hit : SameAdapter h who id ∧ Selected (isConnected d h) (inRoomOf d h) rooms except id
  · rw [k.1 hit]
    constructor
    · rintro (h' | h')
      · exact .inl h'
      · exact .inr ⟨hit.1, hit.2, h'⟩
    · rintro (h' | ⟨_, _, h'⟩)
      · exact .inl h'
      · exact .inr h'
  · rw [k.2 hit]
    constructor
    · exact .inl
    · rintro (h' | ⟨h1, h2, _⟩)
      · exact h'
      · exact absurd ⟨h1, h2⟩ hit

/-- Part of C86.  `SocketsLeave` makes exactly those sockets leave. -/
theorem C86_leave_partial (d : Bool) (h : List Swap.Ev) (who : Who) (rooms except left : List String) (id r : String) :
    inRoomOf d (h ++ [.bulkLeave who rooms except left]) id r ↔ inRoomOf d h id r ∧
      ¬ (SameAdapter h who id ∧ Selected (isConnected d h) (inRoomOf d h) rooms except id ∧ r ∈ left) := by
  have k := (bulk_run (cb_leave d left) d h (.bulkLeave who rooms except left) who rooms except (fun _ => rfl) id r).1
  by_cases hit : SameAdapter h who id ∧ Selected (isConnected d h) (inRoomOf d h) rooms except id
  · rw [k.1 hit]
    constructor
    · rintro ⟨h1, h2⟩; exact ⟨h1, fun hh => h2 hh.2.2⟩
    · rintro ⟨h1, h2⟩; exact ⟨h1, fun hh => h2 ⟨hit.1, hit.2, hh⟩⟩
  · rw [k.2 hit]
    exact ⟨fun h1 => ⟨h1, fun hh => hit ⟨hh.1, hh.2.1⟩⟩, fun h1 => h1.1⟩

/-- Part of C86.  `DisconnectSockets` disconnects exactly those sockets. -/
theorem C86_disconnect_partial (d : Bool) (h : List Swap.Ev) (who : Who) (rooms except : List String) (id : String) :
    (isConnected d (h ++ [.bulkDisconnect who rooms except]) id ↔ isConnected d h id ∧
      ¬ (SameAdapter h who id ∧ Selected (isConnected d h) (inRoomOf d h) rooms except id)) ∧
    ∀ r, inRoomOf d (h ++ [.bulkDisconnect who rooms except]) id r ↔ inRoomOf d h id r ∧
      ¬ (SameAdapter h who id ∧ Selected (isConnected d h) (inRoomOf d h) rooms except id) := by
  have k := fun r => bulk_run (cb_cleanup d) d h (.bulkDisconnect who rooms except) who rooms except (fun _ => rfl) id r
  have jn := j_run d (h ++ [.bulkDisconnect who rooms except])
  by_cases hit : SameAdapter h who id ∧ Selected (isConnected d h) (inRoomOf d h) rooms except id
  · have nr : ∀ r, ¬ inRoomOf d (h ++ [.bulkDisconnect who rooms except]) id r := fun r hr => ((k r).1.1 hit).1 hr
    refine ⟨⟨fun hc => ?_, fun hh => absurd hit hh.2⟩, fun r => ⟨fun hr => absurd hr (nr r), fun hh => absurd hit hh.2⟩⟩
    exact absurd hc (by
      obtain ⟨⟨g, hg, ho⟩, hs⟩ := hit
      rw [← via_run d] at hg; rw [← own_run d] at ho
      unfold isConnected; rw [run_snoc]; simp only [Swap.step, hg]
      exact gone d g (j_run d h) rooms except ho hs)
  · exact ⟨⟨fun hc => ⟨((k "").2 hit).1 hc, hit⟩, fun hh => ((k "").2 hit).2 hh.1⟩,
      fun r => ⟨fun hr => ⟨((k r).1.2 hit).1 hr, hit⟩, fun hh => ((k r).1.2 hit).2 hh.1⟩⟩

/-- C86 as far as it holds: when the adapter is only changed while there is no open socket, every call through the namespace concerns all
the sockets it selects. -/
theorem C86_rest_partial (d : Bool) (h : List Swap.Ev) (hr : SwapsAtRest d h) (rooms except : List String) (id : String) :
    id ∈ (Swap.run d (h ++ [.cast .nsp rooms except])).last ↔ Selected (isConnected d h) (inRoomOf d h) rooms except id := by
  rw [(C86_partial d h .nsp rooms except).1 id]
  refine ⟨fun hh => hh.2, fun hs => ⟨?_, hs⟩⟩
  have hc := (j_run d h).open_ id hs.1
  obtain ⟨g, ho⟩ := (j_run d h).made id hc
  obtain ⟨a, b, rfl, hn, hg⟩ := (own_run d h id g).1 ho
  refine ⟨g, ?_, (own_run d _ id g).1 ho⟩
  have hb : Swap.Ev.setAdapter ∉ b := by
    intro hm
    obtain ⟨b₁, b₂, rfl⟩ := List.append_of_mem hm
    have h1 := hr (a ++ .create id :: b₁) b₂ (by simp) id
    have h2 := can_back d (a ++ .create id :: b₁) (.setAdapter :: b₂) id (by
      intro h'; exact (own_none d _ id).1 h' (by simp)) (by simpa using hc)
    rw [h1] at h2; cases h2
  have : swaps (a ++ .create id :: b) = g := by
    rw [← hg]; unfold swaps
    rw [List.count_append, List.count_cons, List.count_eq_zero.2 hb]; simp
  rw [← this]; exact .nsp _

/-- Part of C86.  A client that lost its connection finds its session, with the rooms the socket had, when the adapter has not changed since
the socket was made; -/
theorem C86_recovery_partial (d : Bool) (h₁ h₂ : List Swap.Ev) (id : String) (hc : isConnected d h₁ id)
    (hs : SameAdapter (h₁ ++ .drop id :: h₂) .nsp id) :
    Swap.restore (Swap.run d (h₁ ++ .drop id :: h₂)) id = some (Swap.rooms (Swap.run d h₁) id) := by
  have j := j_run d h₁
  have hcan := j.open_ id hc
  obtain ⟨g, ho⟩ := j.made id hcan
  obtain ⟨g', hv, ho'⟩ := (same_run d _ .nsp id).1 hs
  have hcur : (Swap.run d (h₁ ++ .drop id :: h₂)).cur = g := by
    have e : g' = g := by
      have k := (own_run d h₁ id g).1 ho
      obtain ⟨a, b, hab, hn, hg⟩ := k
      have : MadeUnder (h₁ ++ .drop id :: h₂) id g := ⟨a, b ++ .drop id :: h₂, by rw [hab]; simp, hn, hg⟩
      rw [← own_run d] at this
      rw [this] at ho'; exact (Option.some.inj ho').symm
    simp only [via, Option.some.injEq] at hv; rw [hv, e]
  have e1 : h₁ ++ .drop id :: h₂ = (h₁ ++ [.drop id]) ++ h₂ := by simp
  obtain ⟨l, hl⟩ := saved_mono d (h₁ ++ [.drop id]) h₂
  have hsv : (Swap.run d (h₁ ++ [.drop id])).saved = (Swap.run d h₁).saved ++ [(g, id, Swap.rooms (Swap.run d h₁) id)] := by
    rw [run_snoc]
    have hc' : (Swap.run d h₁).reg id = true := hc
    simp only [Swap.step, Swap.drop, ho, hc', if_true]
    rw [(cleanup_frame d _ id).1]
  unfold Swap.restore
  rw [hcur, e1, hl, hsv]
  have hnone : (Swap.run d h₁).saved.find? (fun x => x.1 == g && x.2.1 == id) = none := by
    rw [List.find?_eq_none]
    intro x hx hb
    have := (saved_run d h₁ x hx).2
    simp only [Bool.and_eq_true, beq_iff_eq] at hb
    rw [hb.2, hcan] at this; cases this
  rw [List.find?_append, List.find?_append, hnone]
  simp

/-- Part of C86.  and finds none when it has. -/
theorem C86_lost (d : Bool) (h : List Swap.Ev) (id : String) (hs : ¬ SameAdapter h .nsp id) : Swap.restore (Swap.run d h) id = none := by
  unfold Swap.restore
  rw [Option.map_eq_none_iff, List.find?_eq_none]
  intro x hx hb
  simp only [Bool.and_eq_true, beq_iff_eq] at hb
  have ho := (saved_run d h x hx).1
  rw [hb.1, hb.2] at ho
  exact hs ((same_run d h .nsp id).2 ⟨_, rfl, ho⟩)

/-- Part of C86.  Which adapters are closed: those the namespace had at the moment of a `Close` of the server. -/
theorem C86_closed (d : Bool) (h : List Swap.Ev) (g : Nat) :
    g ∈ (Swap.run d h).closed ↔ ∃ h₁ order h₂, h = h₁ ++ .shutdown order :: h₂ ∧ swaps h₁ = g := by
  induction h using snocRec with
  | nil => simp [Swap.run]
  | append_singleton h e ih =>
    rw [run_snoc, (step_saved d (j_run d h) e).2, List.mem_append, ih]
    constructor
    · rintro (⟨a, o, b, rfl, hg⟩ | hm)
      · exact ⟨a, o, b ++ [e], by simp, hg⟩
      · cases e <;> simp at hm
        subst hm; exact ⟨h, _, [], rfl, (cur_run d h).symm⟩
    · rintro ⟨a, o, b, hab, hg⟩
      rcases List.eq_nil_or_concat b with rfl | ⟨b', x, rfl⟩
      · obtain ⟨e1, e2⟩ := List.append_inj' hab rfl
        subst e1; cases e2; right; simp [cur_run, hg]
      · have : h ++ [e] = (a ++ .shutdown o :: b') ++ [x] := by simpa using hab
        obtain ⟨e1, _⟩ := List.append_inj' this rfl
        exact .inl ⟨a, o, b', e1, hg⟩

/-- "a" and "b" connect, the adapter is changed, "c" connects and joins the room "b" is in. -/
def Demo.swapped : List Swap.Ev :=
  [.create "a", .connect "a", .create "b", .connect "b", .join "b" ["x"], .keep 1 (.socket "a"), .setAdapter, .create "c", .connect "c",
    .join "c" ["x"], .join "b" ["y"]]

/-- The hypotheses of these theorems can be met. -/
example :
    (Swap.run true (Demo.swapped ++ [.cast .nsp [] []])).last = ["c"] ∧
    (Swap.run true (Demo.swapped ++ [.cast (.socket "b") ["x"] []])).last = ["b"] ∧
    (Swap.run true (Demo.swapped ++ [.cast (.operator 1) [] ["b"]])).last = ["a"] ∧
    Swap.rooms (Swap.run true (Demo.swapped ++ [.bulkJoin .nsp ["x"] [] ["z"]])) "c" = ["z", "x", "c"] ∧
    Swap.rooms (Swap.run true (Demo.swapped ++ [.bulkJoin .nsp ["x"] [] ["z"]])) "b" = ["y", "x", "b"] ∧
    Swap.rooms (Swap.run true (Demo.swapped ++ [.bulkLeave (.operator 1) ["b"] [] ["x"]])) "b" = ["y", "b"] ∧
    (Swap.run true (Demo.swapped ++ [.bulkDisconnect (.socket "a") ["x"] []])).reg "b" = false ∧
    (Swap.run true (Demo.swapped ++ [.bulkDisconnect (.socket "a") ["x"] []])).reg "c" = true := by decide

/-- The adapter changed at rest, twice. -/
example : SwapsAtRest true ([.setAdapter, .create "a", .connect "a", .close "a", .setAdapter] ++ [.create "b", .connect "b"]) ∧
    (Swap.run true ([.setAdapter, .create "a", .connect "a", .close "a", .setAdapter, .create "b", .connect "b"] ++ [.cast .nsp [] []])).last = ["b"] := by
  constructor
  · intro h₁ h₂ e id
    have hn : ∀ n, (([.setAdapter, .create "a", .connect "a", .close "a", .setAdapter, .create "b", .connect "b"] : List Swap.Ev)[n]? =
        some .setAdapter → n = 0 ∨ n = 4) := by
      intro n hn
      match n with
      | 0 => exact .inl rfl
      | 4 => exact .inr rfl
      | 1 | 2 | 3 | 5 | 6 => cases hn
      | n + 7 => cases hn
    have e' : ([.setAdapter, .create "a", .connect "a", .close "a", .setAdapter, .create "b", .connect "b"] : List Swap.Ev)
      = h₁ ++ .setAdapter :: h₂ := e
    have h1 : h₁ = (h₁ ++ .setAdapter :: h₂).take h₁.length := by simp
    rcases hn h₁.length (by rw [e']; simp) with hl | hl
    · rw [hl] at h1; rw [h1]; rfl
    · rw [hl, ← e'] at h1; rw [h1]
      show (if id = "a" then false else if id = "a" then true else false) = false
      by_cases e1 : id = "a"
      · rw [if_pos e1]
      · rw [if_neg e1, if_neg e1]
  · decide

/-- A session found, with its rooms, and one lost. -/
example :
    isConnected true [.create "a", .connect "a", .join "a" ["x"]] "a" ∧
    SameAdapter ([.create "a", .connect "a", .join "a" ["x"]] ++ .drop "a" :: []) .nsp "a" ∧
    Swap.restore (Swap.run true [.create "a", .connect "a", .join "a" ["x"], .drop "a"]) "a" = some ["x", "a"] ∧
    ¬ SameAdapter [.create "a", .connect "a", .setAdapter, .drop "a"] .nsp "a" := by
  refine ⟨by unfold isConnected; decide, (same_run true _ _ _).2 ⟨0, by decide, by decide⟩, by decide, ?_⟩
  rw [same_run true]
  rintro ⟨g, h1, h2⟩
  have e1 : via (Swap.run true [.create "a", .connect "a", .setAdapter, .drop "a"]) .nsp = some 1 := by decide
  have e2 : (Swap.run true [.create "a", .connect "a", .setAdapter, .drop "a"]).own "a" = some 0 := by decide
  rw [e1] at h1; rw [e2] at h2; cases h1; cases h2

/-- After a change of the adapter `io.Emit` misses the sockets that are connected. -/
theorem C86_fails :
    ¬ ∀ (d : Bool) (h : List Swap.Ev) (rooms except : List String) (id : String),
      Selected (isConnected d h) (inRoomOf d h) rooms except id → id ∈ (Swap.run d (h ++ [.cast .nsp rooms except])).last := by
  intro hall
  exact absurd (hall true Demo.swapped ["x"] [] "b"
    ⟨by unfold isConnected; decide, .inr ⟨"x", by simp, by unfold inRoomOf; decide⟩, by simp⟩) (by decide)

/-- The sockets of a room do not hear each other either. -/
theorem C86_socket_fails :
    ¬ ∀ (d : Bool) (h : List Swap.Ev) (rooms except : List String) (sender id : String), isConnected d h sender →
      Selected (isConnected d h) (inRoomOf d h) rooms except id → id ∈ (Swap.run d (h ++ [.cast (.socket sender) rooms except])).last := by
  intro hall
  exact absurd (hall true Demo.swapped ["x"] [] "b" "c" (by unfold isConnected; decide)
    ⟨by unfold isConnected; decide, .inr ⟨"x", by simp, by unfold inRoomOf; decide⟩, by simp⟩) (by decide)

/-- A client that loses its connection after the change is not recovered. -/
theorem C86_recovery_fails :
    ¬ ∀ (d : Bool) (h₁ h₂ : List Swap.Ev) (id : String), isConnected d h₁ id →
      (Swap.restore (Swap.run d (h₁ ++ .drop id :: h₂)) id).isSome := by
  intro hall
  exact absurd (hall true Demo.swapped [] "b" (by unfold isConnected; decide)) (by decide)

/-- `Close` of the server leaves the replaced adapters running (a cluster adapter goes on sending heartbeats). -/
theorem C86_close_fails :
    ¬ ∀ (d : Bool) (h : List Swap.Ev) (order : List String) (g : Nat), g ≤ swaps h → g ∈ (Swap.run d (h ++ [.shutdown order])).closed := by
  intro hall
  exact absurd (hall true Demo.swapped ["c"] 0 (by decide)) (by decide)

end Verif.Props
