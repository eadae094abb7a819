import Verif.Proof.Buffers

/-! # C105: whole packets for everybody -/

namespace Verif.Props
open Verif Verif.Buffers

/-- **C105**.  For any packets, broadcast or not, written to any connections, and whatever the transports read and when, provided that
they do not consume the prepared frames: what a connection has sent are the first of the frames due to it. -/
theorem C105_prefix (h : List Buffers.Ev) (c : Nat) :
    Spec.sentFrames (Buffers.run false h) c <+: Spec.dueFrames h c := by
  obtain ⟨own, hi⟩ := Buffers.inv_run h
  rw [Buffers.due_eq]
  simp only [Spec.sentFrames]
  cases hx : (Buffers.run false h).conns[c]? with
  | none => exact List.nil_prefix
  | some x =>
    obtain ⟨rest, h1, _⟩ := hi.queue c x hx
    exact ⟨_, h1.symm⟩

/-- **C105**.  A connection that has nothing left to send has sent all that was due to it. -/
theorem C105_all (h : List Buffers.Ev) (c : Nat) (hd : Spec.drained (Buffers.run false h) c) :
    Spec.sentFrames (Buffers.run false h) c = Spec.dueFrames h c := by
  obtain ⟨own, hi⟩ := Buffers.inv_run h
  rw [Buffers.due_eq]
  simp only [Spec.sentFrames]
  cases hx : (Buffers.run false h).conns[c]? with
  | none => simp [(hi.late c hx).1]
  | some x =>
    obtain ⟨rest, h1, h2⟩ := hi.queue c x hx
    rw [hd x hx] at h2
    cases rest with
    | nil => rw [h1]; simp
    | cons p r => exact h2.elim

/-- **C105**.  Nothing keeps a transport from sending its next frame: after reading enough it has sent one more. -/
theorem C105_progress (h : List Buffers.Ev) (c : Nat) (hd : ¬ Spec.drained (Buffers.run false h) c) :
    ∃ n, (Spec.sentFrames (Buffers.run false (h ++ [.read c n, .finish c])) c).length =
      (Spec.sentFrames (Buffers.run false h) c).length + 1 := by
  obtain ⟨own, hi⟩ := Buffers.inv_run h
  simp only [Spec.drained, Classical.not_forall] at hd
  obtain ⟨x, hx, hq⟩ := hd
  simp only [Buffers.run, List.foldl_append, List.foldl_cons, List.foldl_nil]
  change ∃ n, (Spec.sentFrames (Buffers.step false (Buffers.step false (Buffers.run false h) (.read c n)) (.finish c)) c).length =
    (Spec.sentFrames (Buffers.run false h) c).length + 1
  generalize Buffers.run false h = s at *
  obtain ⟨rest, h1, h2⟩ := hi.queue c x hx
  have hc : c < s.conns.length := (List.getElem?_eq_some_iff.1 hx).1
  cases hqq : x.queue with
  | nil => exact absurd hqq hq
  | cons it q =>
    rw [hqq] at h2
    cases rest with
    | nil => exact h2.elim
    | cons p r =>
      obtain ⟨⟨p1, ⟨b, p2, p3, p4⟩, p5⟩, -, -⟩ := h2
      have hlt : it.ptr < s.heap.length := (List.getElem?_eq_some_iff.1 p2).1
      refine ⟨b.data.length, ?_⟩
      by_cases hw : x.ws = true ∧ it.frame.isSome = true
      · obtain ⟨f, hf⟩ := Option.isSome_iff_exists.1 hw.2
        obtain ⟨a, _, d⟩ := p5 f hf
        have e1 : Buffers.step false s (.read c b.data.length) = s := by
          simp only [Buffers.step, hx, Buffers.read, hqq, hw.1, hf]; rfl
        rw [e1]
        simp only [Buffers.step, hx, Buffers.finish, hqq, hw.1, if_true, hf, d, Spec.sentFrames, List.getElem?_set_self hc]
        simp
      · have hw' : (x.ws && it.frame.isSome) = false := by
          cases h3 : x.ws <;> cases h4 : it.frame.isSome <;> simp_all
        have hw2 : (if x.ws = true then it.frame else none) = none := by
          split
          · rename_i h3
            rw [h3] at hw'
            simpa using hw'
          · rfl
        have e1 : Buffers.step false s (.read c b.data.length) =
            { s with heap := s.heap.set it.ptr { b with data := b.data.drop b.data.length },
                     conns := s.conns.set c { x with part := x.part ++ b.data.take b.data.length } } := by
          simp only [Buffers.step, hx, Buffers.read, hqq, hw', p2]; rfl
        rw [e1]
        simp only [Buffers.step, List.getElem?_set_self hc, Buffers.finish, hqq, hw2, List.getElem?_set_self hlt, List.drop_length, if_true,
          Spec.sentFrames, hx]
        simp [hc]

/-- A text "a" to a WebSocket and two others, and a packet with an attachment to two of them. -/
def twoPackets : List Buffers.Ev :=
  [.connect true, .connect false, .connect false, .encode [⟨true, [97, 98]⟩] true false, .encode [⟨true, [53]⟩, ⟨false, [1, 2]⟩] true true,
   .write 0 0, .write 0 1, .read 1 1, .write 0 2, .write 1 1, .finish 0, .write 1 0, .writable 2 false, .write 1 2, .read 1 5, .finish 1,
   .read 1 5, .finish 1, .read 2 1, .read 2 1, .finish 2, .read 0 9, .finish 0, .read 1 1, .read 1 1, .finish 1, .read 0 2, .finish 0]

example : (List.range 3).map (Spec.sentFrames (Buffers.run false twoPackets)) =
      [[(true, [52, 97, 98]), (true, [52, 53]), (false, [1, 2])], [(true, [52, 97, 98]), (true, [52, 53]), (false, [1, 2])],
       [(true, [52, 97, 98])]] ∧
    (∀ c < 3, ∀ x, (Buffers.run false twoPackets).conns[c]? = some x → x.queue = []) ∧
    ((Buffers.run false (twoPackets.take 10)).conns[1]?.map Conn.queue) ≠ some [] := by decide

/-- **C105** depends on the transports: if a WebSocket transport consumed the prepared frame, the second recipient of a broadcast would
get an empty one. -/
theorem C105_consumed_fails : ∃ (h : List Buffers.Ev) (c : Nat), Spec.drained (Buffers.run true h) c ∧
    Spec.sentFrames (Buffers.run true h) c ≠ Spec.dueFrames h c :=
  ⟨[.connect true, .connect true, .encode [⟨true, [97]⟩] true false, .write 0 0, .write 0 1, .finish 0, .finish 1], 1,
    by intro x hx; simp [Buffers.run, Buffers.step, Buffers.encode, Buffers.write, Buffers.writeAll, Buffers.clone, Buffers.finish, List.range'] at hx; subst hx; rfl, by decide⟩

end Verif.Props
