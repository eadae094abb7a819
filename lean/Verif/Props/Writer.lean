import Verif.Spec.Writer
import Verif.Proof.Writer

/-! # C35, C46: writing packets to a connection -/

namespace Verif.Props
open Verif Verif.Writer

theorem jobFrames_eq (s : Writer.St) (k : Nat) : Spec.jobFrames s k = framesOf s k := by
  simp only [Spec.jobFrames, framesOf]
  cases s.jobs[k]? <;> rfl

theorem inv_whole {s : Writer.St} {o : List Nat} (h : Inv s o) : Spec.WholePackets s o := by
  refine ⟨h.nodup, h.done, partialOf s, ?_, ?_⟩
  · rw [h.wire]; congr 1; exact flatMap_congr' (fun k _ => (jobFrames_eq s k).symm)
  · simp only [partialOf]
    cases hl : s.lock with
    | none => exact .inl rfl
    | some k =>
      simp only
      rcases (h.holder k).1 hl with ⟨j, hj⟩ | ⟨j, n, hj⟩
      · simp only [hj]; exact .inl trivial
      · simp only [hj]; exact .inr ⟨k, j, n, hj, rfl⟩

/-- **C46**.  For any number of goroutines writing to the same connection and every schedule of their
individual operations, while the transport opens, closes and becomes unwritable at any moment, the
connection carries whole packets only: one after the other, each with its frames in order, the last one
possibly unfinished.  Later events only append packets to that order. -/
theorem C46_whole_packets (h₁ h₂ : List Writer.Ev) :
    ∃ o₁ o₂, Spec.WholePackets (Writer.run h₁) o₁ ∧ Spec.WholePackets (Writer.run (h₁ ++ h₂)) (o₁ ++ o₂) := by
  obtain ⟨o₁, hi₁⟩ := inv_run h₁
  obtain ⟨o₂, hi₂⟩ := inv_fold h₂ _ _ hi₁
  exact ⟨o₁, o₂, inv_whole hi₁, by rw [run_append]; exact inv_whole hi₂⟩

theorem mem_split_flatMap {α β} (f : α → List β) (l : List α) (k : α) (hk : k ∈ l) :
    ∃ pre post, l.flatMap f = pre ++ f k ++ post := by
  obtain ⟨a, b, rfl⟩ := List.append_of_mem hk
  exact ⟨a.flatMap f, b.flatMap f, by simp⟩

/-- **C46**, for one packet: the frames of a finished write are contiguous and in order. -/
theorem C46_contiguous (h : List Writer.Ev) (k : Nat) (j : Job)
    (hk : (Writer.run h).jobs[k]? = some (j, .done)) :
    ∃ pre post, (Writer.run h).wire = pre ++ j.frames ++ post := by
  obtain ⟨o, hi⟩ := inv_run h
  obtain ⟨a, b, hab⟩ := mem_split_flatMap (framesOf (Writer.run h)) o k ((hi.done k).2 ⟨j, hk⟩)
  refine ⟨a, b ++ partialOf (Writer.run h), ?_⟩
  rw [hi.wire, hab]
  have : framesOf (Writer.run h) k = j.frames := by simp [framesOf, hk]
  rw [this]
  simp

/-- Two goroutines, interleaved: the first takes the mutex, the second has to wait. -/
def twoWriters : List Writer.Ev :=
  [.write { frames := ["5-a", "bin-a"] }, .write { frames := ["2-b"] }, .adv 0, .adv 1, .adv 0, .adv 1,
   .adv 0, .adv 0, .adv 1, .adv 0, .adv 1, .adv 0, .adv 1, .adv 1, .adv 1, .adv 1]

example : (Writer.run twoWriters).wire = ["5-a", "bin-a", "2-b"] ∧
    (Writer.run twoWriters).jobs[0]? = some ({ frames := ["5-a", "bin-a"] }, .done) := by decide

/-- **C35**.  A packet is dropped only at a moment when either it is volatile and the transport is not
writable, or the connection is not open (and the packet is not part of a broadcast, which is handed to the
transport in any case). -/
theorem C35_drop_reason (h : List Writer.Ev) (e : Writer.Ev) (k : Nat) (j : Job) (d : Drop)
    (before : ¬ ∃ d', (Writer.run h).jobs[k]? = some (j, .dropped d'))
    (after : (Writer.run (h ++ [e])).jobs[k]? = some (j, .dropped d)) :
    (d = .notWritable ∧ j.volatile = true ∧ (Writer.run h).writable = false) ∨
    (d = .notOpen ∧ j.direct = false ∧ (Writer.run h).opened = false) := by
  rw [run_append] at after
  simp only [List.foldl_cons, List.foldl_nil] at after
  generalize Writer.run h = s at *
  cases e with
  | setOpen b => exact absurd ⟨d, after⟩ before
  | setWritable b => exact absurd ⟨d, after⟩ before
  | write j' =>
    simp only [Writer.step, List.getElem?_append] at after
    split at after
    · exact absurd ⟨d, after⟩ before
    · rcases List.getElem?_eq_some_iff.1 after with ⟨h1, h2⟩
      simp at h2
  | adv i =>
    simp only [Writer.step] at after
    cases hi : s.jobs[i]? with
    | none => rw [hi] at after; exact absurd ⟨d, after⟩ before
    | some p =>
      obtain ⟨j', pc⟩ := p
      rw [hi] at after
      have hlt : i < s.jobs.length := (List.getElem?_eq_some_iff.1 hi).1
      have get : ∀ (pc' : Pc), (s.jobs.set i (j', pc'))[k]? = some (j, .dropped d) →
          j' = j ∧ pc' = .dropped d := by
        intro pc' hh
        rw [List.getElem?_set] at hh
        by_cases hik : i = k
        · simp [hik, hik ▸ hlt] at hh; exact hh
        · simp only [hik, if_false] at hh; exact absurd ⟨d, hh⟩ before
      cases pc with
      | start =>
        simp only [advJob] at after
        split at after
        · have := get _ after; simp at this
        · rename_i hc
          have := get _ after
          simp at this hc
          rw [this.1] at hc
          exact .inr ⟨this.2.symm, hc.1, hc.2⟩
      | waiting =>
        simp only [advJob] at after
        split at after
        · have := get _ after; simp at this
        · exact absurd ⟨d, after⟩ before
      | locked =>
        simp only [advJob] at after
        split at after
        · rename_i hc
          have := get _ after
          simp at this hc
          rw [this.1] at hc
          exact .inl ⟨this.2.symm, hc.1, hc.2⟩
        · have := get _ after; simp at this
      | writing n =>
        simp only [advJob] at after
        split at after
        · have := get _ after; simp at this
        · have := get _ after; simp at this
      | done => exact absurd ⟨d, after⟩ before
      | dropped d' => exact absurd ⟨d, after⟩ before

/-- **C35**.  A write is never lost in any other way: when no goroutine can make a further step, every
write is either finished (all its frames are on the wire, `C46_contiguous`) or was dropped. -/
theorem C35_all_written (h : List Writer.Ev)
    (quiet : ∀ k, Writer.step (Writer.run h) (.adv k) = Writer.run h) (k : Nat) (j : Job) (pc : Pc)
    (hk : (Writer.run h).jobs[k]? = some (j, pc)) : pc = .done ∨ ∃ d, pc = .dropped d := by
  obtain ⟨o, hi⟩ := inv_run h
  generalize Writer.run h = s at *
  have moves : ∀ (i : Nat) (j' : Job) (pc' : Pc) (pc'' : Pc), s.jobs[i]? = some (j', pc') →
      (Writer.step s (.adv i)).jobs = s.jobs.set i (j', pc'') → pc' ≠ pc'' → False := by
    intro i j' pc' pc'' hgi htj hne
    have hlt : i < s.jobs.length := (List.getElem?_eq_some_iff.1 hgi).1
    rw [quiet i] at htj
    have : s.jobs[i]? = some (j', pc'') := by
      rw [htj, List.getElem?_set]; simp [hlt]
    rw [hgi] at this
    simp at this
    exact hne this
  have holderMoves : ∀ i, s.lock = some i → False := by
    intro i hl
    rcases (hi.holder i).1 hl with ⟨j', hj'⟩ | ⟨j', n, hj'⟩
    · by_cases hc : (j'.volatile && !s.writable) = true
      · exact moves i j' _ (.dropped .notWritable) hj' (by simp only [Writer.step, hj', advJob, hc, if_true]) (by simp)
      · exact moves i j' _ (.writing 0) hj' (by simp only [Writer.step, hj', advJob, hc]; rfl) (by simp)
    · cases hf : j'.frames[n]? with
      | some f => exact moves i j' _ (.writing (n+1)) hj' (by simp only [Writer.step, hj', advJob, hf]) (by simp)
      | none => exact moves i j' _ .done hj' (by simp only [Writer.step, hj', advJob, hf]) (by simp)
  cases pc with
  | done => exact .inl rfl
  | dropped d => exact .inr ⟨d, rfl⟩
  | start =>
    exfalso
    by_cases hc : (j.direct || s.opened) = true
    · exact moves k j _ .waiting hk (by simp only [Writer.step, hk, advJob, hc, if_true]) (by simp)
    · exact moves k j _ (.dropped .notOpen) hk (by simp only [Writer.step, hk, advJob, hc]; rfl) (by simp)
  | waiting =>
    exfalso
    cases hl : s.lock with
    | some i => exact holderMoves i hl
    | none => exact moves k j _ .locked hk (by simp only [Writer.step, hk, advJob, hl]) (by simp)
  | locked => exact (holderMoves k ((hi.holder k).2 (.inl ⟨j, hk⟩))).elim
  | writing n => exact (holderMoves k ((hi.holder k).2 (.inr ⟨j, n, hk⟩))).elim

/-- **C35**, order.  A packet whose write finished before another write began is on the wire before every
frame of the other one: the later frames are appended to a wire that already holds the whole packet. -/
theorem C35_order (h₁ h₂ : List Writer.Ev) (i : Nat) (ji : Job)
    (hi : (Writer.run h₁).jobs[i]? = some (ji, .done)) (k : Nat) (jk : Job)
    (hk : (Writer.run h₁).jobs[k]? = none) (hk' : (Writer.run (h₁ ++ h₂)).jobs[k]? = some (jk, .done)) :
    ∃ a b c, (Writer.run (h₁ ++ h₂)).wire = a ++ ji.frames ++ b ++ jk.frames ++ c := by
  obtain ⟨o₁, hi₁⟩ := inv_run h₁
  obtain ⟨o₂, hi₂⟩ := inv_fold h₂ _ _ hi₁
  rw [← run_append] at hi₂
  have mi : i ∈ o₁ := (hi₁.done i).2 ⟨ji, hi⟩
  have mk : k ∈ o₁ ++ o₂ := (hi₂.done k).2 ⟨jk, hk'⟩
  have mk2 : k ∈ o₂ := by
    rcases List.mem_append.1 mk with h | h
    · obtain ⟨j, hj⟩ := (hi₁.done k).1 h; rw [hk] at hj; simp at hj
    · exact h
  obtain ⟨a, b, hab⟩ := mem_split_flatMap (framesOf (Writer.run (h₁ ++ h₂))) o₁ i mi
  obtain ⟨c, d, hcd⟩ := mem_split_flatMap (framesOf (Writer.run (h₁ ++ h₂))) o₂ k mk2
  have ek : framesOf (Writer.run (h₁ ++ h₂)) k = jk.frames := by simp [framesOf, hk']
  have ei : framesOf (Writer.run (h₁ ++ h₂)) i = ji.frames := by
    obtain ⟨j, hj⟩ := (hi₂.done i).1 (List.mem_append.2 (.inl mi))
    have hsame : ∀ (h : List Writer.Ev) (s : Writer.St), s.jobs[i]? = some (ji, .done) →
        (h.foldl Writer.step s).jobs[i]? = some (ji, .done) := by
      intro h
      induction h with
      | nil => intro s hs; exact hs
      | cons e h ih =>
        intro s hs
        apply ih
        have hlt : i < s.jobs.length := (List.getElem?_eq_some_iff.1 hs).1
        cases e with
        | setOpen b => exact hs
        | setWritable b => exact hs
        | write j' => simp only [Writer.step, List.getElem?_append_left hlt]; exact hs
        | adv m =>
          simp only [Writer.step]
          cases hm : s.jobs[m]? with
          | none => exact hs
          | some p =>
            obtain ⟨j', pc⟩ := p
            have other : ∀ pc', m ≠ i → (s.jobs.set m (j', pc'))[i]? = some (ji, .done) := by
              intro pc' hne; rw [List.getElem?_set]; simp [hne]; exact hs
            by_cases hmi : m = i
            · subst hmi; rw [hs] at hm; simp at hm; obtain ⟨_, rfl⟩ := hm; exact hs
            · cases pc <;> simp only [advJob]
              · split <;> exact other _ hmi
              · split
                · exact other _ hmi
                · exact hs
              · split <;> exact other _ hmi
              · split <;> exact other _ hmi
              · exact hs
              · exact hs
    have := hsame h₂ _ hi
    rw [← run_append] at this
    simp [framesOf, this]
  refine ⟨a, b ++ c, d ++ partialOf (Writer.run (h₁ ++ h₂)), ?_⟩
  rw [hi₂.wire, List.flatMap_append, hab, hcd, ek, ei]
  simp only [List.append_assoc]

/-- A volatile packet dropped, a broadcast written although the connection has closed, an ordinary packet
dropped for the same reason. -/
example :
    let h : List Writer.Ev := [.setWritable false, .write { frames := ["v"], volatile := true }, .adv 0, .adv 0, .adv 0,
      .setOpen false, .write { frames := ["b"], direct := true }, .write { frames := ["p"] },
      .adv 1, .adv 1, .adv 1, .adv 1, .adv 1, .adv 2]
    (Writer.run h).jobs.map (·.2) = [.dropped .notWritable, .done, .dropped .notOpen] ∧
    (Writer.run h).wire = ["b"] ∧
    (∀ k ∈ [0, 1, 2, 3], Writer.step (Writer.run h) (.adv k) = Writer.run h) := by decide

end Verif.Props
