import Verif.Proof.RecoverRace

/-! # C56: no packet is lost between recovery and reconnection -/

namespace Verif.Props
open Verif Verif.Spec Verif.RecoverRace

/-- **C56, partial**: whatever is broadcast meanwhile, if the clean-up timer does not fire while the missed packets are being
collected, the recovery does not panic, and the packets it sends are exactly those for the rooms of the session that were kept after
the offset at the moment the collection ended, in order. -/
theorem C56_replay_partial (mine : Nat → Bool) (offset : Nat) (old : List Nat) (h : List RecoverRace.Ev) (hn : NoCleaning mine offset old h) :
    (RecoverRace.run mine offset old h).rpc ≠ .panic ∧
    ((RecoverRace.run mine offset old h).rpc = .done →
      ∃ h1 h2, h = h1 ++ .recover :: h2 ∧ Collecting (RecoverRace.run mine offset old h1) ∧ offset ∈ (RecoverRace.run mine offset old h1).packets ∧
        (RecoverRace.run mine offset old h).replayed = (since offset (RecoverRace.run mine offset old h1).packets).filter mine) := by
  have c := collected_run h hn
  refine ⟨fun e => ?_, fun e => ?_⟩ <;> rw [e] at c
  · exact c
  · exact c

/-- **C56, partial**: a packet broadcast after the recovered socket is registered is sent by the broadcast exactly once if it is for
one of its rooms, and otherwise not. -/
theorem C56_live_partial (mine : Nat → Bool) (offset : Nat) (old : List Nat) (h h' : List RecoverRace.Ev) (hf : FreshPackets old (h ++ h'))
    (hs : (RecoverRace.run mine offset old h).stored = true) (p : Nat) (hp : p ∈ castsOf h')
    (hd : ∀ c ∈ (RecoverRace.run mine offset old (h ++ h')).casts, c.2 = .done) :
    (RecoverRace.run mine offset old (h ++ h')).live.count p = if mine p then 1 else 0 := by
  have hm := casts_run (mine := mine) (offset := offset) (old := old) (h ++ h')
  have hm0 := casts_run (mine := mine) (offset := offset) (old := old) h
  rw [castsOf_append] at hm
  obtain ⟨j, hj⟩ := List.mem_iff_getElem?.mp hp
  have hlen : (castsOf h).length = (RecoverRace.run mine offset old h).casts.length := by rw [← hm0]; simp
  have hk : ((RecoverRace.run mine offset old (h ++ h')).casts.map (·.1))[(castsOf h).length + j]? = some p := by
    rw [hm, List.getElem?_append_right (by omega)]; simpa using hj
  rw [List.getElem?_map] at hk
  cases hc : (RecoverRace.run mine offset old (h ++ h')).casts[(castsOf h).length + j]? with
  | none => rw [hc] at hk; cases hk
  | some c =>
    rw [hc] at hk
    obtain ⟨q, pc⟩ := c
    cases hk
    exact reaches_run h h' hf hs _ _ pc (by omega) hc (hd _ (List.mem_of_getElem? hc))

/-- **C56, at most once by each way**: under every interleaving a broadcast sends its packet at most once, and only if it is for the
rooms of the session. -/
theorem C56_once (mine : Nat → Bool) (offset : Nat) (old : List Nat) (h : List RecoverRace.Ev) (hf : FreshPackets old h) (p : Nat) :
    (RecoverRace.run mine offset old h).live.count p ≤ 1 ∧
    (p ∈ (RecoverRace.run mine offset old h).live → p ∈ castsOf h ∧ mine p = true) :=
  ⟨(live_run h hf).one p, (live_run h hf).from' p⟩

theorem cast_split {p : Nat} {h2 : List RecoverRace.Ev} (hp : p ∈ castsOf h2) : ∃ g1 g2, h2 = g1 ++ .cast p :: g2 := by
  induction h2 with
  | nil => cases hp
  | cons x h2 ih =>
    cases x with
    | cast q =>
      rcases List.mem_cons.mp hp with rfl | hp
      · exact ⟨[], h2, rfl⟩
      · obtain ⟨g1, g2, rfl⟩ := ih hp; exact ⟨.cast q :: g1, g2, rfl⟩
    | adv k => obtain ⟨g1, g2, rfl⟩ := ih hp; exact ⟨.adv k :: g1, g2, rfl⟩
    | recover => obtain ⟨g1, g2, rfl⟩ := ih hp; exact ⟨.recover :: g1, g2, rfl⟩
    | clean n => obtain ⟨g1, g2, rfl⟩ := ih hp; exact ⟨.clean n :: g1, g2, rfl⟩

/-- **C56, partial**: if nobody broadcasts while the session is being recovered and the timer does not fire while the missed packets
are being collected, then, once the session is recovered and all broadcasts are over, every packet for its rooms that came after the
offset, broadcast before or after, was sent exactly once: replayed or live. -/
theorem C56_partial (mine : Nat → Bool) (offset : Nat) (old : List Nat) (h : List RecoverRace.Ev) (hf : FreshPackets old h) (ho : offset ∈ old)
    (hn : NoCleaning mine offset old h) (ha : Apart mine offset old h) (hr : (RecoverRace.run mine offset old h).rpc = .done)
    (hd : ∀ c ∈ (RecoverRace.run mine offset old h).casts, c.2 = .done) (p : Nat) (hm : mine p = true)
    (hp : p ∈ since offset old ∨ p ∈ castsOf h) :
    (RecoverRace.run mine offset old h).replayed.count p + (RecoverRace.run mine offset old h).live.count p = 1 := by
  obtain ⟨h1, h2, e, hcol, hoff, hrep⟩ := (C56_replay_partial mine offset old h hn).2 hr
  have hf1 : FreshPackets old h1 := by rw [e] at hf; exact fresh_left hf
  have hrec : Recovering (RecoverRace.run mine offset old h1) := by
    rcases hcol with ⟨i, hi⟩ | ⟨i, hi⟩ <;> simp [Recovering, hi]
  have hdone := ha h1 (.recover :: h2) e hrec
  obtain ⟨pushed, n, kp⟩ := kept_run (mine := mine) (offset := offset) h1 hf1
  have hpush : ∀ q, q ∈ pushed ↔ q ∈ castsOf h1 := by
    intro q
    rw [kp.mem q, ← casts_run (mine := mine) (offset := offset) (old := old)]
    constructor
    · rintro ⟨k, c, hk, _⟩; exact List.mem_map.mpr ⟨_, List.mem_of_getElem? hk, rfl⟩
    · intro hq
      obtain ⟨c, hc, rfl⟩ := List.mem_map.mp hq
      obtain ⟨k, hk⟩ := List.mem_iff_getElem?.mp hc
      refine ⟨k, c.2, hk, ?_⟩
      rw [hdone c hc]; simp
  have hsince : since offset (RecoverRace.run mine offset old h1).packets = since offset old ++ pushed := by
    rw [kp.packets] at hoff ⊢
    rw [since_drop kp.nodup hoff, since_append ho]
  rw [hsince] at hrep
  have hnd : (since offset old ++ pushed).Nodup := by
    rw [← since_append ho]
    unfold since
    exact ((List.tail_sublist _).trans (List.dropWhile_sublist _)).nodup kp.nodup
  have hmem : ∀ q, q ∈ since offset old → q ∈ old := by
    intro q hq; unfold since at hq
    exact (List.dropWhile_sublist _).mem (List.mem_of_mem_tail hq)
  have hone : ∀ q, mine q = true → q ∈ since offset old ++ pushed → (RecoverRace.run mine offset old h).replayed.count q = 1 := by
    intro q hq hin
    rw [hrep, List.count_filter hq]
    have h1 := List.nodup_iff_count.mp hnd q
    have h2 := List.count_pos_iff.mpr hin
    omega
  have hzero : ∀ q, q ∉ since offset old ++ pushed → (RecoverRace.run mine offset old h).replayed.count q = 0 := by
    intro q hq
    rw [hrep]; exact List.count_eq_zero.mpr fun hx => hq (List.mem_filter.mp hx).1
  have hlive1 : (RecoverRace.run mine offset old h1).live = [] := by
    have fl := flags_run (mine := mine) (offset := offset) (old := old) h1
    apply fl.live
    cases hs : (RecoverRace.run mine offset old h1).stored with
    | false => rfl
    | true => exact absurd (fl.stored.mp hs) hrec.2.1
  have hcases : p ∈ since offset old ∨ p ∈ castsOf h1 ∨ p ∈ castsOf h2 := by
    rcases hp with hp | hp
    · exact .inl hp
    · rw [e, castsOf_append] at hp
      rcases List.mem_append.mp hp with hp | hp
      · exact .inr (.inl hp)
      · exact .inr (.inr hp)
  rcases hcases with hp | hp | hp
  · rw [hone p hm (List.mem_append_left _ hp)]
    have : (RecoverRace.run mine offset old h).live.count p = 0 := by
      refine List.count_eq_zero.mpr fun hl => ?_
      have := (live_run h hf).from' p hl
      exact (List.nodup_append.mp hf).2.2 p (hmem p hp) p this.1 rfl
    omega
  · rw [hone p hm (List.mem_append_right _ ((hpush p).mpr hp))]
    have hp' := hp
    rw [← casts_run (mine := mine) (offset := offset) (old := old)] at hp'
    obtain ⟨c, hc, rfl⟩ := List.mem_map.mp hp'
    obtain ⟨k, hk⟩ := List.mem_iff_getElem?.mp hc
    have hcd := hdone c hc
    have hk' : (RecoverRace.run mine offset old h1).casts[k]? = some (c.1, .done) := by rw [hk, ← hcd]
    have := (over_run h1 (.recover :: h2) (e ▸ hf) k c.1 hk').2
    rw [← e, hlive1] at this
    simp at this ⊢; exact this
  · -- broadcast later: the socket was there
    have hsplit : ∃ g1 g2, h2 = g1 ++ .cast p :: g2 := cast_split hp
    obtain ⟨g1, g2, rfl⟩ := hsplit
    have e' : h = (h1 ++ .recover :: g1) ++ .cast p :: g2 := by rw [e]; simp
    have e'' : h = ((h1 ++ .recover :: g1) ++ [.cast p]) ++ g2 := by rw [e']; simp
    have hnr : ¬ Recovering (RecoverRace.run mine offset old ((h1 ++ .recover :: g1) ++ [.cast p])) := by
      intro hR
      have := ha _ g2 e'' hR (p, .push) (by rw [run_snoc]; simp [RecoverRace.step])
      cases this
    have hrpc : (RecoverRace.run mine offset old ((h1 ++ .recover :: g1) ++ [.cast p])).rpc = (RecoverRace.run mine offset old (h1 ++ .recover :: g1)).rpc := by
      rw [run_snoc]; rfl
    have hprog := rpc_run (mine := mine) (offset := offset) (old := old) ((h1 ++ .recover :: g1) ++ [.cast p]) g2
    rw [← e''] at hprog
    have hnf : (RecoverRace.run mine offset old (h1 ++ .recover :: g1)).rpc ≠ .find := (rpc_run h1 (.recover :: g1)).1 hrec.1
    have hdn : (RecoverRace.run mine offset old (h1 ++ .recover :: g1)).rpc = .done := by
      rw [Recovering, hrpc] at hnr
      rw [hrpc] at hprog
      cases hx : (RecoverRace.run mine offset old (h1 ++ .recover :: g1)).rpc with
      | done => rfl
      | fresh => have := hprog.2.2.1 hx; rw [hr] at this; cases this
      | panic => have := hprog.2.2.2 hx; rw [hr] at this; cases this
      | find => exact absurd hx hnf
      | _ => exact absurd (by simp [hx]) hnr
    have hst := (flags_run (mine := mine) (offset := offset) (old := old) (h1 ++ .recover :: g1)).stored.mpr hdn
    have hl := C56_live_partial mine offset old (h1 ++ .recover :: g1) (.cast p :: g2) (e' ▸ hf) hst p (by simp [castsOf]) (e' ▸ hd)
    rw [← e', if_pos hm] at hl
    have hnotin : p ∉ since offset old ++ pushed := by
      intro hin
      have hfc := List.nodup_append.mp hf
      rw [e, castsOf_append] at hfc
      rcases List.mem_append.mp hin with hin | hin
      · exact hfc.2.2 p (hmem p hin) p (List.mem_append_right _ hp) rfl
      · exact (List.nodup_append.mp hfc.2.1).2.2 p ((hpush p).mp hin) p hp rfl
    rw [hzero p hnotin, hl]

/-! ## What fails -/

namespace Demo
/-- The broadcast of packet 9 falls between the collection of the missed packets and the registration of the socket. -/
def castInWindow : List RecoverRace.Ev :=
  [.recover, .recover, .recover, .recover, .cast 9, .adv 0, .recover, .recover, .adv 0, .adv 0, .recover, .recover]
/-- The broadcast of packet 9 has stored it before the collection and looks for the sockets after the registration. -/
def castAround : List RecoverRace.Ev :=
  [.cast 9, .adv 0, .recover, .recover, .recover, .recover, .recover, .recover, .recover, .recover, .recover, .adv 0, .adv 0]
/-- The timer fires during the collection. -/
def cleanMeanwhile : List RecoverRace.Ev :=
  [.recover, .recover, .clean 1, .recover, .recover, .recover, .recover, .recover, .recover]
/-- The timer fires right after the offset was found. -/
def cleanAll : List RecoverRace.Ev := [.recover, .clean 2, .recover]
end Demo

/-- **C56 is false**: a packet broadcast while the session is being recovered may neither be replayed nor delivered. -/
theorem C56_lost_fail : ¬ ∀ (mine : Nat → Bool) (offset : Nat) (old : List Nat) (h : List RecoverRace.Ev), FreshPackets old h → offset ∈ old →
    NoCleaning mine offset old h → (RecoverRace.run mine offset old h).rpc = .done → (∀ c ∈ (RecoverRace.run mine offset old h).casts, c.2 = .done) →
    ∀ p, mine p = true → p ∈ castsOf h → p ∈ (RecoverRace.run mine offset old h).replayed ∨ p ∈ (RecoverRace.run mine offset old h).live := by
  intro hall
  have hn : NoCleaning (fun _ => true) 1 [1, 2] Demo.castInWindow := by
    intro p n t h
    have : RecoverRace.Ev.clean n ∈ Demo.castInWindow := by rw [h]; simp
    simp [Demo.castInWindow] at this
  exact absurd (hall (fun _ => true) 1 [1, 2] Demo.castInWindow (by unfold FreshPackets; decide) (by decide) hn (by decide) (by decide) 9 rfl (by decide)) (by decide)

/-- ... or both be replayed and delivered. -/
theorem C56_twice_fail : ¬ ∀ (mine : Nat → Bool) (offset : Nat) (old : List Nat) (h : List RecoverRace.Ev), FreshPackets old h → offset ∈ old →
    NoCleaning mine offset old h → (RecoverRace.run mine offset old h).rpc = .done → (∀ c ∈ (RecoverRace.run mine offset old h).casts, c.2 = .done) →
    ∀ p, (RecoverRace.run mine offset old h).replayed.count p + (RecoverRace.run mine offset old h).live.count p ≤ 1 := by
  intro hall
  have hn : NoCleaning (fun _ => true) 1 [1, 2] Demo.castAround := by
    intro p n t h
    have : RecoverRace.Ev.clean n ∈ Demo.castAround := by rw [h]; simp
    simp [Demo.castAround] at this
  exact absurd (hall (fun _ => true) 1 [1, 2] Demo.castAround (by unfold FreshPackets; decide) (by decide) hn (by decide) (by decide) 9) (by decide)

/-- ... and if the timer fires during the collection, a packet that was kept all the time may be skipped although nothing is
broadcast. -/
theorem C56_cleaned_fail : ¬ ∀ (mine : Nat → Bool) (offset : Nat) (old : List Nat) (h : List RecoverRace.Ev), FreshPackets old h → offset ∈ old →
    castsOf h = [] → (RecoverRace.run mine offset old h).rpc = .done →
    ∀ p, mine p = true → p ∈ since offset old → p ∈ (RecoverRace.run mine offset old h).packets → p ∈ (RecoverRace.run mine offset old h).replayed := by
  intro hall
  exact absurd (hall (fun _ => true) 1 [1, 2, 3] Demo.cleanMeanwhile (by unfold FreshPackets; decide) (by decide) (by decide) (by decide) 2 rfl (by decide) (by decide)) (by decide)

/-- ... and the recovery may panic: the capacity computed for the list of missed packets is negative. -/
theorem C56_panic_fail : ¬ ∀ (mine : Nat → Bool) (offset : Nat) (old : List Nat) (h : List RecoverRace.Ev), (RecoverRace.run mine offset old h).rpc ≠ .panic := by
  intro hall
  exact absurd (hall (fun _ => true) 2 [1, 2] Demo.cleanAll) (by decide)

/-! The hypotheses of `C56_partial` are met: one packet is broadcast before the recovery, one after it. -/

namespace Demo
def castApart : List RecoverRace.Ev :=
  [.cast 8, .adv 0, .adv 0, .clean 1, .recover, .recover, .recover, .recover, .recover, .recover, .recover, .recover, .recover,
   .cast 9, .adv 1, .adv 1, .adv 1, .clean 3]
end Demo

example : (RecoverRace.run (fun _ => true) 1 [0, 1, 2] Demo.castApart).rpc = .done ∧
    (RecoverRace.run (fun _ => true) 1 [0, 1, 2] Demo.castApart).replayed = [2, 8] ∧
    (RecoverRace.run (fun _ => true) 1 [0, 1, 2] Demo.castApart).live = [9] ∧ FreshPackets [0, 1, 2] Demo.castApart := by
  unfold FreshPackets; decide

theorem split_bounded {α : Type} {l p t : List α} (h : l = p ++ t) : ∃ k ≤ l.length, p = l.take k :=
  ⟨p.length, by rw [h]; simp, by rw [h]; simp⟩

example : Apart (fun _ => true) 1 [0, 1, 2] Demo.castApart ∧ NoCleaning (fun _ => true) 1 [0, 1, 2] Demo.castApart := by
  constructor
  · intro p t h
    obtain ⟨k, hk, rfl⟩ := split_bounded h
    clear h
    revert k; unfold Recovering; decide
  · intro p n t h
    have key : ∀ k ≤ Demo.castApart.length, (∃ n, Demo.castApart[k]? = some (.clean n)) →
        ∀ i, (RecoverRace.run (fun _ => true) 1 [0, 1, 2] (Demo.castApart.take k)).rpc ≠ .alloc i ∧ (RecoverRace.run (fun _ => true) 1 [0, 1, 2] (Demo.castApart.take k)).rpc ≠ .get i := by
      intro k hk hc
      have : k = 3 ∨ k = 17 := by
        obtain ⟨n, hn⟩ := hc
        have hk : k < 18 := (List.getElem?_eq_some_iff.mp hn).1
        match k, hk with
        | 3, _ => exact .inl rfl
        | 17, _ => exact .inr rfl
        | 0, _ | 1, _ | 2, _ | 4, _ | 5, _ | 6, _ | 7, _ | 8, _ | 9, _ | 10, _ | 11, _ | 12, _ | 13, _ | 14, _ | 15, _ | 16, _ => simp [Demo.castApart] at hn
      rcases this with rfl | rfl
      · have : (RecoverRace.run (fun _ => true) 1 [0, 1, 2] (Demo.castApart.take 3)).rpc = .find := by decide
        rw [this]; simp
      · have : (RecoverRace.run (fun _ => true) 1 [0, 1, 2] (Demo.castApart.take 17)).rpc = .done := by decide
        rw [this]; simp
    obtain ⟨k, hk, rfl⟩ := split_bounded h
    have hget : Demo.castApart[k]? = some (.clean n) := by
      have hl : (Demo.castApart.take k).length = k := by simp; omega
      conv => lhs; rw [h]
      rw [List.getElem?_append_right (by omega), hl]; simp
    have := key k hk ⟨n, hget⟩
    rintro (⟨i, hi⟩ | ⟨i, hi⟩)
    · exact (this i).1 hi
    · exact (this i).2 hi

end Verif.Props
