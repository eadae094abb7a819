import Verif.Proof.RoomRace

/-! # C48: concurrent joins and leaves -/

namespace Verif.Props
open Verif Verif.Spec Verif.RoomRace
open Verif.World (upd upd_apply upd_ne upd_same)

/-- **C48, partial**: if the calls for each socket are made one after the other, while those for different sockets interleave in any
way, then, when all calls have returned, for every room that was not deleted meanwhile (no `delete-room` event), a socket is reached
by broadcasts to the room exactly if the room is among its rooms, and exactly if the last call about it says so. -/
theorem C48_partial (h : List RoomRace.Ev) (ho : OneByOne h) (hq : Quiet (RoomRace.run h)) (id r : Nat)
    (hr : r ∉ (RoomRace.run h).deleted) :
    (InRoom (RoomRace.run h) id r ↔ shouldBe id r h.reverse = true) ∧
    (HasRoom (RoomRace.run h) id r ↔ shouldBe id r h.reverse = true) := by
  have hrel := (RoomRace.inv_run h ho).rel id .done (.inr ⟨rfl, fun k _ => hq k⟩) r hr
  exact ⟨hrel.2.symm, hrel.1.trans hrel.2.symm⟩

theorem act_mayLeave (r : Nat) (s : RoomRace.St) (id : Nat) (pc : PC) (h : mayLeave r pc = false) :
    mayLeave r (act s id pc).2 = false := by
  cases pc with
  | j1 x rs => cases rs <;> rfl
  | a2 l => cases h
  | _ => first | (cases h; done) | (simp only [act] <;> (try split) <;> first | exact h | rfl)

/-- What protects a room in which socket `a` stays: its set is in the map, contains `a`, and nobody is about to delete it or to
remove `a`. -/
structure Anchored (s : RoomRace.St) (a r t : Nat) : Prop where
  room : s.rooms r = some t
  mem : a ∈ s.rset t
  held : ∀ k u, (s.th k).2.held = some (r, u) → u = t
  noDel : ∀ k, (s.th k).2 ≠ .d5 r ∧ ∀ l, (s.th k).2 ≠ .e5 r l
  stay : ∀ k, (s.th k).1 = a → mayLeave r (s.th k).2 = false
  wf : WF s

theorem anchored_advance {s : RoomRace.St} {a r t : Nat} (i : Anchored s a r t) (k : Nat) :
    Anchored (advance s k) a r t ∧ (r ∉ s.deleted → r ∉ (advance s k).deleted) := by
  have hwf := wf_advance i.wf k
  have hh := @act_held s (s.th k).1 (s.th k).2
  have hrooms : (advance s k).rooms r = some t ∧ (r ∉ s.deleted → r ∉ (advance s k).deleted) := by
    have hL : ∀ r0, r0 ≠ r → (loadAndDelete s r0).rooms r = some t ∧ (r ∉ s.deleted → r ∉ (loadAndDelete s r0).deleted) := by
      intro r0 hne
      rcases loadAndDelete_cases s r0 with e | e <;> rw [e]
      · exact ⟨i.room, fun h => h⟩
      · refine ⟨?_, fun h => by simp [h, Ne.symm hne]⟩
        show upd s.rooms r0 none r = some t
        rw [upd_ne _ _ (Ne.symm hne)]; exact i.room
    show (act s (s.th k).1 (s.th k).2).1.rooms r = some t ∧ (r ∉ s.deleted → r ∉ (act s (s.th k).1 (s.th k).2).1.deleted)
    have hnd := i.noDel k
    generalize (s.th k).1 = id at *
    generalize (s.th k).2 = pc at *
    cases pc with
    | j1 x rs => cases rs <;> exact ⟨i.room, fun h => h⟩
    | j2 x r0 rs =>
      simp only [act]; split
      · exact ⟨i.room, fun h => h⟩
      · rename_i hn
        have : r ≠ r0 := by rintro rfl; rw [i.room] at hn; cases hn
        exact ⟨by simp only [upd_ne _ _ this]; exact i.room, fun h => h⟩
    | a2 l => cases l <;> exact ⟨i.room, fun h => h⟩
    | d5 r0 => exact hL r0 (fun e => hnd.1 (by rw [e]))
    | e5 r0 l => exact hL r0 (fun e => hnd.2 l (by rw [e]))
    | _ => simp only [act] <;> (try split) <;> exact ⟨i.room, fun h => h⟩
  refine ⟨⟨hrooms.1, ?_, ?_, ?_, ?_, hwf⟩, hrooms.2⟩
  · -- `a` stays in the set
    show a ∈ (act s (s.th k).1 (s.th k).2).1.rset t
    have hst := i.stay k
    have hheld := i.held k
    have hlt := i.wf.roomLt i.room
    have hin := @WF.held s i.wf k
    have hL : ∀ r0, (loadAndDelete s r0).rset = s.rset := fun r0 => by rcases loadAndDelete_cases s r0 with e | e <;> rw [e]
    generalize (s.th k).1 = id at *
    generalize (s.th k).2 = pc at *
    cases pc with
    | j1 x rs => cases rs <;> exact i.mem
    | j2 x r0 rs =>
      simp only [act]; split
      · exact i.mem
      · simp only [upd_ne s.rset [] (show t ≠ s.next by omega)]; exact i.mem
    | j4 x r0 u rs =>
      simp only [act, upd_apply]
      split
      · rename_i e; rw [mem_add, ← e]; exact .inl i.mem
      · exact i.mem
    | d3 r0 u =>
      simp only [act, upd_apply]
      split
      · rename_i e; subst e
        have : r = r0 := hin (r := r0) (t := t) rfl i.room
        subst this
        rw [mem_del]
        refine ⟨i.mem, fun e => ?_⟩
        have := hst e.symm; simp [mayLeave] at this
      · exact i.mem
    | e3 r0 u l =>
      simp only [act, upd_apply]
      split
      · rename_i e; subst e
        rw [mem_del]
        refine ⟨i.mem, fun e => ?_⟩
        have := hst e.symm; simp [mayLeave] at this
      · exact i.mem
    | a2 l => cases l <;> exact i.mem
    | d5 r0 => show a ∈ (loadAndDelete s r0).rset t; rw [hL]; exact i.mem
    | e5 r0 l => show a ∈ (loadAndDelete s r0).rset t; rw [hL]; exact i.mem
    | _ => simp only [act] <;> (try split) <;> exact i.mem
  · intro j u h
    by_cases e : j = k
    · subst e
      have : (act s (s.th j).1 (s.th j).2).2.held = some (r, u) := by simpa [advance] using h
      rcases hh this with h' | h' | ⟨rfl, h2, _⟩
      · exact i.held j u h'
      · rw [i.room] at h'; exact (Option.some.inj h').symm
      · have := hrooms.1
        have this : (act s (s.th j).1 (s.th j).2).1.rooms r = some t := this
        rw [h2, upd_same] at this; exact Option.some.inj this
    · have : (advance s k).th j = s.th j := by simp [advance, upd_ne _ _ e]
      rw [this] at h; exact i.held j u h
  · intro j
    by_cases e : j = k
    · subst e
      have hth : ((advance s j).th j).2 = (act s (s.th j).1 (s.th j).2).2 := by simp [advance]
      rw [hth]
      have hheld := i.held j
      generalize (s.th j).1 = id at *
      generalize (s.th j).2 = pc at *
      have hne : s.rset t ≠ [] := fun e => by have := i.mem; rw [e] at this; cases this
      cases pc with
      | j1 x rs => cases rs <;> simp [act]
      | d4 r0 u =>
        simp only [act]
        split
        · rename_i e
          refine ⟨fun e2 => ?_, by simp⟩
          simp only [PC.d5.injEq] at e2
          subst e2
          rw [hheld u rfl] at e; exact hne e
        · simp
      | e4 r0 u l =>
        simp only [act]
        split
        · rename_i e
          refine ⟨by simp, fun l' e2 => ?_⟩
          simp only [PC.e5.injEq] at e2
          obtain ⟨rfl, rfl⟩ := e2
          rw [hheld u rfl] at e; exact hne e
        · simp
      | a2 l => cases l <;> simp [act]
      | _ => simp only [act] <;> (try split) <;> simp
    · have : (advance s k).th j = s.th j := by simp [advance, upd_ne _ _ e]
      rw [this]; exact i.noDel j
  · intro j
    by_cases e : j = k
    · subst e
      have hth : (advance s j).th j = ((s.th j).1, (act s (s.th j).1 (s.th j).2).2) := by simp [advance]
      rw [hth]
      intro ha
      exact act_mayLeave r s _ _ (i.stay j ha)
    · have : (advance s k).th j = s.th j := by simp [advance, upd_ne _ _ e]
      rw [this]; exact i.stay j

/-- No call in the history takes socket `a` out of room `r`. -/
def Stays (a r : Nat) (h : List RoomRace.Ev) : Prop :=
  ∀ k c, RoomRace.Ev.call k a c ∈ h → c ≠ .leaveAll ∧ c ≠ .leave r

theorem anchored_run (a r t : Nat) (h : List RoomRace.Ev) (hs : Stays a r h) (s : RoomRace.St) (i : Anchored s a r t)
    (hd : r ∉ s.deleted) : r ∉ (h.foldl RoomRace.step s).deleted := by
  induction h generalizing s with
  | nil => exact hd
  | cons e h ih =>
    have hs' : Stays a r h := fun k c hm => hs k c (List.mem_cons_of_mem _ hm)
    cases e with
    | adv k =>
      have := anchored_advance i k
      exact ih hs' _ this.1 (this.2 hd)
    | call k id c =>
      simp only [List.foldl_cons]
      simp only [RoomRace.step]
      split
      · refine ih hs' _ ?_ hd
        have hheld : c.start.held = none := by cases c <;> rfl
        have hst := hs k c
        refine ⟨i.room, i.mem, ?_, ?_, ?_, ⟨i.wf.sidLt, i.wf.roomLt, i.wf.sidInj, i.wf.roomInj, ?_, ?_⟩⟩
        · intro j u hj
          simp only [upd_apply] at hj
          split at hj
          · rw [hheld] at hj; cases hj
          · exact i.held j u hj
        · intro j
          simp only [upd_apply]
          split
          · cases c <;> simp [Call.start]
          · exact i.noDel j
        · intro j
          simp only [upd_apply]
          split
          · intro ha
            have ha : id = a := ha
            subst ha
            have := hst (by simp)
            cases c with
            | join rs => rfl
            | leave r' =>
              have hr : r' ≠ r := fun e => this.2 (by rw [e])
              simp [Call.start, mayLeave, hr]
            | leaveAll => exact absurd rfl this.1
          · exact i.stay j
        · intro j q u hj
          simp only [upd_apply] at hj
          split at hj
          · rw [hheld] at hj; cases hj
          · exact i.wf.heldLt j hj
        · intro j q u p hj hp
          simp only [upd_apply] at hj
          split at hj
          · rw [hheld] at hj; cases hj
          · exact i.wf.held j hj hp
      · exact ih hs' _ i hd

/-- **C48, partial**: as long as some socket stays in the room, nothing goes wrong with it: if after a history `p` nobody is in a
call, socket `a` is in room `r`, and after that no call takes `a` out of `r`, then, when all calls have returned, every other socket
is in the room exactly if the last call about it says so, in both tables. -/
theorem C48_stays_partial (p h : List RoomRace.Ev) (ho : OneByOne (p ++ h)) (hq : Quiet (RoomRace.run (p ++ h)))
    (hqp : Quiet (RoomRace.run p)) (a r : Nat) (hd : r ∉ (RoomRace.run p).deleted) (ha : InRoom (RoomRace.run p) a r) (hs : Stays a r h)
    (id : Nat) :
    (InRoom (RoomRace.run (p ++ h)) id r ↔ shouldBe id r (p ++ h).reverse = true) ∧
    (HasRoom (RoomRace.run (p ++ h)) id r ↔ shouldBe id r (p ++ h).reverse = true) := by
  refine C48_partial (p ++ h) ho hq id r ?_
  have hwf : WF (RoomRace.run p) :=
    (RoomRace.inv_run p (fun p' k id c t e => ho p' k id c (t ++ h) (by rw [e]; simp))).wf
  obtain ⟨t, h1, h2⟩ := ha
  have := anchored_run a r t h hs (RoomRace.run p)
    ⟨h1, h2, fun k u hk => by rw [hqp k] at hk; simp [PC.held] at hk, fun k => by rw [hqp k]; simp, fun k _ => by rw [hqp k]; rfl, hwf⟩ hd
  simpa [RoomRace.run] using this

namespace Demo
/-- Socket 1 leaves room 7 (goroutine 0) while socket 2 joins it (goroutine 1). -/
def joinWhileLeaving : List RoomRace.Ev :=
  [.call 0 1 (.join [7])] ++ List.replicate 6 (.adv 0) ++
  [.call 0 1 (.leave 7)] ++ List.replicate 5 (.adv 0) ++      -- the room was seen to be empty
  [.call 1 2 (.join [7])] ++ List.replicate 6 (.adv 1) ++     -- socket 2 joins it
  [.adv 0]                                                   -- and the room is deleted
/-- Goroutine 0 joins, goroutine 1 leaves, both for socket 1, while socket 5 stays in the room. -/
def joinAndLeave : List RoomRace.Ev :=
  .call 0 5 (.join [7]) :: List.replicate 6 (.adv 0) ++ [.call 0 1 (.join [7]), .adv 0, .adv 0, .adv 0, .call 1 1 (.leave 7)] ++ List.replicate 6 (.adv 1) ++ List.replicate 4 (.adv 0)
/-- Socket 1 stays in room 7 while sockets 2 and 3 come and go on other goroutines. -/
def comeAndGo : List RoomRace.Ev :=
  [.call 0 2 (.join [7, 8]), .call 1 3 (.join [7]), .adv 0, .adv 1, .adv 0, .adv 1, .adv 1, .adv 0, .adv 0, .adv 1, .adv 1, .adv 1,
   .call 1 3 .leaveAll, .adv 0, .adv 1, .adv 1, .adv 0, .adv 1, .adv 1, .adv 1, .adv 0, .adv 1, .adv 1, .adv 0, .adv 0, .adv 0]
def stayer : List RoomRace.Ev := .call 0 1 (.join [7]) :: List.replicate 6 (.adv 0)
end Demo

theorem quiet_of (s : RoomRace.St) (n : Nat) (h : ∀ k, k < n → (s.th k).2 = .done) (h2 : ∀ k, n ≤ k → (s.th k).2 = .done) : Quiet s :=
  fun k => if hk : k < n then h k hk else h2 k (by omega)

/-- Goroutines that do not occur in a history are idle. -/
theorem idle_run (h : List RoomRace.Ev) (k : Nat) (hk : ∀ id c, RoomRace.Ev.call k id c ∉ h) : ((RoomRace.run h).th k).2 = .done := by
  induction h using snocRec with
  | nil => rfl
  | append_singleton h e ih =>
    have hrun : RoomRace.run (h ++ [e]) = RoomRace.step (RoomRace.run h) e := by simp [RoomRace.run]
    have ih := ih (fun id c hm => hk id c (by simp [hm]))
    rw [hrun]
    cases e with
    | adv j =>
      simp only [RoomRace.step, advance, upd_apply]
      split
      · rename_i e; subst e; rw [ih]; rfl
      · exact ih
    | call j id c =>
      have : k ≠ j := by rintro rfl; exact hk id c (by simp)
      simp only [RoomRace.step]
      split
      · simp only [upd_ne _ _ this]; exact ih
      · exact ih

/-- Decidable form of the discipline: goroutines below `n`. -/
def oneByOneB : List RoomRace.Ev → RoomRace.St → Nat → Bool
  | [], _, _ => true
  | .adv k :: h, s, n => oneByOneB h (RoomRace.step s (.adv k)) n
  | .call k id c :: h, s, n =>
    decide (k < n) && decide ((s.th k).2 = .done) && (List.range n).all (fun j => decide ((s.th j).1 = id → (s.th j).2 = .done)) &&
      oneByOneB h (RoomRace.step s (.call k id c)) n

theorem oneByOne_of (h : List RoomRace.Ev) (n : Nat) (hb : oneByOneB h {} n = true) :
    OneByOne h ∧ ∀ k id c, RoomRace.Ev.call k id c ∈ h → k < n := by
  suffices S : ∀ (h q : List RoomRace.Ev), oneByOneB h (RoomRace.run q) n = true →
      (∀ k id c, RoomRace.Ev.call k id c ∈ q → k < n) →
      (∀ p k id c t, h = p ++ .call k id c :: t → ((RoomRace.run (q ++ p)).th k).2 = .done ∧
        ∀ k', ((RoomRace.run (q ++ p)).th k').1 = id → ((RoomRace.run (q ++ p)).th k').2 = .done) ∧
      ∀ k id c, RoomRace.Ev.call k id c ∈ h → k < n by
    have := S h [] hb (by simp)
    simpa [OneByOne] using this
  intro h
  induction h with
  | nil => intro q _ _; exact ⟨fun p k id c t e => by simp at e, fun k id c e => by cases e⟩
  | cons e h ih =>
    intro q hb hq
    have hrun : ∀ e, RoomRace.run (q ++ [e]) = RoomRace.step (RoomRace.run q) e := fun e => by simp [RoomRace.run]
    cases e with
    | adv j =>
      have hb : oneByOneB h (RoomRace.run (q ++ [.adv j])) n = true := by rw [hrun]; exact hb
      obtain ⟨i1, i2⟩ := ih (q ++ [.adv j]) hb (by intro k id c hm; exact hq k id c (by simpa using hm))
      refine ⟨?_, fun k id c hm => i2 k id c (by simpa using hm)⟩
      intro p k id c t e
      cases p with
      | nil => simp at e
      | cons x p =>
        simp only [List.cons_append, List.cons.injEq] at e
        obtain ⟨rfl, e⟩ := e
        simpa using i1 p k id c t e
    | call j i0 c0 =>
      simp only [oneByOneB, Bool.and_eq_true, decide_eq_true_eq, List.all_eq_true, List.mem_range] at hb
      obtain ⟨⟨⟨h1, h2⟩, h3⟩, h4⟩ := hb
      rw [← hrun] at h4
      obtain ⟨i1, i2⟩ := ih (q ++ [.call j i0 c0]) h4 (by
        intro k id c hm
        rcases List.mem_append.mp hm with hm | hm
        · exact hq k id c hm
        · simp at hm; omega)
      refine ⟨?_, fun k id c hm => ?_⟩
      · intro p k id c t e
        cases p with
        | nil =>
          simp only [List.nil_append, List.cons.injEq, RoomRace.Ev.call.injEq] at e
          obtain ⟨⟨rfl, rfl, rfl⟩, _⟩ := e
          refine ⟨by simpa using h2, fun k' hk' => ?_⟩
          simp only [List.append_nil] at hk' ⊢
          by_cases hlt : k' < n
          · exact h3 k' hlt hk'
          · exact idle_run q k' (fun id c hm => hlt (hq k' id c hm))
        | cons x p =>
          simp only [List.cons_append, List.cons.injEq] at e
          obtain ⟨rfl, e⟩ := e
          simpa using i1 p k id c t e
      · rcases List.mem_cons.mp hm with hm | hm
        · simp only [RoomRace.Ev.call.injEq] at hm; omega
        · exact i2 k id c hm

theorem quiet_run (h : List RoomRace.Ev) (n : Nat) (hb : oneByOneB h {} n = true) (hd : ∀ k, k < n → ((RoomRace.run h).th k).2 = .done) :
    Quiet (RoomRace.run h) :=
  quiet_of _ n hd fun k hk => idle_run h k fun id c hm => by have := (oneByOne_of h n hb).2 k id c hm; omega

/-- **C48 fails**: a leave that has seen the room empty deletes it although another socket has joined meanwhile: after all calls
returned, that socket has the room among its rooms but broadcasts to the room do not reach it. -/
theorem C48_lost_fail : ¬ ∀ (h : List RoomRace.Ev) (id r : Nat), OneByOne h → Quiet (RoomRace.run h) →
    (InRoom (RoomRace.run h) id r ↔ HasRoom (RoomRace.run h) id r) := by
  intro hall
  have hb : oneByOneB Demo.joinWhileLeaving {} 2 = true := by decide
  have := hall Demo.joinWhileLeaving 2 7 (oneByOne_of _ 2 hb).1 (quiet_run _ 2 hb (by decide))
  obtain ⟨t, h1, _⟩ := this.mpr ⟨2, by decide, by decide⟩
  have e : (RoomRace.run Demo.joinWhileLeaving).rooms 7 = none := by decide
  rw [e] at h1
  cases h1

/-- **C48 fails** for concurrent calls about one socket: the two tables disagree afterwards although no room was deleted. -/
theorem C48_same_socket_fail : ¬ ∀ (h : List RoomRace.Ev) (id r : Nat), (∀ k, k < 2 → ((RoomRace.run h).th k).2 = .done) →
    r ∉ (RoomRace.run h).deleted → (InRoom (RoomRace.run h) id r ↔ HasRoom (RoomRace.run h) id r) := by
  intro hall
  have := hall Demo.joinAndLeave 1 7 (by decide) (by decide)
  obtain ⟨x, h1, h2⟩ := this.mp ⟨1, by decide, by decide⟩
  have e : (RoomRace.run Demo.joinAndLeave).sids 1 = some 2 := by decide
  rw [e] at h1; cases h1
  revert h2; decide

example : OneByOne (Demo.stayer ++ Demo.comeAndGo) ∧ Quiet (RoomRace.run (Demo.stayer ++ Demo.comeAndGo)) ∧
    Quiet (RoomRace.run Demo.stayer) ∧ 7 ∉ (RoomRace.run Demo.stayer).deleted ∧ InRoom (RoomRace.run Demo.stayer) 1 7 ∧
    Stays 1 7 Demo.comeAndGo ∧ shouldBe 2 7 (Demo.stayer ++ Demo.comeAndGo).reverse = true ∧
    shouldBe 3 7 (Demo.stayer ++ Demo.comeAndGo).reverse = false := by
  have hb : oneByOneB (Demo.stayer ++ Demo.comeAndGo) {} 2 = true := by decide
  have hb2 : oneByOneB Demo.stayer {} 2 = true := by decide
  refine ⟨(oneByOne_of _ 2 hb).1, quiet_run _ 2 hb (by decide), quiet_run _ 2 hb2 (by decide), by decide, ⟨1, by decide, by decide⟩, ?_,
    by decide, by decide⟩
  intro k c hm
  simp [Demo.comeAndGo] at hm

end Verif.Props
