import Verif.Proof.ConnRace

/-! # C77: a socket of a closed connection is disconnected -/

namespace Verif.Props
open Verif Verif.Spec Verif.ConnRace

/-- **C77**, unless the connection closes or the socket is disconnected in the very middle of the connection: once the connection is closed
and everything has come to its end, nothing of the socket is left, and if its connection was announced, `disconnect` was emitted. -/
theorem C77_nothing_left_partial (h : List ConnRace.Ev) (hm : NotMeanwhile h) (hs : ConnSettled (ConnRace.run h)) :
    NothingLeft (ConnRace.run h) ∧ (Out.connection ∈ (ConnRace.run h).log → Out.disconnect ∈ (ConnRace.run h).log) := by
  have hi := inv_run h hm
  generalize ConnRace.run h = s at hi hs
  obtain ⟨_, hc, ⟨t, ht, htw⟩, hd⟩ := hs
  have early : Early s → NothingLeft s ∧ (Out.connection ∈ s.log → Out.disconnect ∈ s.log) := fun he =>
    ⟨⟨he.conn, he.nsp, he.room, he.reg⟩, fun h => by rw [he.log] at h; cases h⟩
  rcases hc with hc | hc | hc <;> simp only [ConnRace.Inv, hc] at hi
  · exact early hi
  · exact early hi
  · have h1 := hi.each t ht
    simp only [Done, hd t ht] at h1
    obtain ⟨h1, h2⟩ := h1 htw
    have h3 : s.connected = false := by
      rcases h1 with h1 | ⟨u, hu, ha⟩
      · exact h1
      · simp [Active, hd u hu] at ha
    refine ⟨⟨h3, (hi.gone h3).1, (hi.gone h3).2, h2⟩, fun _ => ?_⟩
    rcases hi.told h3 with h4 | ⟨u, hu, h4⟩
    · exact h4
    · rw [hd u hu] at h4; cases h4

/-- **C77**, if nothing closes before the handlers of `connection` have been called: then `disconnect` is emitted after. -/
theorem C77_told_partial (h : List ConnRace.Ev) (hm : OnlyAfter h) (hs : ConnSettled (ConnRace.run h)) :
    NothingLeft (ConnRace.run h) ∧ ToldInOrder (ConnRace.run h) := by
  have hn : NotMeanwhile h := fun p e t hh he => by rw [hm p e t hh he]; decide
  obtain ⟨h1, h2⟩ := C77_nothing_left_partial h hn hs
  refine ⟨h1, ?_⟩
  rcases order_run h hm with ⟨_, _, h3, _⟩ | ⟨_, a, b, h3, h4, _⟩
  · rw [hs.1] at h3; cases h3
  · have := h2 (by rw [h3]; simp)
    rw [h3] at this
    simp only [List.mem_append, List.mem_cons, reduceCtorEq, false_or] at this
    exact ⟨a, b, h3, this.resolve_left h4⟩

/-- **C77**, if the connection closes before it is looked at: the socket is never announced, nothing is written, and nothing is left. -/
theorem C77_refused (h : List ConnRace.Ev) (hm : NotMeanwhile h) (hr : (ConnRace.run h).conn = .refused) :
    NothingLeft (ConnRace.run h) ∧ (ConnRace.run h).log = [] ∧ (ConnRace.run h).canJoin = false := by
  have hi := inv_run h hm
  simp only [ConnRace.Inv, hr] at hi
  exact ⟨⟨hi.conn, hi.nsp, hi.room, hi.reg⟩, hi.log, hi.forbid hr⟩

/-- **C77**, the other half: if nothing closes and nobody disconnects the socket, then once its connection has come to its end it is connected,
in the namespace, in its own room and known to the client, and the CONNECT packet was written before `connection` was emitted. -/
theorem C77_connected (h : List ConnRace.Ev) (hq : NobodyCloses h) :
    (ConnRace.run h).conn ≠ .refused ∧
    ((ConnRace.run h).conn = .done → FullyConnected (ConnRace.run h) ∧ (ConnRace.run h).log = [.connectPacket, .connection]) := by
  obtain ⟨c, h1, h2⟩ := stage_run h hq
  rw [h2, stage_conn]
  refine ⟨h1, ?_⟩
  rintro rfl
  exact ⟨⟨rfl, rfl, rfl, rfl, rfl⟩, rfl⟩

/-- **C77**, for a socket that was announced and then disconnected, whether or not the connection stays open: nothing is left of it, it can join
no room any more, and its client may connect to the namespace again. -/
theorem C77_left_partial (h : List ConnRace.Ev) (hm : OnlyAfter h) (hc : (ConnRace.run h).closers ≠ [])
    (hd : ∀ t ∈ (ConnRace.run h).closers, t.2 = .done) :
    NothingLeft (ConnRace.run h) ∧ (ConnRace.run h).named = false ∧ (ConnRace.run h).canJoin = false ∧ ToldInOrder (ConnRace.run h) := by
  have hn : NotMeanwhile h := fun p e t hh he => by rw [hm p e t hh he]; decide
  rcases undone_run h hm with ⟨c, _, h2⟩ | hu
  · rw [h2] at hc; cases c <;> exact absurd rfl hc
  obtain ⟨t, ht⟩ := List.exists_mem_of_ne_nil _ hc
  have hi := inv_run h hn
  have ho := order_run h hm
  generalize ConnRace.run h = s at *
  simp only [ConnRace.Inv, hu.conn] at hi
  have hr := (hu.each t ht).2 (.inr (.inr (.inr (hd t ht))))
  have h3 : s.connected = false := by
    rcases hi.reg hr with h1 | ⟨u, hu', ha⟩
    · exact h1
    · simp [Active, hd u hu'] at ha
  refine ⟨⟨h3, (hi.gone h3).1, (hi.gone h3).2, hr⟩, (hu.reg hr).1, (hu.reg hr).2, ?_⟩
  rcases ho with ⟨h4, _⟩ | ⟨_, a, b, h4, h5, _⟩
  · exact absurd hu.conn h4
  · refine ⟨a, b, h4, ?_⟩
    rcases hi.told h3 with h6 | ⟨u, hu', h6⟩
    · rw [h4] at h6
      simp only [List.mem_append, List.mem_cons, reduceCtorEq, false_or] at h6
      exact h6.resolve_left h5
    · rw [hd u hu'] at h6; cases h6

/-- **C77**, in every interleaving: a socket that has been closed, so that it is out of its room and may join none, never gets into it
again, not even if the goroutine that connects it has yet to join it. -/
theorem C77_out (h t : List ConnRace.Ev) (hj : (ConnRace.run h).canJoin = false) (hr : (ConnRace.run h).inRoom = false) :
    (ConnRace.run (h ++ t)).canJoin = false ∧ (ConnRace.run (h ++ t)).inRoom = false := by
  induction t using Verif.snocRec with
  | nil => simpa using ⟨hj, hr⟩
  | append_singleton t e ih =>
    rw [← List.append_assoc, show ConnRace.run (h ++ t ++ [e]) = ConnRace.step (ConnRace.run (h ++ t)) e from by simp [ConnRace.run]]
    generalize ConnRace.run (h ++ t) = s at ih
    obtain ⟨h1, h2⟩ := ih
    cases e with
    | pass => simp only [ConnRace.step]; split <;> exact ⟨h1, h2⟩
    | conn =>
      simp only [ConnRace.step]
      cases hc : s.conn <;> simp [ConnRace.connect, h1, h2]
      split <;> simp [h1, h2]
    | hangup => exact ⟨h1, h2⟩
    | onclose => simp only [ConnRace.step]; split <;> exact ⟨h1, h2⟩
    | leave => simp only [ConnRace.step]; split <;> exact ⟨h1, h2⟩
    | adv k =>
      simp only [ConnRace.step, ConnRace.advance]
      split
      · rename_i w pc _
        cases pc <;> simp [ConnRace.close, h1, h2]
        split <;> simp [h1, h2]
      · exact ⟨h1, h2⟩

/-- Non-vacuity: the socket is disconnected between being marked as connected and joining its room. -/
example : (ConnRace.run ([.pass, .conn, .conn, .conn, .leave] ++ List.replicate 6 (.adv 0))).canJoin = false ∧
    (ConnRace.run ([.pass, .conn, .conn, .conn, .leave] ++ List.replicate 6 (.adv 0))).inRoom = false ∧
    (ConnRace.run ([.pass, .conn, .conn, .conn, .leave] ++ List.replicate 6 (.adv 0))).conn = .join := by decide

/-- Non-vacuity: the connection closes while the socket is being announced, and two goroutines close; or after; or before. -/
def Demo.connWindow : List ConnRace.Ev :=
  [.pass, .conn, .conn, .conn, .conn, .conn, .conn, .hangup, .onclose, .conn, .onclose, .adv 0, .adv 1, .adv 0, .conn] ++
    (List.replicate 11 [.adv 0, .adv 1]).flatten

def Demo.connAfter : List ConnRace.Ev :=
  [.pass, .conn, .conn, .conn, .conn, .conn, .conn, .conn, .conn, .leave, .hangup, .onclose] ++ List.replicate 9 (.adv 0) ++ List.replicate 9 (.adv 1)

def Demo.connBefore : List ConnRace.Ev := [.pass, .hangup, .onclose, .conn, .adv 0]

/-- A condition on the state before each of some events, checked from the left. -/
theorem before_iff (P : ConnRace.St → Prop) [DecidablePred P] (h : List ConnRace.Ev) (s : ConnRace.St) :
    (∀ p e t, h = p ++ e :: t → (e = .hangup ∨ e = .leave) → P (p.foldl ConnRace.step s)) ↔
    (h.foldl (fun (x : ConnRace.St × Bool) e => (ConnRace.step x.1 e, x.2 && (decide ¬ (e = .hangup ∨ e = .leave) || decide (P x.1)))) (s, true)).2 = true := by
  have gen : ∀ (h : List ConnRace.Ev) (s : ConnRace.St) (b : Bool),
      (h.foldl (fun (x : ConnRace.St × Bool) e => (ConnRace.step x.1 e, x.2 && (decide ¬ (e = .hangup ∨ e = .leave) || decide (P x.1)))) (s, b)).2 = true ↔
      b = true ∧ (∀ p e t, h = p ++ e :: t → (e = .hangup ∨ e = .leave) → P (p.foldl ConnRace.step s)) := by
    intro h
    induction h with
    | nil => intro s b; simp
    | cons a h ih =>
      intro s b
      rw [List.foldl_cons, ih]
      constructor
      · rintro ⟨h1, h2⟩
        simp only [Bool.and_eq_true, Bool.or_eq_true, decide_eq_true_eq] at h1
        refine ⟨h1.1, ?_⟩
        rintro (_ | ⟨x, p⟩) e t hh he
        · simp only [List.nil_append, List.cons.injEq] at hh
          obtain ⟨rfl, rfl⟩ := hh
          exact h1.2.resolve_left (fun hn => hn he)
        · simp only [List.cons_append, List.cons.injEq] at hh
          obtain ⟨rfl, hh⟩ := hh
          exact h2 p e t hh he
      · rintro ⟨h1, h2⟩
        refine ⟨?_, fun p e t hh he => h2 (a :: p) e t (by simp [hh]) he⟩
        simp only [Bool.and_eq_true, Bool.or_eq_true, decide_eq_true_eq]
        refine ⟨h1, ?_⟩
        by_cases he : a = .hangup ∨ a = .leave
        · exact .inr (h2 [] a h rfl he)
        · exact .inl he
  rw [gen]; simp

instance (h : List ConnRace.Ev) : Decidable (NotMeanwhile h) :=
  decidable_of_iff _ (before_iff (fun s => s.conn ∉ [CPC.store, .flag, .join, .write, .register]) h {}).symm

instance (h : List ConnRace.Ev) : Decidable (OnlyAfter h) :=
  decidable_of_iff _ (before_iff (fun s => s.conn = .done) h {}).symm

example : NotMeanwhile Demo.connWindow ∧ ConnSettled (ConnRace.run Demo.connWindow) ∧ ¬ OnlyAfter Demo.connWindow ∧
    Out.connection ∈ (ConnRace.run Demo.connWindow).log := by decide
example : OnlyAfter Demo.connAfter ∧ ConnSettled (ConnRace.run Demo.connAfter) ∧
    (ConnRace.run Demo.connAfter).log = [.connectPacket, .connection, .disconnecting, .disconnect] := by decide
/-- A client that leaves the namespace on a connection that stays open. -/
def Demo.connLeft : List ConnRace.Ev :=
  [.pass, .conn, .conn, .conn, .conn, .conn, .conn, .conn, .conn, .leave] ++ List.replicate 9 (.adv 0)

example : OnlyAfter Demo.connLeft ∧ (ConnRace.run Demo.connLeft).isOpen = true ∧ (ConnRace.run Demo.connLeft).closers ≠ [] ∧
    ∀ t ∈ (ConnRace.run Demo.connLeft).closers, t.2 = .done := by decide
example : NobodyCloses (Demo.connLeft.take 9) ∧ (ConnRace.run (Demo.connLeft.take 9)).conn = .done := by decide
example : NotMeanwhile Demo.connBefore ∧ (ConnRace.run Demo.connBefore).conn = .refused := by decide

/-- **C77 is false in general**: the connection closes after it was found open; the socket of the closed connection stays connected, in the
namespace and in its room, `connection` was emitted and nothing will ever emit `disconnect`. -/
theorem C77_ghost_fails : ∃ h, ConnSettled (ConnRace.run h) ∧ ¬ NothingLeft (ConnRace.run h) ∧
    Out.connection ∈ (ConnRace.run h).log ∧ Out.disconnect ∉ (ConnRace.run h).log :=
  ⟨[.pass, .conn, .hangup, .onclose, .adv 0, .adv 0, .conn, .conn, .conn, .conn, .conn, .conn, .conn], by decide⟩

/-- The same if `Clear` comes between: `Range` did not meet the socket, and the client forgets it. -/
theorem C77_clear_fails : ∃ h, ConnSettled (ConnRace.run h) ∧ ¬ NothingLeft (ConnRace.run h) ∧
    (ConnRace.run h).registered = false ∧ (ConnRace.run h).inNsp = true :=
  ⟨[.pass, .conn, .conn, .conn, .conn, .conn, .hangup, .onclose, .adv 0, .conn, .adv 0, .conn, .conn], by decide⟩

/-- And even if the client knows the socket, `disconnect` may be emitted before `connection`: a handler registered in the handler of
`connection` is never called. -/
theorem C77_order_fails : ∃ h, NotMeanwhile h ∧ ConnSettled (ConnRace.run h) ∧
    (ConnRace.run h).log = [.connectPacket, .disconnecting, .disconnect, .connection] :=
  ⟨[.pass, .conn, .conn, .conn, .conn, .conn, .conn, .hangup, .onclose, .adv 0, .adv 0, .adv 0, .adv 0, .adv 0, .adv 0, .adv 0, .adv 0, .adv 0,
    .adv 0, .conn, .conn], by decide⟩

/-- If the socket is disconnected between the two writes by which the client gets to know it, the second one stays: nothing is left of the
socket, but its client still holds the name of the namespace. -/
theorem C77_name_fails : ∃ h, NotMeanwhile h ∧ (∀ t ∈ (ConnRace.run h).closers, t.2 = .done) ∧ (ConnRace.run h).conn = .done ∧
    (ConnRace.run h).isOpen = true ∧ NothingLeft (ConnRace.run h) ∧ (ConnRace.run h).named = true :=
  ⟨[.pass, .conn, .conn, .conn, .conn, .conn, .conn, .leave, .adv 0, .adv 0, .adv 0, .adv 0, .adv 0, .adv 0, .adv 0, .adv 0, .adv 0, .conn,
    .conn], by decide⟩

end Verif.Props
