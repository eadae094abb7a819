import Verif.Proof.Family

/-! # C87: calls on a parent namespace -/

namespace Verif.Props
open Verif Verif.Adapter Verif.Delivery

theorem family_snoc (d auto : Bool) (h : List Family.Ev) (e : Family.Ev) :
    Family.run d auto (h ++ [e]) = Family.step d auto (Family.run d auto h) e := by simp [Family.run]

theorem family_j (d auto : Bool) (h : List Family.Ev) : Family.J (Family.run d auto h) := by
  induction h using snocRec with
  | nil => exact Family.j_init
  | append_singleton h e ih => rw [family_snoc]; exact Family.j_step d auto ih e

/-- The selected sockets of the `k`-th child ever made, and only they, are sent the packet, each once, with the name of their namespace; nothing
else changes in the child. -/
def SentIn (s s' : Family.St) (p : Pkt) (rooms except : List Room) (k : Nat) : Prop :=
  ∃ ids : List Sid, ∃ ptr : Sid → Nat, ids.Nodup ∧ (∀ x, x ∈ ids ↔ Sel (s.kids k).n rooms except x) ∧
    (∀ x ∈ ids, (s.kids k).n.sockets.get? x = some (ptr x)) ∧
    s'.kids k = { s.kids k with n := { (s.kids k).n with
      out := (s.kids k).n.out ++ ids.map (fun x => (ptr x, { p with nsp := s.names k })) } }

theorem family_cast {s : Family.St} (j : Family.J s) (p : Pkt) (rooms except : List Room) (k : Nat) :
    SentIn s (Family.cast p (some { rooms := some rooms, except := some except, flags := some {} }) s) p rooms except k := by
  by_cases hk : k ∈ s.listed
  · obtain ⟨ids, ptr, h1, h2, h3, h4⟩ := C03_broadcast (s.kids k).n (j.kids k).ok { p with nsp := s.names k } rooms except (some {})
    refine ⟨ids, ptr, h1, h2, h3, ?_⟩
    simp only [Family.cast, if_pos hk]; rw [h4]
  · refine ⟨[], fun _ => 0, List.nodup_nil, ?_, by simp, ?_⟩
    · intro x
      simp only [List.not_mem_nil, false_iff]
      rintro ⟨⟨ref, h⟩, _⟩
      rw [j.out k hk] at h; simp at h
    · simp only [Family.cast, if_neg hk, List.map_nil, List.append_nil]

/-- Part of C87.  `parent.To(rooms).Except(except).Emit` reaches, in every child, exactly the selected sockets, each once, and does nothing
else. -/
theorem C87_emitTo (d auto : Bool) (h : List Family.Ev) (p : Pkt) (rooms except : List Room) (k : Nat) :
    SentIn (Family.run d auto h) (Family.run d auto (h ++ [.emitTo p rooms except])) p rooms except k := by
  rw [family_snoc]; exact family_cast (family_j d auto h) p rooms except k

/-- Part of C87.  `parent.Emit` reaches all sockets of all children. -/
theorem C87_emit (d auto : Bool) (h : List Family.Ev) (p : Pkt) (k : Nat) :
    SentIn (Family.run d auto h) (Family.run d auto (h ++ [.emit p])) p [] [] k := by
  rw [family_snoc]; exact family_cast (family_j d auto h) p [] [] k

/-- Part of C87.  A child with a connected socket is one of the children of the parent, -/
theorem C87_listed (d auto : Bool) (h : List Family.Ev) (k : Nat) (x : Sid) (hc : Connected ((Family.run d auto h).kids k).n x) :
    k ∈ (Family.run d auto h).listed ∧ k < (Family.run d auto h).next := by
  have j := family_j d auto h
  have : k ∈ (Family.run d auto h).listed := by
    apply Decidable.byContradiction
    intro hk
    obtain ⟨ref, hr⟩ := hc
    rw [j.out k hk] at hr; simp at hr
  exact ⟨this, j.bound k this⟩

/-- Part of C87.  and without `CleanupEmptyChildNamespaces` every child ever made is. -/
theorem C87_kept (d : Bool) (h : List Family.Ev) (k : Nat) :
    k ∈ (Family.run d false h).listed ↔ k < (Family.run d false h).next := by
  refine ⟨(family_j d false h).bound k, ?_⟩
  induction h using snocRec with
  | nil => intro hk; cases hk
  | append_singleton h e ih =>
    rw [family_snoc]
    cases e with
    | ask name =>
      simp only [Family.step]
      split
      · exact ih
      · intro hk
        simp only [List.mem_append, List.mem_singleton]
        rcases Nat.lt_succ_iff_lt_or_eq.1 hk with hk | hk
        · exact .inl (ih hk)
        · exact .inr hk
    | inside i e =>
      simp only [Family.step]
      split
      · simpa using ih
      · exact ih
    | _ => exact ih

/-- Part of C87.  `SocketsJoin`, `SocketsLeave` and `DisconnectSockets` on a parent do nothing to any child, whatever they select. -/
theorem C87_nothing (d auto : Bool) (h : List Family.Ev) (rooms except l : List Room) (close : Bool) :
    (Family.run d auto (h ++ [.bulkJoin rooms except l])) = Family.run d auto h ∧
    (Family.run d auto (h ++ [.bulkLeave rooms except l])) = Family.run d auto h ∧
    (Family.run d auto (h ++ [.bulkDisconnect rooms except close])) = Family.run d auto h := by
  have j := family_j d auto h
  simp only [family_snoc, Family.step]
  have hself : OK (Family.run d auto h).self := by rw [j.self]; exact Family.okr_blank.ok
  have hnil : (Family.run d auto h).self.sockets = [] := by rw [j.self]; rfl
  refine ⟨?_, ?_, ?_⟩
  · rw [show addSockets (Family.run d auto h).self (Remote.opts rooms except) l = (Family.run d auto h).self from
      (Family.no_sockets (local_join l) hself hnil _).1]
  · rw [show delSockets d (Family.run d auto h).self (Remote.opts rooms except) l = (Family.run d auto h).self from
      (Family.no_sockets (local_leaveEach d l) hself hnil _).1]
  · rw [show disconnectSockets d (Family.run d auto h).self (Remote.opts rooms except) close = (Family.run d auto h).self from
      (Family.no_sockets (local_kick d close) hself hnil _).1]

/-- Part of C87.  `parent.FetchSockets` reports an error; `parent.In(rooms).FetchSockets` reports none and hands over an empty list. -/
theorem C87_fetch (d auto : Bool) (h : List Family.Ev) (rooms except : List Room) :
    (Family.run d auto (h ++ [.fetch])).result = none ∧ (Family.run d auto (h ++ [.inFetch rooms except])).result = some [] := by
  have j := family_j d auto h
  refine ⟨by rw [family_snoc]; rfl, ?_⟩
  rw [family_snoc]
  show some (fetchSockets (Family.run d auto h).self _) = _
  rw [j.self]
  obtain ⟨ids, ptr, _, h2, _, h4⟩ := C03_fetchSockets Family.blank.n Family.okr_blank.ok rooms except (some {})
  rw [Remote.opts, h4]
  have : ids = [] := by
    apply List.eq_nil_iff_forall_not_mem.2
    intro x hx
    obtain ⟨⟨ref, hr⟩, _⟩ := (h2 x).1 hx
    simp [Family.blank] at hr
  rw [this]; rfl

/-- Two children, the first emptied and made again. -/
def Demo.kin : List Family.Ev :=
  [.ask "/a", .inside 0 (.connect "x" []), .ask "/b", .inside 1 (.connect "y" []), .inside 1 (.join 0 ["r"]), .inside 0 (.disconnect 0 false),
    .ask "/a", .inside 2 (.connect "z" ["r"])]

example : (Family.run true true Demo.kin).listed = [1, 2] ∧ (Family.run true false Demo.kin).listed = [0, 1] ∧
    (Family.run true true Demo.kin).names 2 = "/a" ∧
    ((Family.run true true (Demo.kin ++ [.emitTo { type := .event, data := .args [] } ["r"] ["y"]])).kids 2).n.out =
      [(0, { type := .event, nsp := "/a", data := .args [] })] ∧
    ((Family.run true true (Demo.kin ++ [.emit { type := .event, data := .args [] }])).kids 1).n.out =
      [(0, { type := .event, nsp := "/b", data := .args [] })] := by decide

example : Connected ((Family.run true true Demo.kin).kids 1).n "y" := ⟨0, by decide⟩

/-- A program that makes the sockets of a parent namespace join a room finds that they have not, and is told nothing. -/
theorem C87_join_fails :
    ¬ ∀ (d auto : Bool) (h : List Family.Ev) (rooms except joined : List Room) (k : Nat) (x : Sid) (r : Room),
      Sel ((Family.run d auto h).kids k).n rooms except x → r ∈ joined →
        r ∈ roomsOf ((Family.run d auto (h ++ [.bulkJoin rooms except joined])).kids k).n.ad x := by
  intro hall
  exact absurd (hall true true Demo.kin [] [] ["q"] 1 "y" "q" ⟨⟨0, by decide⟩, .inl rfl, by simp⟩ (by simp)) (by decide)

/-- `DisconnectSockets` leaves them connected. -/
theorem C87_disconnect_fails :
    ¬ ∀ (d auto : Bool) (h : List Family.Ev) (rooms except : List Room) (close : Bool) (k : Nat) (x : Sid),
      Sel ((Family.run d auto h).kids k).n rooms except x →
        ¬ Connected ((Family.run d auto (h ++ [.bulkDisconnect rooms except close])).kids k).n x := by
  intro hall
  exact hall true true Demo.kin [] [] true 1 "y" ⟨⟨0, by decide⟩, .inl rfl, by simp⟩ ⟨0, by decide⟩

/-- `In(room).FetchSockets` neither finds them nor fails. -/
theorem C87_fetch_fails :
    ¬ ∀ (d auto : Bool) (h : List Family.Ev) (rooms except : List Room) (k : Nat) (x : Sid),
      Sel ((Family.run d auto h).kids k).n rooms except x → (Family.run d auto (h ++ [.inFetch rooms except])).result ≠ some [] := by
  intro hall
  exact hall true true Demo.kin ["r"] [] 1 "y"
    ⟨⟨0, by decide⟩, .inr ⟨"r", by simp, by decide⟩, by simp⟩ (C87_fetch true true Demo.kin ["r"] []).2

end Verif.Props
