import Verif.Spec.Parent
import Verif.Spec.Operator
import Verif.Props.Targeting

/-! # C53: emitting on a parent namespace -/

namespace Verif.Props
open Verif Verif.Spec Verif.Parent

theorem received_cast (cfg : Session.Cfg) (now : Int) (rooms except : List Room) (flags : Flags)
    (ch : Child) (hok : Delivery.OK ch.nsp) (data : List Val) (nsp : String) :
    Received ch (castChild cfg now (some { rooms := some rooms, except := some except, flags := some flags }) ch
      { type := .event, nsp := nsp, data := .args data }).1 rooms except (data ++ offsetOf cfg flags.volatile ch) ∧
    (castChild cfg now (some { rooms := some rooms, except := some except, flags := some flags }) ch
      { type := .event, nsp := nsp, data := .args data }).2 =
        { type := .event, nsp := ch.name, data := .args (data ++ offsetOf cfg flags.volatile ch) } := by
  have sel (s : Sid) : Sel ch.nsp rooms except s ↔ Selected (fun s => ∃ ref, ch.nsp.sockets.get? s = some ref)
      (fun s r => ∃ l, ch.nsp.ad.sids.get? s = some l ∧ r ∈ l) rooms except s := by
    have (s r : String) : (r ∈ Adapter.roomsOf ch.nsp.ad s) ↔ ∃ l, ch.nsp.ad.sids.get? s = some l ∧ r ∈ l := by
      simp only [Adapter.roomsOf, Adapter.socketRooms]
      cases ch.nsp.ad.sids.get? s <;> simp
    simp only [Sel, Selected, Connected, Matches, this]
  have hb (st : Session.St) : Session.broadcast cfg now { type := .event, nsp := nsp, data := .args data }
      (some { rooms := some rooms, except := some except, flags := some flags }) st =
      ((Session.broadcast cfg now { type := .event, nsp := nsp, data := .args data }
        (some { rooms := some rooms, except := some except, flags := some flags }) st).1,
       { type := .event, nsp := nsp, data := .args (data ++ offsetOf cfg flags.volatile { ch with store := some st }) }) := by
    cases hv : flags.volatile <;> simp [Session.broadcast, Session.notVolatile, hv, offsetOf]
  obtain ⟨ids, ptr, h1, h2, h3, h4⟩ := C03_broadcast ch.nsp hok
    { type := .event, nsp := ch.name, data := .args (data ++ offsetOf cfg flags.volatile ch) } rooms except (some flags)
  cases hst : ch.store with
  | none =>
    have e : offsetOf cfg flags.volatile ch = [] := by simp [offsetOf, hst]
    rw [e, List.append_nil] at h4 ⊢
    simp only [castChild, hst]
    exact ⟨⟨rfl, ids, ptr, h1, fun s => (h2 s).trans (sel s), h3, h4⟩, trivial⟩
  | some st =>
    have e : ({ ch with store := some st } : Child) = ch := by cases ch; simp_all
    simp only [castChild, hst]
    rw [hb st, e]
    exact ⟨⟨rfl, ids, ptr, h1, fun s => (h2 s).trans (sel s), h3, h4⟩, rfl⟩

/-- **C53, without a selection**: emitting on the parent delivers the event once to every socket of every child and to nobody
else, with the arguments given, followed, in a child that has recovery enabled, by the one offset of that child. -/
theorem C53_all (cfg : Session.Cfg) (now : Int) (ev : String) (hev : ev ∉ Operator.reserved) (args : List Val)
    (cs : List Child) (hok : ∀ ch ∈ cs, Delivery.OK ch.nsp) :
    (emitAll cfg now ev args cs).length = cs.length ∧
    ∀ (i : Nat) (ch : Child), cs[i]? = some ch →
      ∃ ch', (emitAll cfg now ev args cs)[i]? = some ch' ∧ Received ch ch' [] [] (Val.str ev :: args ++ offsetOf cfg false ch) := by
  refine ⟨by simp [emitAll], ?_⟩
  intro i ch hi
  refine ⟨_, by simp only [emitAll, List.getElem?_map, hi, Option.map_some]; rfl, ?_⟩
  rw [if_neg hev]
  exact (received_cast cfg now [] [] {} ch (hok ch (List.mem_of_getElem? hi)) (Val.str ev :: args) "").1

/-- **C53, with a selection, what happens**: the selected sockets of every child, and nobody else, receive the event once; its
arguments are followed by the offsets of the child and of all children visited before it. -/
theorem C53_select (cfg : Session.Cfg) (now : Int) (rooms except : List Room) (flags : Flags)
    (ev : String) (hev : ev ∉ Operator.reserved) (args : List Val) (hack : Operator.splitAck (Val.str ev :: args) = none)
    (cs : List Child) (hok : ∀ ch ∈ cs, Delivery.OK ch.nsp) :
    (emitTo cfg now rooms except flags ev args cs).length = cs.length ∧
    ∀ (i : Nat) (ch : Child), cs[i]? = some ch →
      ∃ ch', (emitTo cfg now rooms except flags ev args cs)[i]? = some ch' ∧
        Received ch ch' rooms except (Val.str ev :: args ++ (cs.take (i + 1)).flatMap (offsetOf cfg flags.volatile)) := by
  simp only [emitTo, hev, if_false, hack]
  have key : ∀ (cs : List Child) (data : List Val) (nsp : String), (∀ ch ∈ cs, Delivery.OK ch.nsp) →
      (castAll cfg now (some { rooms := some rooms, except := some except, flags := some flags }) cs
        { type := .event, nsp := nsp, data := .args data }).length = cs.length ∧
      ∀ (i : Nat) (ch : Child), cs[i]? = some ch →
        ∃ ch', (castAll cfg now (some { rooms := some rooms, except := some except, flags := some flags }) cs
          { type := .event, nsp := nsp, data := .args data })[i]? = some ch' ∧
          Received ch ch' rooms except (data ++ (cs.take (i + 1)).flatMap (offsetOf cfg flags.volatile)) := by
    intro cs
    induction cs with
    | nil => intro data nsp _; exact ⟨rfl, fun i ch h => by simp at h⟩
    | cons c cs ih =>
      intro data nsp hok
      obtain ⟨r1, r2⟩ := received_cast cfg now rooms except flags c (hok c (by simp)) data nsp
      simp only [castAll, r2]
      obtain ⟨i1, i2⟩ := ih (data ++ offsetOf cfg flags.volatile c) c.name (fun ch hch => hok ch (by simp [hch]))
      refine ⟨by simp [i1], ?_⟩
      intro i ch hi
      cases i with
      | zero =>
        simp at hi; subst hi
        exact ⟨_, rfl, by simpa using r1⟩
      | succ i =>
        obtain ⟨ch', g1, g2⟩ := i2 i ch (by simpa using hi)
        refine ⟨ch', by simpa using g1, ?_⟩
        rw [List.take_succ_cons, List.flatMap_cons, ← List.append_assoc]
        exact g2
  exact key cs (Val.str ev :: args) "" hok

/-- **C53, with a selection, partial**: if no child has recovery enabled, the selected sockets of every child receive the event
with exactly the arguments given. -/
theorem C53_select_partial (cfg : Session.Cfg) (now : Int) (rooms except : List Room) (flags : Flags)
    (ev : String) (hev : ev ∉ Operator.reserved) (args : List Val)
    (hack : Operator.splitAck (Val.str ev :: args) = none)
    (cs : List Child) (hok : ∀ ch ∈ cs, Delivery.OK ch.nsp) (hplain : ∀ ch ∈ cs, ch.store = none) :
    ∀ (i : Nat) (ch : Child), cs[i]? = some ch →
      ∃ ch', (emitTo cfg now rooms except flags ev args cs)[i]? = some ch' ∧
        Received ch ch' rooms except (Val.str ev :: args) := by
  intro i ch hi
  obtain ⟨ch', h1, h2⟩ := (C53_select cfg now rooms except flags ev hev args hack cs hok).2 i ch hi
  refine ⟨ch', h1, ?_⟩
  have : (cs.take (i + 1)).flatMap (offsetOf cfg flags.volatile) = [] := by
    rw [List.flatMap_eq_nil_iff]
    intro c hc
    simp [offsetOf, hplain c (List.mem_of_mem_take hc)]
  rw [this, List.append_nil] at h2
  exact h2

theorem kept_cast (cfg : Session.Cfg) (now : Int) (rooms except : List Room) (flags : Flags) (ch : Child) (data : List Val) (nsp : String) :
    KeptFor cfg now rooms except flags ch (castChild cfg now (some { rooms := some rooms, except := some except, flags := some flags }) ch
      { type := .event, nsp := nsp, data := .args data }).1 (data ++ offsetOf cfg flags.volatile ch) := by
  unfold KeptFor
  cases hst : ch.store with
  | none => simp [castChild, hst]
  | some st => cases hv : flags.volatile <;> simp [castChild, hst, Session.broadcast, Session.notVolatile, hv, offsetOf]

/-- **C53, recovery**: what the sockets of a child receive is kept in that child for those that lost their connection, with
and without a selection, and nothing else. -/
theorem C53_kept (cfg : Session.Cfg) (now : Int) (rooms except : List Room) (flags : Flags)
    (ev : String) (hev : ev ∉ Operator.reserved) (args : List Val) (cs : List Child) (i : Nat) (ch : Child) (hi : cs[i]? = some ch) :
    (∃ ch', (emitAll cfg now ev args cs)[i]? = some ch' ∧ KeptFor cfg now [] [] {} ch ch' (Val.str ev :: args ++ offsetOf cfg false ch)) ∧
    (Operator.splitAck (Val.str ev :: args) = none → ∃ ch', (emitTo cfg now rooms except flags ev args cs)[i]? = some ch' ∧
      KeptFor cfg now rooms except flags ch ch' (Val.str ev :: args ++ (cs.take (i + 1)).flatMap (offsetOf cfg flags.volatile))) := by
  constructor
  · refine ⟨_, by simp only [emitAll, List.getElem?_map, hi, Option.map_some]; rfl, ?_⟩
    rw [if_neg hev]
    exact kept_cast cfg now [] [] {} ch (Val.str ev :: args) ""
  · intro hack
    simp only [emitTo, hev, if_false, hack]
    have hp (c : Child) (data : List Val) (nsp : String) :
        (castChild cfg now (some { rooms := some rooms, except := some except, flags := some flags }) c
          { type := .event, nsp := nsp, data := .args data }).2 =
          { type := .event, nsp := c.name, data := .args (data ++ offsetOf cfg flags.volatile c) } := by
      cases hst : c.store with
      | none => simp [castChild, hst, offsetOf]
      | some st => cases hv : flags.volatile <;> simp [castChild, hst, Session.broadcast, Session.notVolatile, hv, offsetOf]
    have key : ∀ (cs : List Child) (data : List Val) (nsp : String) (i : Nat), cs[i]? = some ch →
        ∃ ch', (castAll cfg now (some { rooms := some rooms, except := some except, flags := some flags }) cs
          { type := .event, nsp := nsp, data := .args data })[i]? = some ch' ∧
          KeptFor cfg now rooms except flags ch ch' (data ++ (cs.take (i + 1)).flatMap (offsetOf cfg flags.volatile)) := by
      intro cs
      induction cs with
      | nil => intro data nsp i h; simp at h
      | cons c cs ih =>
        intro data nsp i hi
        simp only [castAll, hp]
        cases i with
        | zero =>
          simp at hi; subst hi
          exact ⟨_, rfl, by simpa using kept_cast cfg now rooms except flags c data nsp⟩
        | succ i =>
          obtain ⟨ch', g1, g2⟩ := ih (data ++ offsetOf cfg flags.volatile c) c.name i (by simpa using hi)
          refine ⟨ch', by simpa using g1, ?_⟩
          rw [List.take_succ_cons, List.flatMap_cons, ← List.append_assoc]
          exact g2
    exact key cs (Val.str ev :: args) "" i hi

namespace Demo
/-- A namespace with one socket, number 0 with id "s", in room "s". -/
def oneSock : Delivery.Nsp :=
  { ad := { rooms := [("s", ["s"])], sids := [("s", ["s"])] }, sockets := [("s", 0)], sidOf := fun _ => "s", canJoin := fun _ => true }

def sessCfg : Session.Cfg := ⟨1000, fun n => if n = 0 then "y0" else "y1"⟩
end Demo

theorem Demo.oneSock_ok : Delivery.OK Demo.oneSock := by
  have e1 (r : String) (l : List String) (h : FMap.get? ([("s", ["s"])] : FMap String (List String)) r = some l) : r = "s" ∧ l = ["s"] := by
    rw [FMap.get?_cons] at h
    split at h
    · rename_i e; exact ⟨e.symm, by simpa using h.symm⟩
    · cases h
  have e2 (r : String) (n : Nat) (h : FMap.get? ([("s", 0)] : FMap String Nat) r = some n) : r = "s" ∧ n = 0 := by
    rw [FMap.get?_cons] at h
    split at h
    · rename_i e; exact ⟨e.symm, by simpa using h.symm⟩
    · cases h
  refine ⟨?_, ?_, ?_, ?_, ?_, ?_, ?_, ?_, ?_⟩
  · simp [Demo.oneSock, FMap.WF, FMap.keys]
  · simp [Demo.oneSock, FMap.WF, FMap.keys]
  · intro r l h; rw [(e1 r l h).2]; simp
  · intro r l h; rw [(e1 r l h).2]; simp
  · intro r l h; rw [(e1 r l h).2]; simp
  · intro s r
    constructor
    · rintro ⟨l, h, hm⟩
      obtain ⟨rfl, rfl⟩ := e1 _ _ h; simp at hm; subst hm; exact ⟨["s"], rfl, by simp⟩
    · rintro ⟨l, h, hm⟩
      obtain ⟨rfl, rfl⟩ := e1 _ _ h; simp at hm; subst hm; exact ⟨["s"], rfl, by simp⟩
  · intro s ref h; rw [(e2 s ref h).1]; rfl
  · intro s ref h; rfl
  · intro s ref h; rw [(e2 s ref h).1]; decide

/-- **C36, C53**: a reserved name emitted through a parent namespace, with or without a selection, changes nothing in any child. -/
theorem C36_parent (cfg : Session.Cfg) (now : Int) (rooms except : List Room) (flags : Flags) (ev : String) (hev : IsReserved ev)
    (args : List Val) (cs : List Child) :
    emitTo cfg now rooms except flags ev args cs = cs ∧ emitAll cfg now ev args cs = cs := by
  have h : ev ∈ Operator.reserved := by
    unfold IsReserved at hev
    simp only [Operator.reserved, List.mem_cons, List.not_mem_nil, or_false]
    simpa using hev
  constructor
  · simp [emitTo, h]
  · simp [emitAll, h]

example : IsReserved "disconnect" := by decide

/-- **C53 fails with recovery**: with two children that have recovery enabled, the sockets of the second receive the event with
two additional arguments. -/
theorem C53_offsets_fail : ¬ ∀ (cfg : Session.Cfg) (now : Int) (rooms except : List Room) (ev : String) (args : List Val)
    (cs : List Child), ev ∉ Operator.reserved → Operator.splitAck (Val.str ev :: args) = none →
    (∀ ch ∈ cs, Delivery.OK ch.nsp) → ∀ ch ∈ emitTo cfg now rooms except {} ev args cs, ∀ ref p, (ref, p) ∈ ch.nsp.out →
      p.data = .args (Val.str ev :: args) ∨ ∃ off, p.data = .args (Val.str ev :: args ++ [Val.str off]) := by
  intro hall
  have := hall Demo.sessCfg 0 [] ["x"] "hi" [] [{ name := "/a", nsp := Demo.oneSock, store := some {} },
      { name := "/b", nsp := Demo.oneSock, store := some {} }] (by decide) (by decide)
    (by intro ch hch; simp at hch; rcases hch with rfl | rfl <;> exact Demo.oneSock_ok)
    _ (List.mem_of_getElem? (i := 1) rfl) 0
    { type := .event, nsp := "/b", data := .args [Val.str "hi", Val.str "y0", Val.str "y0"] } (by decide)
  rcases this with h | ⟨off, h⟩ <;> simp at h

/-- **C53 fails with an acknowledgement**: an emission on a parent with a selection and an acknowledgement does not reach the
selected sockets. -/
theorem C53_ack_fail : ¬ ∀ (cfg : Session.Cfg) (now : Int) (rooms except : List Room) (ev : String) (args : List Val) (k : Nat)
    (cs : List Child), ev ∉ Operator.reserved → (∀ ch ∈ cs, Delivery.OK ch.nsp) →
    ∀ ch ∈ emitTo cfg now rooms except {} ev (args ++ [Val.fn k]) cs, ∀ s ref, ch.nsp.sockets.get? s = some ref →
      s ∈ rooms → ∃ p, (ref, p) ∈ ch.nsp.out := by
  intro hall
  obtain ⟨p, hp⟩ := hall Demo.sessCfg 0 ["s"] [] "hi" [] 3 [{ name := "/a", nsp := Demo.oneSock }] (by decide)
    (by intro ch hch; simp at hch; subst hch; exact Demo.oneSock_ok)
    _ (List.mem_of_getElem? (i := 0) rfl) "s" 0 (by decide) (by decide)
  exact absurd hp (by simp [Demo.oneSock])

example : ((emitTo Demo.sessCfg 0 ["s"] [] {} "hi" [Val.num 1] [{ name := "/a", nsp := Demo.oneSock },
    { name := "/b", nsp := Demo.oneSock }]).map fun ch => ch.nsp.out) =
    [[(0, { type := .event, nsp := "/a", data := .args [Val.str "hi", Val.num 1] })],
     [(0, { type := .event, nsp := "/b", data := .args [Val.str "hi", Val.num 1] })]] := by decide

example : ((emitAll Demo.sessCfg 0 "hi" [] [{ name := "/a", nsp := Demo.oneSock, store := some {} },
    { name := "/b", nsp := Demo.oneSock, store := some {} }]).map fun ch => ch.nsp.out) =
    [[(0, { type := .event, nsp := "/a", data := .args [Val.str "hi", Val.str "y0"] })],
     [(0, { type := .event, nsp := "/b", data := .args [Val.str "hi", Val.str "y0"] })]] := by decide

example : ((emitAll Demo.sessCfg 7 "hi" [] [{ name := "/a", nsp := Demo.oneSock, store := some {} }]).map fun ch => ch.store) =
    [some { packets := [⟨"y0", 7, [Val.str "hi", Val.str "y0"], some { rooms := some [], except := some [], flags := some {} }⟩],
            next := 1 }] := by decide

end Verif.Props
