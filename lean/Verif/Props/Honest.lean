import Verif.Proof.WorldHonest

/-!
# C61: no two open sockets share an id, also with recovery
-/

namespace Verif.Props
open Verif Verif.World Verif.Spec

/-- **C61, ids (partial)**: if clients ask for a namespace only while they have no open socket there, and for a session only by a private id
that no open socket has, no two open sockets ever share an id, with or without recovery and whatever the protocols: the hypothesis of C18,
C20, C22, C26, C27, C55, C71, C85 and C101 on ids is met.
Missing: clients that come back before the server has noticed that they had gone (`C61_unnoticed_fail`). -/
theorem C61_honest_partial (cfg : World.Cfg) (h : List World.Ev) (hp : Patient cfg h) (hg : GoodIds cfg) (hh : Honest cfg h) :
    NeverTwins cfg h := fun p hpre =>
  noTwins_honest (patient_prefix hp hpre) hg fun q c name pid off hq => hh q c name pid off (hq.trans hpre)

namespace Demo

/-- `Patient` for one event. -/
def patientAt (w : World.W) : World.Ev → Bool
  | .recv c .connect name _ => (List.range w.nSock).all fun r =>
      !(w.socks r).canJoin || (w.socks r).client != c || (w.nss (w.socks r).ns).name != name
  | _ => true

/-- `Honest` for one event. -/
def honestAt (w : World.W) : World.Ev → Bool
  | .recv _ .connect _ (some (pid, _)) => (List.range w.nSock).all fun r =>
      (w.socks r).pid != pid || !(w.socks r).canJoin && !(w.clients (w.socks r).client).proto3
  | _ => true

/-- At every event. -/
def always (cfg : World.Cfg) (f : World.W → World.Ev → Bool) (h : List World.Ev) : Bool :=
  (List.range h.length).all fun i => match h[i]? with
    | some e => f (run cfg (h.take i)) e
    | none => true

theorem always_at {cfg : World.Cfg} {f : World.W → World.Ev → Bool} {h : List World.Ev} (ha : always cfg f h = true) {p : List World.Ev} {e : World.Ev}
    (hp : p ++ [e] <+: h) : f (run cfg p) e = true := by
  obtain ⟨t, rfl⟩ := hp
  have := List.all_eq_true.1 ha p.length (by simp)
  simpa using this

theorem patient_of {cfg : World.Cfg} {h : List World.Ev} (ha : always cfg patientAt h = true) : Patient cfg h := by
  intro p c name auth hp r ho hc hname
  have := List.all_eq_true.1 (always_at ha hp) r (by simpa using ho.1)
  simp [ho.2, hc, hname] at this

theorem honest_of {cfg : World.Cfg} {h : List World.Ev} (ha : always cfg honestAt h = true) : Honest cfg h := by
  intro p c name pid off hp r hr hpid
  have := List.all_eq_true.1 (always_at ha hp) r (by simpa using hr)
  simp only [hpid, bne_self_eq_false, Bool.false_or, Bool.and_eq_true, Bool.not_eq_true'] at this
  exact ⟨fun ho => by rw [ho.2] at this; simp at this, this.2⟩

end Demo

/-- Generators as required. -/
def Demo.hon : World.Cfg := { Demo.scfg true with connId := fun n => "c" ++ Demo.ident n }

theorem Demo.hon_good : GoodIds Demo.hon := by
  have ht (n : Nat) : (Demo.ident n).toList = List.replicate n 'a' := by simp [Demo.ident]
  refine ⟨Demo.ident_inj, fun a b h => Demo.ident_inj a b ?_, fun a b h => ?_, fun a h => ?_, fun a h => ?_⟩
  · have := congrArg String.toList h
    simp only [Demo.hon, String.toList_append] at this
    exact String.toList_inj.1 (List.append_cancel_left this)
  · have h2 : 'c' ∈ (Demo.ident a).toList := by
      rw [show Demo.ident a = _ from h]; simp [Demo.hon]
    rw [ht] at h2
    have := List.eq_of_mem_replicate h2; revert this; decide
  · rw [show (Demo.hon.newSid a) = Demo.ident a from rfl, ht] at h
    have := List.eq_of_mem_replicate h; revert this; decide
  · simp only [Demo.hon, String.toList_append, ht, List.mem_append] at h
    rcases h with h | h
    · revert h; decide
    · have := List.eq_of_mem_replicate h; revert this; decide

/-- Non-vacuity: the client of `Demo.lost` is recovered with its id, loses the connection again and comes back. -/
example : Patient Demo.hon (Demo.lost ++ [Demo.back, .transportClose 1 "transport close", .accept false, .recv 2 .connect "/" (some ("", "o"))]) ∧
    Honest Demo.hon (Demo.lost ++ [Demo.back, .transportClose 1 "transport close", .accept false, .recv 2 .connect "/" (some ("", "o"))]) ∧
    ((run Demo.hon (Demo.lost ++ [Demo.back, .transportClose 1 "transport close", .accept false, .recv 2 .connect "/" (some ("", "o"))])).socks 2).recovered = true ∧
    ((run Demo.hon (Demo.lost ++ [Demo.back, .transportClose 1 "transport close", .accept false, .recv 2 .connect "/" (some ("", "o"))])).socks 2).sid = "" := by
  exact ⟨Demo.patient_of (by decide), Demo.honest_of (by decide), by decide, by decide⟩

/-- A client that was recovered once loses its connection again and comes back before the server has noticed: the session saved the first
time is still there, so there are two open sockets with one id.  When the server notices the loss, the socket in use is dropped from the
namespace and its rooms: it stays connected, but gets no broadcast any more. -/
theorem C61_unnoticed_fail : ∃ (cfg : World.Cfg) (h : List World.Ev), NextOnce h ∧ Patient cfg h ∧ GoodIds cfg ∧
    ¬ NoTwins (run cfg h) ∧
    ((run cfg (h ++ [.transportClose 1 "ping timeout"])).socks 2).connected = true ∧
    ((run cfg (h ++ [.transportClose 1 "ping timeout"])).clients 2).conn = .opened ∧
    (run cfg (h ++ [.transportClose 1 "ping timeout", .broadcast 0 [.str "x"] none [] [] {}])).log =
      (run cfg (h ++ [.transportClose 1 "ping timeout"])).log := by
  refine ⟨Demo.hon, Demo.lost ++ [Demo.back, .accept false, .recv 2 .connect "/" (some ("", "o"))], by decide, Demo.patient_of (by decide), Demo.hon_good, ?_, by decide,
    by decide, by decide⟩
  intro h
  have := h 1 2 ⟨by decide, by decide⟩ ⟨by decide, by decide⟩ (by decide)
  cases this

end Verif.Props
