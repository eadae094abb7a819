import Verif.Proof.Early

/-! # C114: a client may speak as soon as it is told that it is connected -/

namespace Verif.Props
open Verif Verif.Spec Verif.Early

/-- Part of C114, for every interleaving: of the packets that were read, at most one is taken for a violation of the protocol, and each of
the others is given to the listener once, or finds no listener, or its goroutine is still at work. -/
theorem C114_fates (inline : Bool) (h : List Early.Ev) :
    (earlyArrived (Early.run inline h).log).Perm
      (earlyHandled (Early.run inline h).log ++ earlyLost (Early.run inline h).log ++ earlyCut (Early.run inline h).log ++
        earlyWaiting (Early.run inline h).tasks) ∧
    (earlyCut (Early.run inline h).log).length ≤ 1 :=
  ⟨(Early.inv inline h).perm, (Early.inv inline h).one⟩

/-- **C114**, the part that holds: if the program's handler of `connection` has returned before a packet of the client is read, no packet is
taken for a violation, none misses the listener, none passes by the middleware, and all are given to the listener exactly once (but
for those whose goroutines are still at work). -/
theorem C114_patient_partial (inline : Bool) (h : List Early.Ev) (hp : HandlerFirst inline h) :
    (∀ e, .cut e ∉ (Early.run inline h).log) ∧ (∀ e, .lost e ∉ (Early.run inline h).log) ∧
    (∀ e, .handled e false ∉ (Early.run inline h).log) ∧
    (earlyArrived (Early.run inline h).log).Perm (earlyHandled (Early.run inline h).log ++ earlyWaiting (Early.run inline h).tasks) := by
  have c := Early.calm inline h (fun p e hpre ht _ => hp p e hpre ((Early.inv inline p).told.1 ht))
  exact ⟨c.cut, c.lost, c.asked, Early.calm_perm inline h c⟩

/-- **C114** holds for a client whose connection is recovered, if recovered connections skip the middlewares: its socket is connected by
the goroutine that reads the packets. -/
theorem C114_recovered (h : List Early.Ev) :
    (∀ e, .cut e ∉ (Early.run true h).log) ∧ (∀ e, .lost e ∉ (Early.run true h).log) ∧
    (∀ e, .handled e false ∉ (Early.run true h).log) ∧
    (earlyArrived (Early.run true h).log).Perm (earlyHandled (Early.run true h).log ++ earlyWaiting (Early.run true h).tasks) := by
  have c := Early.calm true h (fun p e _ _ hd => hd rfl)
  exact ⟨c.cut, c.lost, c.asked, Early.calm_perm true h c⟩

theorem early_prefixes (i : Bool) (h : List Early.Ev) (H : ∀ k < h.length + 1, ∀ e, h[k]? = some (.recv e) → (Early.run i (h.take k)).pc = .done) :
    HandlerFirst i h := by
  intro p e hp _
  have hlen := hp.length_le
  simp only [List.length_append, List.length_cons, List.length_nil] at hlen
  obtain ⟨t, ht⟩ := hp
  have h1 : h.take p.length = p := by rw [← ht]; simp
  have h2 : h[p.length]? = some (.recv e) := by rw [← ht]; simp
  have := H p.length (by omega) e h2
  rwa [h1] at this

/-- Two packets of a patient client are handled. -/
example : ∃ h, HandlerFirst false h ∧ earlyHandled (Early.run false h).log = [2, 1] ∧ earlyWaiting (Early.run false h).tasks = [] := by
  refine ⟨[.conn, .conn, .conn, .conn, .recv 1, .recv 2, .adv 1, .adv 1, .adv 0, .adv 0], early_prefixes _ _ ?_, by decide, by decide⟩
  intro k hk e he
  have : k = 4 ∨ k = 5 := by
    rcases k with _ | _ | _ | _ | _ | _ | _ | _ | _ | _ | k <;> simp at he <;> omega
  rcases this with rfl | rfl <;> decide

example : earlyHandled (Early.run true [.conn, .recv 0, .conn, .conn, .conn, .recv 1, .adv 0, .adv 0]).log = [1] := by decide

/-- **C114 fails**: the client was told that it is connected and sends an event; the server has not noted the socket yet, takes the event for
a violation of the protocol and closes the connection. -/
theorem C114_cut_fails : ∃ h, (Early.run false h).log = [.told, .arrived 0, .cut 0] ∧ (Early.run false h).isOpen = false :=
  ⟨[.conn, .recv 0], by decide, by decide⟩

/-- **C114 fails**: an event that is read before the program's handler of `connection` has added its listener is lost. -/
theorem C114_lost_fails : ∃ h, (Early.run false h).log = [.told, .arrived 0, .lost 0] ∧ (Early.run false h).pc = .done :=
  ⟨[.conn, .conn, .recv 0, .adv 0, .adv 0, .conn, .conn], by decide, by decide⟩

/-- **C114 fails**: an event that is read before the handler has added its middleware passes by the middleware and reaches the listener. -/
theorem C114_gate_fails : ∃ h, (Early.run false h).log = [.told, .arrived 0, .handled 0 false] :=
  ⟨[.conn, .conn, .recv 0, .adv 0, .conn, .conn, .adv 0], by decide⟩

end Verif.Props
