import Verif.Model.AskRace

/-! One request to the cluster while servers answer, come and leave (C94). -/

namespace Verif.Spec
open Verif Verif.AskRace

/-- The request is, or was, where answers find it. -/
def Lodged (s : AskRace.St) : Prop := s.asker = .publish ∨ (s.asker = .done ∧ s.asked ≠ none)

/-- Nothing is under way any more, except perhaps the timer. -/
def AtRest (s : AskRace.St) : Prop := s.asker = .done ∧ (∀ t ∈ s.ths, t.pc = .done) ∧ (s.tmo = .idle ∨ s.tmo = .done)

/-- The timer does not go off before the request is where answers find it. -/
def FiresLate (kind : Heartbeat.Kind) (here : List Val) (h : List AskRace.Ev) : Prop :=
  ∀ a b, h = a ++ .fire :: b → (AskRace.run kind here a).timer = .armed → Lodged (AskRace.run kind here a)

/-- Server `u` answers the request. -/
def Answers (kind : Heartbeat.Kind) (here : List Val) (h : List AskRace.Ev) (u : String) : Prop :=
  ∃ a l b, h = a ++ .respond u l :: b ∧ (AskRace.run kind here a).asker = .done

/-- Server `u` is found to be gone after the request is where answers find it. -/
def LeavesLater (kind : Heartbeat.Kind) (here : List Val) (h : List AskRace.Ev) (u : String) : Prop :=
  ∃ a b, h = a ++ .leave u :: b ∧ Lodged (AskRace.run kind here a)

/-- The request was found in the table and is still worked on. -/
def InHand (t : AskRace.Th) : Prop := t.pc ≠ .load ∧ t.pc ≠ .forget ∧ t.pc ≠ .done

/-- No two of the answers, departures and the timer work on the request at the same time. -/
def OneInHand (s : AskRace.St) : Prop :=
  (∀ (i j : Nat) t u, s.ths[i]? = some t → s.ths[j]? = some u → InHand t → InHand u → i = j) ∧
  ∀ t ∈ s.ths, InHand t → s.tmo ≠ .call ∧ s.tmo ≠ .erase

/-- … at any time of history `h`. -/
def NoOverlap (kind : Heartbeat.Kind) (here : List Val) (h : List AskRace.Ev) : Prop :=
  ∀ a b, h = a ++ b → OneInHand (AskRace.run kind here a)

end Verif.Spec
