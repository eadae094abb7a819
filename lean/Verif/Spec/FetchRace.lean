import Verif.Model.FetchRace
import Verif.Spec.CastRace
import Verif.Spec.Returns

/-! # `FetchSockets` while other things happen -/

namespace Verif.Spec
open Verif.FetchRace

/-- In `p`, then a call of `FetchSockets`, then `q`, the call begins after `p` and has returned at the end of `q`, and `q` has no other. -/
structure WholeFetch (p : List FetchRace.Ev) (rooms except order : List Nat) (q : List FetchRace.Ev) : Prop where
  begins : (FetchRace.run p).pc = .idle
  ends : (FetchRace.run (p ++ .fetch rooms except order :: q)).pc = .idle
  one : ∀ r x o, .fetch r x o ∉ q

/-- Everything after the call. -/
def fetched (p : List FetchRace.Ev) (rooms except order : List Nat) (q : List FetchRace.Ev) : FetchRace.St :=
  FetchRace.run (p ++ .fetch rooms except order :: q)

/-- The sockets that the call returns. -/
def fetchedIds (p : List FetchRace.Ev) (rooms except order : List Nat) (q : List FetchRace.Ev) : List Nat :=
  (fetched p rooms except order q).result.map (·.1)

/-- What holds at every moment from the beginning of the call until the end of `q`. -/
def WhileFetching (p : List FetchRace.Ev) (rooms except order : List Nat) (q : List FetchRace.Ev) (P : FetchRace.St → Prop) : Prop :=
  ∀ q₁ q₂, q = q₁ ++ q₂ → P (fetched p rooms except order q₁)

/-- What holds until the loop has come to socket `id`. -/
def UntilFetched (p : List FetchRace.Ev) (rooms except order : List Nat) (q : List FetchRace.Ev) (id : Nat) (P : FetchRace.St → Prop) : Prop :=
  WhileFetching p rooms except order q fun s => id ∉ s.cast.sent → P s

/-- The socket is leaving all rooms. -/
def leavingAll : RoomRace.PC → Bool
  | .a0 | .a1 _ | .a2 _ | .e2 .. | .e3 .. | .e4 .. | .e5 .. => true
  | _ => false

/-- At some moment of the call the rooms of socket `id` are just these. -/
def HadRooms (p : List FetchRace.Ev) (rooms except order : List Nat) (q : List FetchRace.Ev) (id : Nat) (rs : List Nat) : Prop :=
  ∃ q₁ q₂ : List FetchRace.Ev, q = q₁ ++ q₂ ∧ ∀ g, g ∈ rs ↔ HasRoom (fetched p rooms except order q₁).cast.tab id g

end Verif.Spec
