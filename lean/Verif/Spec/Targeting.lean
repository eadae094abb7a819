/-!
# Specification: which sockets does a selection of rooms designate?
-/

namespace Verif.Spec

/-- Selection by rooms: in at least one targeted room (or no room targeted), and in none of the
excepted rooms.  `inRoom r` says whether the socket (or saved session) is in room `r`. -/
def Matches (rooms except : List String) (inRoom : String → Prop) : Prop :=
  (rooms = [] ∨ ∃ r, r ∈ rooms ∧ inRoom r) ∧ ¬ ∃ r, r ∈ except ∧ inRoom r

/-- A socket is selected when it is connected and matches. -/
def Selected (connected : String → Prop) (inRoom : String → String → Prop)
    (rooms except : List String) (s : String) : Prop :=
  connected s ∧ Matches rooms except (inRoom s)

end Verif.Spec
