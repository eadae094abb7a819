import Verif.Model.RoomNews
import Verif.Spec.RoomRace

/-! # The events of rooms under concurrent calls -/

namespace Verif.Spec
open Verif.RoomNews

variable [SetLib]

/-- What has been announced, in order. -/
def announced (h : List RoomRace.Ev) : List News := (RoomNews.run h).news.map (·.2)

/-- The goroutine is in no call. -/
def FreeNow (s : RoomNews.St) (k : Nat) : Prop := (s.tab.th k).2 = .done ∧ s.due k = none

/-- No call is under way. -/
def AllFree (s : RoomNews.St) : Prop := ∀ k, FreeNow s k

/-- The calls for each socket are made one after the other, by free goroutines.  Calls for different sockets overlap as they like. -/
def OneByOneNews (h : List RoomRace.Ev) : Prop :=
  ∀ p k id c t, h = p ++ .call k id c :: t → FreeNow (RoomNews.run p) k ∧
    ∀ k', ((RoomNews.run p).tab.th k').1 = id → FreeNow (RoomNews.run p) k'

/-- What has been announced about socket `id` and room `r`: `true` for `join-room`, `false` for `leave-room`. -/
def comings (r id : Nat) : List News → List Bool
  | [] => []
  | .joined r' id' :: l => if r' = r ∧ id' = id then true :: comings r id l else comings r id l
  | .left r' id' :: l => if r' = r ∧ id' = id then false :: comings r id l else comings r id l
  | _ :: l => comings r id l

/-- `join-room`, `leave-room`, `join-room`, and so on. -/
def Alternates (l : List Bool) : Prop := ∀ i b, l[i]? = some b → b = decide (i % 2 = 0)

end Verif.Spec
