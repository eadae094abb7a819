import Verif.Model.Parent
import Verif.Spec.Targeting

/-! # Who gets what when a parent namespace emits -/

namespace Verif.Spec
open Verif

/-- The sockets of the child that are selected, and no others, have received one packet each, an event with these arguments for
that namespace.  Of the child nothing else changed but what it keeps for recovery. -/
def Received (ch ch' : Parent.Child) (rooms except : List String) (data : List Val) : Prop :=
  ch'.name = ch.name ∧
  ∃ (ids : List String) (ptr : String → Nat), ids.Nodup ∧
    (∀ s, s ∈ ids ↔ Selected (fun s => ∃ ref, ch.nsp.sockets.get? s = some ref)
      (fun s r => ∃ l, ch.nsp.ad.sids.get? s = some l ∧ r ∈ l) rooms except s) ∧
    (∀ s ∈ ids, ch.nsp.sockets.get? s = some (ptr s)) ∧
    ch'.nsp = { ch.nsp with out := ch.nsp.out ++ ids.map (fun s => (ptr s, (⟨.event, ch.name, .args data, none⟩ : Pkt))) }

/-- The offset a session-aware child appends to the arguments of the next event it broadcasts, unless that is volatile. -/
def offsetOf (cfg : Session.Cfg) (volatile : Bool) (ch : Parent.Child) : List Val :=
  if volatile then [] else match ch.store with
  | some st => [Val.str (cfg.yeast st.next)]
  | none => []

/-- What the child keeps for clients that lost their connection: the event as it was sent, at the end, under its own offset; nothing
if the event is volatile or the child has no recovery. -/
def KeptFor (cfg : Session.Cfg) (now : Int) (rooms except : List String) (flags : Flags) (ch ch' : Parent.Child) (data : List Val) : Prop :=
  match ch.store with
  | none => ch'.store = none
  | some st => if flags.volatile then ch'.store = some st else
      ∃ st', ch'.store = some st' ∧ st'.sessions = st.sessions ∧ st'.next = st.next + 1 ∧
        st'.packets = st.packets ++ [⟨cfg.yeast st.next, now, data,
          some { rooms := some rooms, except := some except, flags := some flags }⟩]

end Verif.Spec
