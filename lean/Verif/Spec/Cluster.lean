import Verif.Model.Cluster

/-! # Which server has to do what -/

namespace Verif.Spec
open Verif

/-- Restricted to the local server. -/
def LocalOnly (o : Option Opts) : Bool := (o.bind (·.flags)).any (·.isLocal)

/-- The targeted and the excepted rooms of an options value; absent ones are empty. -/
def targeted (o : Option Opts) : List Room := (o.bind (·.rooms)).getD []
def excepted (o : Option Opts) : List Room := (o.bind (·.except)).getD []

/-- The packet as it goes to the clients: with connection state recovery, an event without
acknowledgement that is not volatile gets the offset as last argument. -/
def withOffset (recovery : Bool) (offset : String) (o : Option Opts) (p : Pkt) : Pkt :=
  match p with
  | { type := .event, nsp, data := .args l, id := none } =>
    if recovery ∧ ¬ (o.bind (·.flags)).any (·.volatile) then
      { type := .event, nsp, data := .args (l ++ [.str offset]), id := none }
    else p
  | p => p

/-- The options as another server sees them: the same rooms and flags, absent sets being empty. -/
def wire (o : Option Opts) : Option Opts :=
  some { rooms := some (LSet.addAll [] ((o.bind (·.rooms)).getD []))
         except := some (LSet.addAll [] ((o.bind (·.except)).getD [])), flags := o.bind (·.flags) }

/-- What the listeners of another server get for a server-side event: the arguments, the acknowledgement
function replaced by one that answers over the network.  An empty packet is an error; an acknowledgement
that expects no answer is answered at once, nothing is sent. -/
def sseArgs (packet : List Val) (expected req : Nat) : Option (List Val) :=
  match packet.reverse with
  | [] => none
  | .fn _ :: l => if expected = 0 then none else some (l.reverse ++ [.fn req])
  | _ => some packet

/-- What server `j` of `n` has to execute because of a call on server `i`; `res` is the offset with which
it was published, `none` if that failed.
Broadcasts: everywhere, nowhere if publishing failed; joins, leaves and disconnections: everywhere, only on
the calling server if publishing failed; server-side events: on the other servers, never on the calling
one.  With the Local flag: only on the calling server. -/
def due (n : Nat) (recovery : Bool) (j : Nat) : Cluster.Ev → List Cluster.Op
  | .deliver _ => []
  | .call i op res =>
    if i < n ∧ j < n then
      match op with
      | .broadcast p o =>
        if LocalOnly o then (if j = i then [.broadcast p o] else [])
        else match res with
          | none => []
          | some off => [.broadcast (withOffset recovery off o p) (if j = i then o else wire o)]
      | .join o rooms =>
        if j = i then [.join o rooms] else if LocalOnly o ∨ res = none then [] else [.join (wire o) rooms]
      | .leave o rooms =>
        if j = i then [.leave o rooms] else if LocalOnly o ∨ res = none then [] else [.leave (wire o) rooms]
      | .disconnect o close =>
        if j = i then [.disconnect o close]
        else if LocalOnly o ∨ res = none then [] else [.disconnect (wire o) close]
      | .emit packet expected req =>
        if j = i ∨ res = none then [] else ((sseArgs packet expected req).map Cluster.Op.event).toList
    else []

/-- The same as a list for a whole history. -/
def dues (n : Nat) (recovery : Bool) (j : Nat) (h : List Cluster.Ev) : List Cluster.Op :=
  h.flatMap (due n recovery j)

end Verif.Spec
