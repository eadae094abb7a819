import Verif.Model.Types

/-!
# Namespaces and parent namespaces: creation and lookup (socket/server.go, socket/parent-namespace.go)

Calls are atomic here; `Model/OfRace` has two concurrent calls of `Of`.  The order in which a map of parent namespaces is
iterated is an argument of the call.  Sockets are in `Model/World`, whose parameter `admit` is what is computed here.
-/

namespace Verif.Registry
open Verif

/-- A namespace: its name, the parent that created it, its middlewares (`_fns`) and its "connect" listeners, both as
numbers. -/
structure Nsp where
  name : String
  parent : Option Nat := none
  fns : List Nat := []
  handlers : List Nat := []
deriving DecidableEq, Repr

/-- A parent namespace (socket/parent-namespace.go:31-36).  `regex`: it was made from a regular expression. -/
structure Parent where
  regex : Bool
  fns : List Nat := []
  handlers : List Nat := []
  children : List Nat := []
deriving DecidableEq, Repr

/-- The server: `_nsps`, all namespaces created so far, `parentNsps` (those with `regex` are also in
`parentNamespacesFromRegExp`), the "new_namespace" events emitted, what clients were told (`some n`: connected to `n`,
`none`: "Invalid namespace"), the `next` functions handed to matchers, the order in which `parentNamespacesFromRegExp` is iterated the
next time a client is connected. -/
structure St where
  nsps : FMap String Nat := [("/", 0)]
  spaces : List Nsp := [{ name := "/" }]
  parents : List Parent := []
  announced : List Nat := []
  answers : List (Nat × Option Nat) := []
  closures : List (Nat × String × Nat) := []
  again : List Nat := []
deriving DecidableEq, Repr

/-- The normalisation at the start of `Of` (socket/server.go:569-580), and for a value that is not a string.  Simplified: the code
looks at the first byte, which is the first character when it is '/'. -/
def normalize (name : Option String) : String :=
  match name with
  | some n => match n.toList with
    | [] => "/"
    | c :: _ => if c = '/' then n else "/" ++ n
  | none => "/"

/-- `CreateChild` (socket/parent-namespace.go:77-103); returns the new namespace.  The clean-up function it installs is the
call `clean`. -/
def createChild (s : St) (k : Nat) (name : String) : St × Nat :=
  match s.parents[k]? with
  | none => (s, s.spaces.length)
  | some p =>
    let n := s.spaces.length
    ({ s with
        spaces := s.spaces ++ [{ name := name, parent := some k, fns := p.fns, handlers := p.handlers }]
        parents := s.parents.set k { p with children := p.children ++ [n] }
        nsps := s.nsps.insert name n
        announced := s.announced ++ [n] }, n)

/-- `On("connect", fn)`. -/
def addHandler (s : St) (n : Nat) (h : Option Nat) : St :=
  match h, s.spaces[n]? with
  | some h, some x => { s with spaces := s.spaces.set n { x with handlers := x.handlers ++ [h] } }
  | _, _ => s

/-- The parents made from a regular expression that matches, in the order of iteration (socket/server.go:587-594). -/
def firstMatch (s : St) (regex : Nat → String → Bool) (name : String) (order : List Nat) : Option Nat :=
  order.find? fun k => match s.parents[k]? with
    | some p => p.regex && regex k name
    | none => false

/-- `Of` with a name (socket/server.go:569-611): the new state and the namespace returned.  When a regular expression
matches, the function returns before the listener is added. -/
def ofName (regex : Nat → String → Bool) (s : St) (name : Option String) (h : Option Nat) (order : List Nat) : St × Nat :=
  let n := normalize name
  match s.nsps.get? n with
  | some i => (addHandler s i h, i)
  | none => match firstMatch s regex n order with
    | some k => createChild s k n
    | none =>
      let i := s.spaces.length
      let s := { s with
        spaces := s.spaces ++ [{ name := n }]
        nsps := s.nsps.insert n i
        announced := if n ≠ "/" then s.announced ++ [i] else s.announced }
      (addHandler s i h, i)

/-- `Of` with a regular expression or a function (socket/server.go:543-567).  Simplified: every call is given another regular
expression or function (the maps are keyed by them, so giving one twice replaces the first parent). -/
def ofParent (s : St) (regex : Bool) (h : Option Nat) : St :=
  { s with parents := s.parents ++ [{ regex := regex, handlers := h.toList }] }

/-- `Client.doConnect` (socket/client.go:120-130): the name is looked up, or created, once more, by `Of`.  What `Add` does with the
client is in `Model/World`. -/
def doConnect (regex : Nat → String → Bool) (s : St) (c : Nat) (name : String) : St :=
  let q := ofName regex s (some name) none s.again
  { q.1 with answers := q.1.answers ++ [(c, some q.2)] }

/-- One call of the `next` given to a matcher of parent `k` for client `c` asking for `name` (socket/server.go:207-222), with
`fn` the callback in `Client.connect` (socket/client.go:99-112). -/
def nextCalled (regex : Nat → String → Bool) (s : St) (c : Nat) (name : String) (k : Nat) (allow : Bool) : St :=
  if allow then
    match s.nsps.get? name with
    | some _ => doConnect regex s c name
    | none => doConnect regex (createChild s k name).1 c name
  else s

/-- The loop over `parentNsps` (socket/server.go:204-224).  `calls k`: the calls of `next` that the matcher of parent `k`
makes before it returns; an error counts as `false`.  The traversal goes on if one of them did not allow.  The last component is
the variable `end`. -/
def traverse (regex : Nat → String → Bool) (calls : Nat → List Bool) (c : Nat) (name : String) : List Nat → St × Bool → St × Bool
  | [], r => r
  | k :: ks, (s, e) =>
    let s := { s with closures := s.closures ++ [(c, name, k)] }
    let s := (calls k).foldl (fun s b => nextCalled regex s c name k b) s
    let e := e && !(calls k).any id
    if (calls k).any not then traverse regex calls c name ks (s, e) else (s, e)

/-- The calls of `next` made by the matcher of parent `k`: that of a regular expression makes one
(socket/server.go:557-559), a function does what it likes. -/
def callsOf (regex : Nat → String → Bool) (s : St) (name : String) (calls : Nat → List Bool) (k : Nat) : List Bool :=
  match s.parents[k]? with
  | some p => if p.regex then [regex k name] else calls k
  | none => []

/-- `Client.connect` (socket/client.go:93-113) with `_checkNamespace` (socket/server.go:203-229).  `order` is the order of
iteration over `parentNsps`; what is not a parent in it is ignored. -/
def connect (regex : Nat → String → Bool) (s : St) (c : Nat) (name : String) (order : List Nat)
    (calls : Nat → List Bool) : St :=
  match s.nsps.get? name with
  | some _ => doConnect regex s c name
  | none =>
    let r := traverse regex (callsOf regex s name calls) c name (order.filter (· < s.parents.length)) (s, true)
    if r.2 then { r.1 with answers := r.1.answers ++ [(c, none)] } else r.1

/-- The clean-up function of a child namespace that has no sockets (socket/parent-namespace.go:87-96): it removes whatever is
registered under its name. -/
def clean (s : St) (n : Nat) : St :=
  match s.spaces[n]? with
  | some { name, parent := some k, .. } =>
    let s := { s with nsps := s.nsps.erase name }
    match s.parents[k]? with
    | some p => { s with parents := s.parents.set k { p with children := p.children.filter (· ≠ n) } }
    | none => s
  | _ => s

/-- Calls. -/
inductive Op where
  | ofName (name : Option String) (h : Option Nat) (order : List Nat)
  | ofParent (regex : Bool) (h : Option Nat)
  | use (n m : Nat)
  | useParent (k m : Nat)
  | on (n h : Nat)
  | onParent (k h : Nat)
  | connect (c : Nat) (name : String) (order : List Nat) (calls : Nat → List Bool)
  /-- the `i`-th `next` function handed to a matcher is called after the matcher has returned -/
  | late (i : Nat) (allow : Bool)
  | clean (n : Nat)
  /-- another order of iteration over `parentNamespacesFromRegExp` -/
  | reorder (again : List Nat)

/-- One call.  `regex k` says which names the regular expression of parent `k` matches. -/
def step (regex : Nat → String → Bool) (s : St) : Op → St
  | .ofName name h order => (ofName regex s name h order).1
  | .ofParent r h => ofParent s r h
  | .use n m => match s.spaces[n]? with
    | some x => { s with spaces := s.spaces.set n { x with fns := x.fns ++ [m] } }
    | none => s
  | .useParent k m => match s.parents[k]? with
    | some p => { s with parents := s.parents.set k { p with fns := p.fns ++ [m] } }
    | none => s
  | .on n h => addHandler s n (some h)
  | .onParent k h => match s.parents[k]? with
    | some p => { s with parents := s.parents.set k { p with handlers := p.handlers ++ [h] } }
    | none => s
  | .connect c name order calls => connect regex s c name order calls
  | .late i allow => match s.closures[i]? with
    | some (c, name, k) => nextCalled regex s c name k allow
    | none => s
  | .clean n => clean s n
  | .reorder l => { s with again := l }

def run (regex : Nat → String → Bool) (h : List Op) : St := h.foldl (step regex) {}

end Verif.Registry
