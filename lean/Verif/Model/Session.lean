import Verif.Model.Values

/-!
# The session-aware adapter (socket/session-aware-adapter.go)

Time is an integer number of milliseconds given to each call (`time.Now().UnixMilli()`).  The ids made
by `utils.YeastDate()` are `yeast 0, yeast 1, ...` for a function `yeast` that is a parameter.
-/

namespace Verif.Session
open Verif

abbrev Pid := String

/-- `SessionToPersist` (socket/adapter-type.go:48-53). -/
structure Sess where
  sid : Sid
  pid : Pid
  rooms : List Room
  data : Option Val := none
deriving DecidableEq, Repr

/-- `PersistedPacket` (socket/adapter-type.go:61-66). -/
structure Stored where
  id : String
  emittedAt : Int
  data : List Val
  opts : Option Opts
deriving DecidableEq, Repr

/-- The fields `sessions` and `packets` of `sessionAwareAdapter`
(socket/session-aware-adapter.go:15-22) and the number of ids generated so far.  A
`SessionWithTimestamp` is a pair. -/
structure St where
  sessions : FMap Pid (Sess × Int) := []
  packets : List Stored := []
  next : Nat := 0
deriving DecidableEq, Repr

/-- Parameters: `maxDisconnectionDuration` (socket/session-aware-adapter.go:52-56) and the id
generator. -/
structure Cfg where
  max : Int
  yeast : Nat → String

/-- The session part of the clean-up timer (socket/session-aware-adapter.go:60-65). -/
def pruneSessions (threshold : Int) (m : FMap Pid (Sess × Int)) : FMap Pid (Sess × Int) :=
  m.filter (fun p => !decide (p.2.2 < threshold))

/-- The packet part of the clean-up timer (socket/session-aware-adapter.go:66-68):
`RangeAndSplice` with `reverse = true` looks from the end for the first packet older than the
threshold, at index `i`, and removes the elements `0..i`. -/
def prunePackets (threshold : Int) : List Stored → List Stored
  | [] => []
  | p :: ps =>
    if ps.any (fun q => decide (q.emittedAt < threshold)) then prunePackets threshold ps
    else if p.emittedAt < threshold then ps
    else p :: ps

/-- The timer callback (socket/session-aware-adapter.go:58-69). -/
def tick (c : Cfg) (now : Int) (s : St) : St :=
  { s with sessions := pruneSessions (now - c.max) s.sessions,
           packets := prunePackets (now - c.max) s.packets }

/-- `PersistSession` (socket/session-aware-adapter.go:74-76). -/
def persist (now : Int) (x : Sess) (s : St) : St :=
  { s with sessions := s.sessions.insert x.pid (x, now) }

/-- The loop of `shouldIncludePacket` (socket/session-aware-adapter.go:149-159) over the keys of the
session's room set. -/
def includeLoop (rooms except : List Room) : List Room → Bool → Bool → Bool × Bool
  | [], inc, notEx => (inc, notEx)
  | r :: rs, inc, notEx =>
    if inc && !notEx then (inc, notEx)
    else
      let inc' := if !inc && decide (r ∈ rooms) then true else inc
      let notEx' := if notEx && decide (r ∈ except) then false else notEx
      includeLoop rooms except rs inc' notEx'

/-- `shouldIncludePacket` (socket/session-aware-adapter.go:146-161); `none` is the nil-pointer panic
for nil options or nil sets.  Simplified: a nil `Except` set panics in the code only if the session
has a room; the model lets it panic always. -/
def shouldInclude (sessionRooms : List Room) (opts : Option Opts) : Option Bool :=
  match opts with
  | some { rooms := some rooms, except := some except, .. } =>
    let p := includeLoop rooms except sessionRooms (rooms.length = 0) true
    some (p.1 && p.2)
  | _ => none

/-- The part of the list after the first packet with the given offset
(socket/session-aware-adapter.go:93-106); `none` if there is none. -/
def afterOffset (offset : String) : List Stored → Option (List Stored)
  | [] => none
  | p :: ps => if p.id = offset then some ps else afterOffset offset ps

/-- Outcome of `RestoreSession`. -/
inductive Restored where
  | none
  | ok (s : Sess) (missed : List (List Val))
  | panic
deriving DecidableEq, Repr

/-- The loop that collects the missed packets (socket/session-aware-adapter.go:106-115). -/
def collect (rooms : List Room) : List Stored → Option (List (List Val))
  | [] => some []
  | p :: ps =>
    match shouldInclude rooms p.opts, collect rooms ps with
    | some true, some l => some (p.data :: l)
    | some false, some l => some l
    | _, _ => none

/-- `RestoreSession` (socket/session-aware-adapter.go:78-122). -/
def restore (c : Cfg) (now : Int) (pid : Pid) (offset : String) (s : St) : St × Restored :=
  match s.sessions.get? pid with
  | none => (s, .none)
  | some (x, disconnectedAt) =>
    if disconnectedAt + c.max < now then
      ({ s with sessions := s.sessions.erase pid }, .none)
    else match afterOffset offset s.packets with
      | none => (s, .none)
      | some ps => match collect x.rooms ps with
        | some missed => (s, .ok x missed)
        | none => (s, .panic)

/-- `notVolatile` (socket/session-aware-adapter.go:129). -/
def notVolatile (opts : Option Opts) : Bool :=
  match opts with
  | some { flags := some f, .. } => !f.volatile
  | _ => true

/-- The storing part of `Broadcast` (socket/session-aware-adapter.go:124-142): returns the packet that
is then passed to the base adapter's `Broadcast`.  A packet whose data is not an array panics in the
code (type assertion); here it is passed through unchanged (EVENT packets made by the library always
carry an array). -/
def broadcast (c : Cfg) (now : Int) (p : Pkt) (opts : Option Opts) (s : St) : St × Pkt :=
  match p.data with
  | .args l =>
    if p.type = .event ∧ p.id = none ∧ notVolatile opts = true then
      let id := c.yeast s.next
      let l' := l ++ [Val.str id]
      ({ s with packets := s.packets ++ [⟨id, now, l', opts⟩], next := s.next + 1 },
       { p with data := .args l' })
    else (s, p)
  | _ => (s, p)

/-- The calls that reach the session store. -/
inductive Op where
  | persist (x : Sess)
  | broadcast (p : Pkt) (opts : Option Opts)
  | tick
  | restore (pid : Pid) (offset : String)
deriving DecidableEq, Repr

/-- One call at time `now`. -/
def step (c : Cfg) (s : St) (now : Int) : Op → St
  | .persist x => persist now x s
  | .broadcast p opts => (broadcast c now p opts s).1
  | .tick => tick c now s
  | .restore pid offset => (restore c now pid offset s).1

/-- A whole history: calls with the time at which they run, oldest first. -/
def run (c : Cfg) (h : List (Int × Op)) : St :=
  h.foldl (fun s e => step c s e.1 e.2) {}

end Verif.Session
