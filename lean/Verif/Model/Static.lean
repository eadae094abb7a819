import Verif.Lib.ListExtra

/-!
# Serving the client files (socket/server.go:234-238, 375-449)

Texts are lists of characters.  The functions of `path/filepath` are those of Unix.  Compression and the copying of the file
(socket/server.go:449-502) are not modelled: the answer is which file is opened.
-/

namespace Verif.Static

abbrev Text := List Char

/-- `strings.TrimRight(v, "/")`, used by `SetPath` (socket/server.go:235). -/
def trimRight (v : Text) : Text := (v.reverse.dropWhile (· == '/')).reverse

/-- The names that `socket\.io(\.msgpack|\.esm)?(\.min)?\.js(\.map)?` describes (socket/server.go:236). -/
def names : List Text :=
  ["", ".msgpack", ".esm"].flatMap fun a => ["", ".min"].flatMap fun b => ["", ".map"].map fun c =>
    ("socket.io" ++ a ++ b ++ ".js" ++ c).toList

/-- After the name: `(?:\?|$)`. -/
def ends (rest : Text) : Bool :=
  match rest with
  | [] => true
  | c :: _ => c == '?'

/-- `clientPathRegex.MatchString(p)` (socket/server.go:236): `^` path `/` name, then a question mark or the end. -/
def isClientFile (path p : Text) : Bool :=
  names.any fun n => (path ++ '/' :: n).isPrefixOf p && ends (p.drop (path ++ '/' :: n).length)

/-- `filepath.Base`: without trailing slashes, what follows the last slash; `.` for the empty text, `/` if only slashes. -/
def base (p : Text) : Text :=
  if p = [] then ['.'] else
    match p.reverse.dropWhile (· == '/') with
    | [] => ['/']
    | r => (r.takeWhile (· != '/')).reverse

/-- The parts between slashes. -/
def splitSlash : Text → List Text
  | [] => [[]]
  | c :: l =>
    if c == '/' then [] :: splitSlash l
    else match splitSlash l with
      | [] => [[c]]
      | x :: xs => (c :: x) :: xs

/-- One step of `filepath.Clean` on a rooted path. -/
def push (acc : List Text) (c : Text) : List Text :=
  if c = [] ∨ c = ['.'] then acc else if c = ['.', '.'] then acc.dropLast else acc ++ [c]

/-- A rooted path of these components. -/
def render : List Text → Text
  | [] => ['/']
  | l => l.flatMap fun c => '/' :: c

/-- `filepath.Clean` on a rooted path. -/
def clean (p : Text) : Text := render ((splitSlash p).foldl push [])

/-- `filepath.Join(basePath, "client-dist", filename)`: joined by slashes (none of the three is empty), then cleaned. -/
def join (basePath filename : Text) : Text := clean (basePath ++ "/client-dist/".toList ++ filename)

inductive Answer where
  | methodNotAllowed
  | notModified
  | notFound
  /-- a file is opened and, if that succeeds, its content sent with that type -/
  | file (target : Text) (json : Bool)
deriving DecidableEq, Repr

/-- `sendFile` up to `os.Open` (socket/server.go:433-449).  `exe` is the path of the running program, if it can be found, as its
directory's directory. -/
def sendFile (basePath : Option Text) (filename : Text) (json : Bool) : Answer :=
  match basePath with
  | none => .notFound
  | some b => if b.isPrefixOf (clean (join b filename)) then .file (clean (join b filename)) json else .notFound

/-- Whether `\.map` occurs in a text (socket/server.go:28, 403). -/
def hasMap : Text → Bool
  | [] => false
  | c :: l => ".map".toList.isPrefixOf (c :: l) || hasMap l

/-- `serve` (socket/server.go:397-431). -/
def serve (version : Text) (basePath : Option Text) (method : Text) (ifNoneMatch : Text) (p : Text) : Answer :=
  if method ≠ "GET".toList ∧ method ≠ "HEAD".toList then .methodNotAllowed
  else
    if ifNoneMatch ≠ [] ∧ ('"' :: version ++ ['"'] = ifNoneMatch ∨ 'W' :: '/' :: '"' :: version ++ ['"'] = ifNoneMatch) then .notModified
    else sendFile basePath (base p) (hasMap (base p))

/-- The handler of `attachServe` (socket/server.go:377-393); `none`: the request goes to the engine or to the default handler.  The
CORS middleware is not modelled. -/
def handle (version path : Text) (basePath : Option Text) (method ifNoneMatch p : Text) : Option Answer :=
  if isClientFile path p then some (serve version basePath method ifNoneMatch p) else none

end Verif.Static
