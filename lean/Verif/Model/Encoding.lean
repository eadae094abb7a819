import Verif.Model.Static

/-! # The encoding of a client file (socket/server.go:457-502) -/

namespace Verif.Encoding
open Verif Verif.Static

/-- `strings.Contains(hay, needle)`. -/
def contains : Text → Text → Bool
  | [], needle => needle.isEmpty
  | c :: l, needle => needle.isPrefixOf (c :: l) || contains l needle

/-- The codings `sendFile` knows, in its order (socket/server.go:457). -/
def codings : List Text := ["gzip".toList, "deflate".toList, "br".toList, "zstd".toList]

/-- `utils.Contains(header, codings)` (socket/server.go:457): the first of the codings that is somewhere in the header.  The file is sent
with it as `Content-Encoding`, or as it is (socket/server.go:459-501).  Not modelled: errors of the compressors, the compressed data. -/
def choose (acceptEncoding : Text) : Option Text := codings.find? (contains acceptEncoding ·)

end Verif.Encoding
