import Verif.Model.Static

/-! # Which codings a request accepts -/

namespace Verif.Spec
open Verif Verif.Static

/-- An element of `Accept-Encoding`: a coding and maybe a weight. -/
structure Coding where
  name : Text
  weight : Option Text := none
deriving DecidableEq, Repr

def Coding.text (i : Coding) : Text :=
  match i.weight with
  | none => i.name
  | some w => i.name ++ ";q=".toList ++ w

/-- The header. -/
def headerOf : List Coding → Text
  | [] => []
  | [i] => i.text
  | i :: l => i.text ++ ", ".toList ++ headerOf l

/-- A weight of nothing but zeros refuses the coding. -/
def Coding.refused (i : Coding) : Prop := ∃ w, i.weight = some w ∧ ∀ c ∈ w, c = '0' ∨ c = '.'

/-- The client accepts this coding. -/
def Accepted (l : List Coding) (c : Text) : Prop := ∃ i ∈ l, i.name = c ∧ ¬ i.refused

/-- Codings in use, and weights written with digits and points. -/
def Coding.usual (i : Coding) : Prop :=
  i.name ∈ ["gzip".toList, "deflate".toList, "br".toList, "zstd".toList, "identity".toList, "compress".toList, "*".toList] ∧
  ∀ w, i.weight = some w → ∀ c ∈ w, c ∈ "0123456789.".toList

end Verif.Spec
