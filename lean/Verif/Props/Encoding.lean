import Verif.Proof.Encoding

/-!
# C104: a client file is sent in an encoding the client accepts
-/

namespace Verif.Props
open Verif Verif.Static Verif.Spec Verif.Encoding

/-- **C104 (partial)**: for a request that names usual codings and refuses none, the file is encoded with one the request accepts.  If it
accepts one of gzip, deflate, br, zstd, the first of them in this order is taken, whatever their weights; otherwise the file is
sent as it is.
Missing: codings that are refused (`C104_refused_fails`) or unknown (`C104_unknown_fails`). -/
theorem C104_partial (l : List Coding) (hl : ∀ i ∈ l, i.usual) (hr : ∀ i ∈ l, ¬ i.refused) :
    (∀ c, choose (headerOf l) = some c → Accepted l c ∧
      ∃ a b, ["gzip".toList, "deflate".toList, "br".toList, "zstd".toList] = a ++ c :: b ∧ ∀ x ∈ a, ¬ Accepted l x) ∧
    (choose (headerOf l) = none → ∀ c ∈ ["gzip".toList, "deflate".toList, "br".toList, "zstd".toList], ¬ Accepted l c) := by
  have key : ∀ p ∈ codings, contains (headerOf l) p = true ↔ Accepted l p := fun p hp => by
    rw [contains_header hp l hl]
    exact ⟨fun ⟨i, hi, h⟩ => ⟨i, hi, h, hr i hi⟩, fun ⟨i, hi, h, _⟩ => ⟨i, hi, h⟩⟩
  constructor
  · intro c hc
    obtain ⟨h1, a, b, h2, h3⟩ := List.find?_eq_some_iff_append.1 hc
    refine ⟨(key c (by rw [h2]; simp)).1 h1, a, b, h2, fun x hx hA => ?_⟩
    have := h3 x hx
    rw [(key x (by rw [h2]; simp [hx])).2 hA] at this
    cases this
  · intro hn c hc hA
    have := List.find?_eq_none.1 hn c hc
    exact this ((key c hc).2 hA)

/-- Non-vacuity: what browsers send, and a request that wants brotli rather than gzip, and gets gzip. -/
example : (∀ i ∈ [Coding.mk "br".toList (some "1.0".toList), ⟨"gzip".toList, some "0.8".toList⟩, ⟨"*".toList, none⟩], i.usual) ∧
    choose (headerOf [⟨"br".toList, some "1.0".toList⟩, ⟨"gzip".toList, some "0.8".toList⟩, ⟨"*".toList, none⟩]) = some "gzip".toList ∧
    choose (headerOf [⟨"br".toList, none⟩, ⟨"zstd".toList, none⟩]) = some "br".toList ∧
    choose (headerOf [⟨"identity".toList, none⟩]) = none := by
  refine ⟨?_, by decide, by decide, by decide⟩
  intro i hi
  simp only [List.mem_cons, List.not_mem_nil, or_false] at hi
  rcases hi with rfl | rfl | rfl
  · exact ⟨by decide, fun w hw => by cases hw; decide⟩
  · exact ⟨by decide, fun w hw => by cases hw; decide⟩
  · exact ⟨by decide, fun w hw => by cases hw⟩

example : ¬ (Coding.mk "br".toList (some "1.0".toList)).refused := by
  rintro ⟨w, hw, h⟩
  cases hw
  revert h
  decide

/-- **C104 fails** for a request that refuses gzip: it is sent gzip. -/
theorem C104_refused_fails : ∃ l : List Coding, (∀ i ∈ l, i.usual) ∧ headerOf l = "gzip;q=0, br".toList ∧
    choose (headerOf l) = some "gzip".toList ∧ ¬ Accepted l "gzip".toList ∧ Accepted l "br".toList := by
  refine ⟨[⟨"gzip".toList, some "0".toList⟩, ⟨"br".toList, none⟩], ?_, by decide, by decide, ?_, ⟨⟨"br".toList, none⟩, by decide, rfl, ?_⟩⟩
  · intro i hi
    simp only [List.mem_cons, List.not_mem_nil, or_false] at hi
    rcases hi with rfl | rfl
    · exact ⟨by decide, fun w hw => by cases hw; decide⟩
    · exact ⟨by decide, fun w hw => by cases hw⟩
  · rintro ⟨i, hi, h, hr⟩
    simp only [List.mem_cons, List.not_mem_nil, or_false] at hi
    rcases hi with rfl | rfl
    · exact hr ⟨_, rfl, by decide⟩
    · revert h; decide
  · rintro ⟨w, hw, _⟩
    cases hw

/-- **C104 fails** for a coding whose name has that of another in it (`dcb`, `dcz` do not, `vibrant` would). -/
theorem C104_unknown_fails : ∃ l : List Coding, headerOf l = "vibrant".toList ∧ choose (headerOf l) = some "br".toList ∧
    ¬ Accepted l "br".toList := by
  refine ⟨[⟨"vibrant".toList, none⟩], by decide, by decide, ?_⟩
  rintro ⟨i, hi, h, -⟩
  simp only [List.mem_cons, List.not_mem_nil, or_false] at hi
  subst hi
  revert h; decide

end Verif.Props
