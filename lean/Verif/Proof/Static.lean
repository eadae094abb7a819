import Verif.Spec.Static

namespace Verif.Static
open Verif Verif.Spec

theorem splitSlash_ne_nil (p : Text) : splitSlash p ≠ [] := by
  cases p with
  | nil => simp [splitSlash]
  | cons c l =>
    simp only [splitSlash]
    split
    · simp
    · split <;> simp

theorem splitSlash_noSlash (c : Text) (h : '/' ∉ c) : splitSlash c = [c] := by
  induction c with
  | nil => rfl
  | cons x c ih =>
    simp only [List.mem_cons, not_or] at h
    simp [splitSlash, ih h.2, Ne.symm h.1]

theorem splitSlash_append (a b : Text) : splitSlash (a ++ '/' :: b) = splitSlash a ++ splitSlash b := by
  induction a with
  | nil => simp [splitSlash]
  | cons x a ih =>
    simp only [List.cons_append, splitSlash, ih]
    split
    · rfl
    · cases h : splitSlash a with
      | nil => exact absurd h (splitSlash_ne_nil a)
      | cons y ys => simp

theorem splitSlash_slashed (l : List Text) (h : ∀ c ∈ l, '/' ∉ c) : splitSlash (slashed l) = [] :: l := by
  induction l using snocRec with
  | nil => rfl
  | append_singleton l c ih =>
    have : slashed (l ++ [c]) = slashed l ++ '/' :: c := by simp [slashed]
    rw [this, splitSlash_append, ih (fun d hd => h d (by simp [hd])), splitSlash_noSlash c (h c (by simp))]
    simp

theorem push_proper (acc : List Text) (c : Text) (h : Proper c) : push acc c = acc ++ [c] := by
  obtain ⟨h1, _, h3, h4⟩ := h
  simp [push, h1, h3, h4]

theorem foldl_push (l acc : List Text) (h : ∀ c ∈ l, Proper c) : l.foldl push acc = acc ++ l := by
  induction l generalizing acc with
  | nil => simp
  | cons c l ih =>
    rw [List.foldl_cons, push_proper _ _ (h c (by simp)), ih _ (fun d hd => h d (by simp [hd]))]
    simp

theorem push_nil (acc : List Text) : push acc [] = acc := by simp [push]

theorem clean_slashed (l : List Text) (h : ∀ c ∈ l, Proper c) : clean (slashed l) = render l := by
  unfold clean
  rw [splitSlash_slashed l (fun c hc => (h c hc).2.1), List.foldl_cons, push_nil, foldl_push l [] h]
  simp

theorem render_ne {l : List Text} (h : l ≠ []) : render l = slashed l := by
  cases l with
  | nil => exact absurd rfl h
  | cons c l => rfl

theorem clean_render (l : List Text) (h : ∀ c ∈ l, Proper c) : clean (render l) = render l := by
  cases l with
  | nil => rfl
  | cons c l =>
    rw [render_ne (l := c :: l) (by simp), clean_slashed (c :: l) h, render_ne (l := c :: l) (by simp)]

/-- `filepath.Join(basePath, "client-dist", f)` by components. -/
theorem join_eq (b : List Text) (hb : ∀ c ∈ b, Proper c) (f : Text) (hf : '/' ∉ f) :
    join (render b) f = render (push (b ++ ["client-dist".toList]) f) := by
  have hc : Proper "client-dist".toList := by decide
  have h1 : (render b ++ "/client-dist/".toList ++ f) = (render b ++ '/' :: "client-dist".toList) ++ '/' :: f := by
    simp
  unfold join clean
  rw [h1, splitSlash_append, splitSlash_append, splitSlash_noSlash f hf, splitSlash_noSlash _ hc.2.1]
  congr 1
  simp only [List.foldl_append, List.foldl_cons, List.foldl_nil]
  have : (splitSlash (render b)).foldl push [] = b := by
    cases b with
    | nil => rfl
    | cons c l =>
      rw [render_ne (by simp), splitSlash_slashed _ (fun c hc => (hb c hc).2.1), List.foldl_cons, push_nil, foldl_push _ [] hb]
      simp
  rw [this, push_proper _ _ hc]

theorem push_cases (b : List Text) (hb : ∀ c ∈ b, Proper c) (f : Text) (hf : '/' ∉ f) :
    (∀ c ∈ push (b ++ ["client-dist".toList]) f, Proper c) ∧
    (push (b ++ ["client-dist".toList]) f = b ++ ["client-dist".toList] ∧ (f = [] ∨ f = ['.']) ∨
     push (b ++ ["client-dist".toList]) f = b ∧ f = ['.', '.'] ∨
     push (b ++ ["client-dist".toList]) f = b ++ ["client-dist".toList, f] ∧ Proper f) := by
  have hc : Proper "client-dist".toList := by decide
  have hbc : ∀ c ∈ b ++ ["client-dist".toList], Proper c := by
    intro c h
    rcases List.mem_append.mp h with h | h
    · exact hb c h
    · rw [List.mem_singleton.mp h]; exact hc
  unfold push
  split
  · rename_i h; exact ⟨hbc, .inl ⟨rfl, h⟩⟩
  · rename_i h
    split
    · rename_i h2; exact ⟨by rw [List.dropLast_concat]; exact hb, .inr (.inl ⟨List.dropLast_concat, h2⟩)⟩
    · rename_i h2
      have hp : Proper f := ⟨fun e => h (.inl e), hf, fun e => h (.inr e), h2⟩
      refine ⟨?_, .inr (.inr ⟨by simp, hp⟩)⟩
      intro c h
      rcases List.mem_append.mp h with h | h
      · exact hbc c h
      · rw [List.mem_singleton.mp h]; exact hp

theorem isPrefixOf_append (a b : Text) : a.isPrefixOf (a ++ b) = true := by
  induction a with
  | nil => simp
  | cons x a ih => simp [List.isPrefixOf]

theorem render_prefix (b x : List Text) : (render b).isPrefixOf (render (b ++ x)) = true := by
  cases b with
  | nil =>
    cases x with
    | nil => rfl
    | cons c l => simp [render, List.isPrefixOf]
  | cons c l =>
    rw [render_ne (by simp), render_ne (by simp)]
    have : slashed ((c :: l) ++ x) = slashed (c :: l) ++ slashed x := by simp [slashed]
    rw [this]
    exact isPrefixOf_append _ _

/-- What `sendFile` opens. -/
theorem sendFile_eq (b : List Text) (hb : ∀ c ∈ b, Proper c) (f : Text) (hf : '/' ∉ f) (json : Bool) :
    sendFile (some (render b)) f json = .file (render (push (b ++ ["client-dist".toList]) f)) json := by
  obtain ⟨hp, hcase⟩ := push_cases b hb f hf
  simp only [sendFile]
  rw [join_eq b hb f hf, clean_render _ hp]
  refine if_pos ?_
  rcases hcase with ⟨h, _⟩ | ⟨h, _⟩ | ⟨h, _⟩
  · rw [h]; exact render_prefix _ _
  · rw [h]; have := render_prefix b []; rwa [List.append_nil] at this
  · rw [h]; exact render_prefix _ _

theorem mem_takeWhile {α} {p : α → Bool} {l : List α} {x : α} (h : x ∈ l.takeWhile p) : p x = true := by
  induction l with
  | nil => simp at h
  | cons y l ih =>
    rw [List.takeWhile_cons] at h
    split at h
    · rename_i hy
      rcases List.mem_cons.mp h with rfl | h
      · exact hy
      · exact ih h
    · simp at h

theorem dropWhile_nil {α} {p : α → Bool} {l : List α} (h : l.dropWhile p = []) : ∀ x ∈ l, p x = true := by
  induction l with
  | nil => simp
  | cons y l ih =>
    rw [List.dropWhile_cons] at h
    split at h
    · rename_i hy
      intro x hx
      rcases List.mem_cons.mp hx with rfl | hx
      · exact hy
      · exact ih h x hx
    · cases h

/-- A path with something else than slashes has a last component, without slashes. -/
theorem base_noSlash (p : Text) (h : ∃ c ∈ p, c ≠ '/') : '/' ∉ base p := by
  obtain ⟨c, hc, hne⟩ := h
  unfold base
  split
  · simp
  · split
    · rename_i h2
      have := dropWhile_nil h2 c (by simpa using hc)
      simp at this; exact absurd this hne
    · intro hm
      have := mem_takeWhile (List.mem_reverse.mp hm)
      simp at this

theorem takeWhile_noSlash_append (x y : Text) (hx : '/' ∉ x) : (x ++ '/' :: y).takeWhile (· != '/') = x := by
  induction x with
  | nil => simp
  | cons c x ih =>
    simp only [List.mem_cons, not_or] at hx
    simp [List.takeWhile_cons, Ne.symm hx.1, ih hx.2]

/-- The last component of a path that ends in a component. -/
theorem base_append (a n : Text) (hn : n ≠ []) (hs : '/' ∉ n) : base (a ++ '/' :: n) = n := by
  unfold base
  rw [if_neg (by simp)]
  have hr : (a ++ '/' :: n).reverse = n.reverse ++ '/' :: a.reverse := by simp
  have hd : (n.reverse ++ '/' :: a.reverse).dropWhile (· == '/') = n.reverse ++ '/' :: a.reverse := by
    cases hn' : n.reverse with
    | nil => simp at hn'; exact absurd hn' hn
    | cons c l =>
      have : c ∈ n := by rw [← List.mem_reverse, hn']; simp
      have : ¬ c = '/' := fun e => hs (e ▸ this)
      simp [List.dropWhile_cons, this]
  rw [hr, hd]
  have ht := takeWhile_noSlash_append n.reverse a.reverse (by simpa using hs)
  split
  · rename_i h; simp at h
  · rw [ht]; simp

theorem names_ok : ∀ n ∈ names, n ∈ bundle ∧ n ≠ [] ∧ '/' ∉ n ∧ '?' ∉ n := by decide

theorem bundle_ok : ∀ n ∈ bundle, n ∈ names ∧ Proper n := by decide

theorem isPrefixOf_iff (a p : Text) : a.isPrefixOf p = true ↔ ∃ t, p = a ++ t := by
  rw [List.isPrefixOf_iff_prefix]
  exact ⟨fun ⟨t, h⟩ => ⟨t, h.symm⟩, fun ⟨t, h⟩ => ⟨t, h.symm⟩⟩

/-- The pattern, read as a sentence. -/
theorem isClientFile_iff (path p : Text) :
    isClientFile path p = true ↔ ∃ n ∈ names, ∃ rest, p = path ++ '/' :: n ++ rest ∧ (rest = [] ∨ ∃ q, rest = '?' :: q) := by
  unfold isClientFile
  simp only [List.any_eq_true, Bool.and_eq_true, isPrefixOf_iff]
  constructor
  · rintro ⟨n, hn, ⟨t, rfl⟩, h⟩
    rw [List.drop_left] at h
    refine ⟨n, hn, t, rfl, ?_⟩
    cases t with
    | nil => exact .inl rfl
    | cons c q => simp [ends] at h; exact .inr ⟨q, by rw [h]⟩
  · rintro ⟨n, hn, t, rfl, h⟩
    refine ⟨n, hn, ⟨t, rfl⟩, ?_⟩
    rw [List.drop_left]
    rcases h with rfl | ⟨q, rfl⟩
    · rfl
    · simp [ends]

end Verif.Static
