import Verif.Proof.Static

/-! # C51: static files -/

namespace Verif.Props
open Verif Verif.Spec Verif.Static

/-- **C51, methods**: any other method than GET and HEAD is refused, and nothing is opened. -/
theorem C51_methods (version path : Text) (basePath : Option Text) (method ifNoneMatch p : Text)
    (hm : method ≠ "GET".toList ∧ method ≠ "HEAD".toList) :
    handle version path basePath method ifNoneMatch p = none ∨
    handle version path basePath method ifNoneMatch p = some .methodNotAllowed := by
  unfold handle serve
  rw [if_pos hm]
  split <;> simp

/-- **C51, which requests**: the static handler answers exactly the requests for one of the twelve files of the bundle below the
configured path, possibly followed by a question mark and anything. -/
theorem C51_which (version path : Text) (basePath : Option Text) (method ifNoneMatch p : Text) :
    (handle version path basePath method ifNoneMatch p).isSome ↔
    ∃ n ∈ bundle, ∃ rest, p = path ++ '/' :: n ++ rest ∧ (rest = [] ∨ ∃ q, rest = '?' :: q) := by
  unfold handle
  have hi := isClientFile_iff path p
  constructor
  · intro h
    split at h
    · rename_i hc
      obtain ⟨n, hn, r⟩ := hi.mp hc
      exact ⟨n, (names_ok n hn).1, r⟩
    · cases h
  · rintro ⟨n, hn, r⟩
    rw [if_pos (hi.mpr ⟨n, (bundle_ok n hn).1, r⟩)]
    rfl

/-- **C51, entity tags**: a GET or HEAD is answered "not modified" exactly when the tag sent is that of the version, strong or
weak. -/
theorem C51_not_modified (version path : Text) (basePath : Option Text) (method ifNoneMatch p : Text)
    (hm : method = "GET".toList ∨ method = "HEAD".toList) (hp : (handle version path basePath method ifNoneMatch p).isSome) :
    handle version path basePath method ifNoneMatch p = some .notModified ↔
    ifNoneMatch = "\"".toList ++ version ++ "\"".toList ∨ ifNoneMatch = "W/\"".toList ++ version ++ "\"".toList := by
  have hm' : ¬ (method ≠ "GET".toList ∧ method ≠ "HEAD".toList) := by
    rintro ⟨h1, h2⟩; rcases hm with h | h
    · exact h1 h
    · exact h2 h
  unfold handle at hp ⊢
  split at hp
  · rename_i hc
    rw [if_pos hc]
    unfold serve
    rw [if_neg hm']
    have e1 : "\"".toList ++ version ++ "\"".toList = '"' :: version ++ ['"'] := by simp
    have e2 : "W/\"".toList ++ version ++ "\"".toList = 'W' :: '/' :: '"' :: version ++ ['"'] := by simp
    rw [e1, e2]
    constructor
    · intro h
      split at h
      · rename_i hc2
        rcases hc2.2 with hc2 | hc2
        · exact .inl hc2.symm
        · exact .inr hc2.symm
      · unfold sendFile at h
        split at h
        · cases h
        · split at h <;> cases h
    · rintro (rfl | rfl)
      · rw [if_pos ⟨by simp, .inl rfl⟩]
      · rw [if_pos ⟨by simp, .inr rfl⟩]
  · cases hp

/-- **C51, partial**: a request without a question mark in its path opens that very file of the bundle in the client directory, with
the type its name says. -/
theorem C51_file_partial (version path : Text) (b : List Text) (hb : ∀ c ∈ b, Proper c) (method ifNoneMatch p target : Text)
    (json : Bool) (hq : '?' ∉ p) (h : handle version path (some (render b)) method ifNoneMatch p = some (.file target json)) :
    ∃ n ∈ bundle, p = path ++ '/' :: n ∧ target = slashed (b ++ ["client-dist".toList, n]) ∧
      (json = true ↔ ∃ m, n = m ++ ".map".toList) := by
  unfold handle at h
  split at h
  · rename_i hc
    obtain ⟨n, hn, rest, rfl, hr⟩ := (isClientFile_iff path p).mp hc
    obtain ⟨hnb, hn0, hns, _⟩ := names_ok n hn
    have hrest : rest = [] := by
      rcases hr with rfl | ⟨q, rfl⟩
      · rfl
      · exact absurd (by simp) hq
    subst hrest
    rw [List.append_nil] at h
    refine ⟨n, hnb, by simp, ?_⟩
    unfold serve at h
    split at h
    · cases h
    · split at h
      · cases h
      · rw [base_append path n hn0 hns, sendFile_eq b hb n hns] at h
        simp only [Option.some.injEq, Answer.file.injEq] at h
        obtain ⟨h1, h2⟩ := h
        have hpr : Proper n := (bundle_ok n hnb).2
        refine ⟨?_, ?_⟩
        · rw [← h1, push_proper _ _ hpr, render_ne (by simp)]
          simp
        · rw [← h2]
          have : ∀ n ∈ bundle, (hasMap n = true ↔ ".map".toList.isSuffixOf n = true) := by decide
          rw [this n hnb, List.isSuffixOf_iff_suffix]
          exact ⟨fun ⟨m, h⟩ => ⟨m, h.symm⟩, fun ⟨m, h⟩ => ⟨m, h.symm⟩⟩
  · cases h

/-- **C51, partial**: whatever the request, what is opened is a file directly in the client directory, or that directory, or, if
the path ends in `..`, the directory above it; never anything else. -/
theorem C51_inside_partial (version path : Text) (b : List Text) (hb : ∀ c ∈ b, Proper c) (method ifNoneMatch p target : Text)
    (json : Bool) (h : handle version path (some (render b)) method ifNoneMatch p = some (.file target json)) :
    (∃ f, Proper f ∧ target = slashed (b ++ ["client-dist".toList, f])) ∨
    target = slashed (b ++ ["client-dist".toList]) ∨
    (target = render b ∧ ∃ q, p = q ++ '/' :: ['.', '.'] ∨ ∃ t, p = q ++ '/' :: ['.', '.'] ++ '/' :: t ∧ ∀ c ∈ t, c = '/') := by
  unfold handle at h
  split at h
  · rename_i hc
    obtain ⟨n, hn, rest, hp, hr⟩ := (isClientFile_iff path p).mp hc
    obtain ⟨hnb, hn0, hns, _⟩ := names_ok n hn
    have hex : ∃ c ∈ p, c ≠ '/' := by
      cases n with
      | nil => exact absurd rfl hn0
      | cons c n => exact ⟨c, by rw [hp]; simp, fun e => hns (by rw [e]; simp)⟩
    have hs := base_noSlash p hex
    unfold serve at h
    split at h
    · cases h
    · split at h
      · cases h
      · rw [sendFile_eq b hb _ hs] at h
        simp only [Option.some.injEq, Answer.file.injEq] at h
        obtain ⟨h1, _⟩ := h
        obtain ⟨_, hcase⟩ := push_cases b hb (base p) hs
        rcases hcase with ⟨e, _⟩ | ⟨e, hdd⟩ | ⟨e, hpf⟩
        · rw [e, render_ne (by simp)] at h1; exact .inr (.inl h1.symm)
        · rw [e] at h1
          refine .inr (.inr ⟨h1.symm, ?_⟩)
          have hp0 : p ≠ [] := by rw [hp]; simp
          unfold base at hdd
          rw [if_neg hp0] at hdd
          have hsplit := List.takeWhile_append_dropWhile (p := (· == '/')) (l := p.reverse)
          have hall : ∀ c ∈ p.reverse.takeWhile (· == '/'), c = '/' := by
            intro c hc; have := mem_takeWhile hc; simpa using this
          generalize p.reverse.takeWhile (· == '/') = tr at hsplit hall
          split at hdd
          · cases hdd
          · rename_i r hr0
            have hsplit2 := List.takeWhile_append_dropWhile (p := (· != '/')) (l := p.reverse.dropWhile (· == '/'))
            have htw : (p.reverse.dropWhile (· == '/')).takeWhile (· != '/') = ['.', '.'] := by
              have := congrArg List.reverse hdd
              simpa using this
            rw [htw] at hsplit2
            generalize hdw : (p.reverse.dropWhile (· == '/')).dropWhile (· != '/') = dw at hsplit2
            have hpr : p = dw.reverse ++ ['.', '.'] ++ tr.reverse := by
              have := congrArg List.reverse hsplit
              rw [List.reverse_reverse, ← hsplit2] at this
              rw [← this]; simp
            -- what precedes the two dots begins (from the right) with a slash, as the path contains a name
            cases dw with
            | nil =>
              exfalso
              have hmem : ∀ c ∈ p, c = '.' ∨ c = '/' := by
                intro c hc
                rw [hpr] at hc
                simp only [List.reverse_nil, List.nil_append, List.mem_append, List.mem_reverse] at hc
                rcases hc with hc | hc
                · left; simpa using hc
                · right; exact hall c hc
              have : ∃ c ∈ n, ¬ (c = '.' ∨ c = '/') := by
                have : ∀ n ∈ names, ∃ c ∈ n, ¬ (c = '.' ∨ c = '/') := by decide
                exact this n hn
              obtain ⟨c, hc, hne⟩ := this
              exact hne (hmem c (by rw [hp]; simp [hc]))
            | cons c dw =>
              have hc : c = '/' := by
                by_cases hce : c = '/'
                · exact hce
                · exfalso
                  have hdd2 : ∀ (l : Text) (x : Char) (xs : Text), l.dropWhile (· != '/') = x :: xs → x = '/' := by
                    intro l
                    induction l with
                    | nil => intro x xs h; cases h
                    | cons y l ih =>
                      intro x xs h
                      rw [List.dropWhile_cons] at h
                      split at h
                      · exact ih x xs h
                      · rename_i hy
                        cases h; simpa using hy
                  exact hce (hdd2 _ _ _ hdw)
              subst hc
              refine ⟨dw.reverse, ?_⟩
              cases htr : tr.reverse with
              | nil => left; rw [hpr, htr]; simp
              | cons d t =>
                right
                have hd : d = '/' := hall d (by rw [← List.mem_reverse, htr]; simp)
                subst hd
                refine ⟨t, by rw [hpr, htr]; simp, fun c hc => hall c (by rw [← List.mem_reverse, htr]; simp [hc])⟩
        · rw [e, render_ne (by simp)] at h1; exact .inl ⟨_, hpf, h1.symm⟩
  · cases h

namespace Demo
def clientPath : Text := "/socket.io".toList
def installed : List Text := ["opt".toList, "app".toList]
end Demo

/-- **C51 fails**: a question mark in the (decoded) path lets the request name other files, and `..` makes the handler open the
directory that contains the client directory: the check of the prefix does not refuse it. -/
theorem C51_fail : ¬ ∀ (version path : Text) (b : List Text), (∀ c ∈ b, Proper c) → ∀ (method ifNoneMatch p target : Text) (json : Bool),
    handle version path (some (render b)) method ifNoneMatch p = some (.file target json) →
    ∃ f, Proper f ∧ target = slashed (b ++ ["client-dist".toList, f]) := by
  intro hall
  obtain ⟨f, _, hf⟩ := hall "4.7.5".toList Demo.clientPath Demo.installed (by decide) "GET".toList []
    "/socket.io/socket.io.js?/..".toList "/opt/app".toList false (by decide)
  have := congrArg List.length hf
  simp [slashed, Demo.installed] at this

example : handle "4.7.5".toList Demo.clientPath (some (render Demo.installed)) "GET".toList "\"4.7.4\"".toList
      "/socket.io/socket.io.esm.min.js.map".toList = some (.file "/opt/app/client-dist/socket.io.esm.min.js.map".toList true) ∧
    (∀ c ∈ Demo.installed, Proper c) ∧
    handle "4.7.5".toList Demo.clientPath (some (render Demo.installed)) "HEAD".toList "W/\"4.7.5\"".toList
      "/socket.io/socket.io.js".toList = some .notModified ∧
    handle "4.7.5".toList Demo.clientPath (some (render Demo.installed)) "POST".toList [] "/socket.io/socket.io.js".toList =
      some .methodNotAllowed ∧
    handle "4.7.5".toList Demo.clientPath (some (render Demo.installed)) "GET".toList [] "/socket.io/socket.io.js?/secret".toList =
      some (.file "/opt/app/client-dist/secret".toList false) := by decide

/-- **C51, `SetPath`**: the path served does not depend on the slashes at the end of the one given. -/
theorem C51_setPath (v t : Text) (ht : ∀ c ∈ t, c = '/') : trimRight (v ++ t) = trimRight v := by
  unfold trimRight
  rw [List.reverse_append]
  congr 1
  have : ∀ l : Text, (∀ c ∈ l, c = '/') → ∀ r : Text, (l ++ r).dropWhile (· == '/') = r.dropWhile (· == '/') := by
    intro l
    induction l with
    | nil => intro _ r; rfl
    | cons c l ih =>
      intro hl r
      have : c = '/' := hl c (by simp)
      subst this
      simp only [List.cons_append, List.dropWhile_cons, beq_self_eq_true, if_true]
      exact ih (fun d hd => hl d (by simp [hd])) r
  exact this _ (fun c hc => ht c (List.mem_reverse.mp hc)) _

example : trimRight "/a/b//".toList = "/a/b".toList := by decide

end Verif.Props
