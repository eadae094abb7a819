import Verif.Spec.Buffers

/-! # The buffers of a packet: a buffer is read by one transport only -/

namespace Verif.Buffers
open Verif

/-- The frame for a piece. -/
def wire (p : Cell) : Bool × List Nat := packed p.text p.data

/-- A piece `p` of a packet, to be sent on `c`, of which `part` has been read. -/
def Piece (heap : List Cell) (own : List (Option Nat)) (c : Nat) (part : List Nat) (it : Item) (p : Cell) : Prop :=
  own[it.ptr]? = some (some c) ∧ (∃ b, heap[it.ptr]? = some b ∧ b.text = p.text ∧ part ++ b.data = p.data) ∧
  ∀ f, it.frame = some f → own[f]? = some none ∧ p.text = true ∧ heap[f]? = some ⟨true, four :: p.data⟩

/-- The queue of `c` has the pieces `rest`. -/
def Q (heap : List Cell) (own : List (Option Nat)) (c : Nat) : List Nat → List Item → List Cell → Prop
  | part, [], [] => part = []
  | part, it :: q, p :: r => Piece heap own c part it p ∧ (∀ i ∈ q, i.ptr ≠ it.ptr) ∧ Q heap own c [] q r
  | _, _, _ => False

theorem Piece.ext {heap heap' : List Cell} {own own' : List (Option Nat)} {c : Nat} {part : List Nat} {it : Item} {p : Cell}
    (h : Piece heap own c part it p)
    (hc : own'[it.ptr]? = own[it.ptr]? ∧ heap'[it.ptr]? = heap[it.ptr]?)
    (hf : ∀ (f : Nat), own[f]? = some none → own'[f]? = some none ∧ heap'[f]? = heap[f]?) : Piece heap' own' c part it p := by
  obtain ⟨h1, ⟨b, h2, h3, h4⟩, h5⟩ := h
  refine ⟨hc.1.trans h1, ⟨b, hc.2.trans h2, h3, h4⟩, ?_⟩
  intro f hff
  obtain ⟨a, b, d⟩ := h5 f hff
  exact ⟨(hf f a).1, b, (hf f a).2.trans d⟩

theorem Q.ext {heap heap' : List Cell} {own own' : List (Option Nat)} {c : Nat} :
    ∀ {part : List Nat} {q : List Item} {r : List Cell}, Q heap own c part q r →
    (∀ it ∈ q, own[it.ptr]? = some (some c) → own'[it.ptr]? = own[it.ptr]? ∧ heap'[it.ptr]? = heap[it.ptr]?) →
    (∀ (f : Nat), own[f]? = some none → own'[f]? = some none ∧ heap'[f]? = heap[f]?) → Q heap' own' c part q r
  | _, [], [], h, _, _ => h
  | _, [], _ :: _, h, _, _ => h.elim
  | _, _ :: _, [], h, _, _ => h.elim
  | _, it :: q, p :: r, h, hc, hf =>
    ⟨h.1.ext (hc it (by simp) h.1.1) hf, h.2.1, Q.ext h.2.2 (fun i hi => hc i (by simp [hi])) hf⟩

/-- Everything in the first tables is as it was. -/
def Keeps (heap heap' : List Cell) (own own' : List (Option Nat)) : Prop :=
  ∀ (p : Nat) (o : Option Nat), own[p]? = some o → own'[p]? = some o ∧ heap'[p]? = heap[p]?

theorem Q.keeps {heap heap' : List Cell} {own own' : List (Option Nat)} {c : Nat} {part : List Nat} {q : List Item} {r : List Cell}
    (h : Q heap own c part q r) (k : Keeps heap heap' own own') : Q heap' own' c part q r :=
  h.ext (fun it _ ho => ⟨(k _ _ ho).1.trans ho.symm, (k _ _ ho).2⟩) (fun f hf => k _ _ hf)

theorem keeps_append {heap : List Cell} {own : List (Option Nat)} (hl : own.length = heap.length) (x : List Cell) (y : List (Option Nat)) :
    Keeps heap (heap ++ x) own (own ++ y) := by
  intro p o h
  have hp : p < own.length := (List.getElem?_eq_some_iff.1 h).1
  exact ⟨by rw [List.getElem?_append_left hp]; exact h, List.getElem?_append_left (hl ▸ hp)⟩

theorem Q.ptrs {heap : List Cell} {own : List (Option Nat)} {c : Nat} :
    ∀ {part : List Nat} {q : List Item} {r : List Cell}, Q heap own c part q r → ∀ it ∈ q, own[it.ptr]? = some (some c)
  | _, [], _, _, _, hi => by cases hi
  | _, _ :: _, [], h, _, _ => h.elim
  | _, it :: q, p :: r, h, i, hi => by
    rcases List.mem_cons.1 hi with rfl | hi
    · exact h.1.1
    · exact Q.ptrs h.2.2 i hi

theorem Q.snoc {heap : List Cell} {own : List (Option Nat)} {c : Nat} {n : Item} {y : Cell} (hn : Piece heap own c [] n y) :
    ∀ {part : List Nat} {q : List Item} {r : List Cell}, Q heap own c part q r → (∀ it ∈ q, n.ptr ≠ it.ptr) →
    Q heap own c part (q ++ [n]) (r ++ [y])
  | _, [], [], h, _ => by
    simp only [Q] at h
    subst h
    exact ⟨hn, by simp, rfl⟩
  | _, [], _ :: _, h, _ => h.elim
  | _, _ :: _, [], h, _ => h.elim
  | _, it :: q, p :: r, h, hne =>
    ⟨h.1, by
      intro i hi
      rcases List.mem_append.1 hi with hi | hi
      · exact h.2.1 i hi
      · simp only [List.mem_singleton] at hi; subst hi; exact hne it (by simp), Q.snoc hn h.2.2 (fun i hi => hne i (by simp [hi]))⟩

/-- The buffers at `ptrs` are shared and have the pieces `ps`, and so has the frame. -/
def EncOk (heap : List Cell) (own : List (Option Nat)) (ptrs : List Nat) (frame : Option Nat) (ps : List Cell) : Prop :=
  ptrs.map (fun p => heap[p]?) = ps.map some ∧ (∀ p ∈ ptrs, own[p]? = some none) ∧
  ∀ f, frame = some f → own[f]? = some none ∧ ∀ p ∈ ps, p.text = true ∧ heap[f]? = some ⟨true, four :: p.data⟩

theorem EncOk.ext {heap heap' : List Cell} {own own' : List (Option Nat)} {ptrs : List Nat} {frame : Option Nat} {ps : List Cell}
    (h : EncOk heap own ptrs frame ps)
    (hf : ∀ (f : Nat), own[f]? = some none → own'[f]? = some none ∧ heap'[f]? = heap[f]?) : EncOk heap' own' ptrs frame ps := by
  refine ⟨?_, fun p hp => (hf p (h.2.1 p hp)).1, fun f hff => ?_⟩
  · rw [← h.1]
    apply List.map_congr_left
    intro p hp
    exact (hf p (h.2.1 p hp)).2
  · obtain ⟨a, b⟩ := h.2.2 f hff
    exact ⟨(hf f a).1, fun p hp => ⟨(b p hp).1, (hf f a).2.trans (b p hp).2⟩⟩

theorem writeAll_ok (c : Nat) (frame : Option Nat) : ∀ (ptrs : List Nat) (ps : List Cell) (heap : List Cell) (own : List (Option Nat))
    (part : List Nat) (q : List Item) (r : List Cell), own.length = heap.length → EncOk heap own ptrs frame ps → Q heap own c part q r →
    ∃ own', own'.length = (writeAll frame ptrs (heap, q)).1.length ∧ Keeps heap (writeAll frame ptrs (heap, q)).1 own own' ∧
      Q (writeAll frame ptrs (heap, q)).1 own' c part (writeAll frame ptrs (heap, q)).2 (r ++ ps)
  | [], ps, heap, own, part, q, r, hl, he, hq => by
    have : ps = [] := by
      have := congrArg List.length he.1
      simp at this
      exact List.eq_nil_of_length_eq_zero this.symm
    subst this
    exact ⟨own, hl, fun p o h => ⟨h, rfl⟩, by simpa [writeAll] using hq⟩
  | p :: ptrs, [], heap, own, part, q, r, hl, he, hq => by
    have := congrArg List.length he.1
    simp at this
  | p :: ptrs, y :: ps, heap, own, part, q, r, hl, he, hq => by
    have h1 : heap[p]? = some y ∧ ptrs.map (fun p => heap[p]?) = ps.map some := by
      have := he.1
      simpa using this
    have hcl : clone heap p = heap ++ [y] := by simp [clone, h1.1]
    have hk : Keeps heap (heap ++ [y]) own (own ++ [some c]) := keeps_append hl _ _
    have he' : EncOk (heap ++ [y]) (own ++ [some c]) ptrs frame ps :=
      EncOk.ext ⟨h1.2, fun p hp => he.2.1 p (by simp [hp]), fun f hf => ⟨(he.2.2 f hf).1, fun z hz => (he.2.2 f hf).2 z (by simp [hz])⟩⟩
        (fun f hf => hk _ _ hf)
    have hq' : Q (heap ++ [y]) (own ++ [some c]) c part (q ++ [⟨heap.length, frame⟩]) (r ++ [y]) := by
      refine Q.snoc ?_ (hq.keeps hk) ?_
      · refine ⟨by simp [← hl], ⟨y, by simp, rfl, rfl⟩, ?_⟩
        intro f hf
        obtain ⟨a, b⟩ := he.2.2 f hf
        exact ⟨(hk _ _ a).1, (b y (by simp)).1, (hk _ _ a).2.trans (b y (by simp)).2⟩
      · intro it hit hh
        have := (List.getElem?_eq_some_iff.1 (hq.ptrs it hit)).1
        simp only at hh
        omega
    obtain ⟨own', g1, g2, g3⟩ := writeAll_ok c frame ptrs ps _ _ part _ _ (by simp [hl]) he' hq'
    simp only [writeAll, hcl]
    refine ⟨own', g1, ?_, by simpa using g3⟩
    intro p' o ho
    have a := hk p' o ho
    have b := g2 p' o a.1
    exact ⟨b.1, b.2.trans a.2⟩

/-- The invariant. -/
structure Inv (s : St) (D : Nat → Spec.Due) (own : List (Option Nat)) : Prop where
  len : own.length = s.heap.length
  conns : ∀ c, (D c).conns = s.conns.length
  stuck : ∀ c x, s.conns[c]? = some x → (D c).stuck = !x.writable
  encs : ∀ c (k : Nat), (s.encs[k]? = none ∧ (D c).packets[k]? = none) ∨
    ∃ e ps, s.encs[k]? = some e ∧ (D c).packets[k]? = some (ps, e.volatile) ∧ EncOk s.heap own e.ptrs e.frame ps
  queue : ∀ c x, s.conns[c]? = some x → ∃ rest, (D c).owed.map wire = x.sent ++ rest.map wire ∧ Q s.heap own c x.part x.queue rest
  late : ∀ c, s.conns[c]? = none → (D c).owed = [] ∧ (D c).stuck = false

/-- A connection changes, and nothing else but what it owns. -/
theorem Inv.conn {s : St} {D : Nat → Spec.Due} {own : List (Option Nat)} (hi : Inv s D own) (c : Nat) (x y : Conn)
    (hx : s.conns[c]? = some x) (heap : List Cell) (hl : heap.length = s.heap.length) (hw : y.writable = x.writable)
    (hh : ∀ (p : Nat) (o : Option Nat), own[p]? = some o → o ≠ some c → heap[p]? = s.heap[p]?)
    (hq : ∃ rest, (D c).owed.map wire = y.sent ++ rest.map wire ∧ Q heap own c y.part y.queue rest) :
    Inv { s with heap := heap, conns := s.conns.set c y } D own := by
  have hc : c < s.conns.length := (List.getElem?_eq_some_iff.1 hx).1
  refine ⟨by simp [hi.len, hl], by simp [hi.conns], ?_, ?_, ?_, ?_⟩
  · intro c' z hz
    simp only [List.getElem?_set] at hz
    split at hz
    · rename_i h; subst h
      simp [hc] at hz; subst hz
      rw [hi.stuck _ _ hx, hw]
    · exact hi.stuck _ _ hz
  · intro c' k
    rcases hi.encs c' k with h | ⟨e, ps, h1, h2, h3⟩
    · exact .inl h
    · exact .inr ⟨e, ps, h1, h2, h3.ext fun f hf => ⟨hf, hh f none hf (by simp)⟩⟩
  · intro c' z hz
    simp only [List.getElem?_set] at hz
    split at hz
    · rename_i h; subst h
      simp [hc] at hz; subst hz
      exact hq
    · rename_i hne
      obtain ⟨rest, h1, h2⟩ := hi.queue _ _ hz
      refine ⟨rest, h1, h2.ext ?_ ?_⟩
      · intro it _ ho
        exact ⟨rfl, hh _ _ ho (by simpa using fun h => hne h.symm)⟩
      · exact fun f hf => ⟨hf, hh f none hf (by simp)⟩
  · intro c' hz
    exact hi.late c' (by
      simp only [List.getElem?_eq_none_iff, List.length_set] at hz ⊢
      exact hz)

theorem inv_step {s : St} {D : Nat → Spec.Due} {own : List (Option Nat)} (hi : Inv s D own) (e : Ev) :
    ∃ own', Inv (step false s e) (fun c => (D c).step c e) own' := by
  cases e with
  | connect ws =>
    refine ⟨own, hi.len, by simp [step, Spec.Due.step, hi.conns], ?_, hi.encs, ?_, ?_⟩
    · intro c x hx
      simp only [step, Spec.Due.step, List.getElem?_append] at hx ⊢
      split at hx
      · exact hi.stuck c x hx
      · rename_i hn
        have hl := hi.late c (by simpa using hn)
        rw [hl.2]
        rcases List.getElem?_eq_some_iff.1 hx with ⟨h1, h2⟩
        simp at h2; subst h2; rfl
    · intro c x hx
      simp only [step, Spec.Due.step, List.getElem?_append] at hx ⊢
      split at hx
      · exact hi.queue c x hx
      · rename_i hn
        have hl := hi.late c (by simpa using hn)
        rw [hl.1]
        rcases List.getElem?_eq_some_iff.1 hx with ⟨h1, h2⟩
        simp at h2; subst h2
        exact ⟨[], rfl, rfl⟩
    · intro c hc
      refine hi.late c ?_
      simp only [step, List.getElem?_eq_none_iff, List.length_append] at hc ⊢
      omega
  | encode ps b v =>
    -- the shape of the new packet
    have key : ∃ (extra : List Cell) (frame : Option Nat),
        step false s (.encode ps b v) =
          { s with heap := s.heap ++ (ps ++ extra), encs := s.encs ++ [⟨List.range' s.heap.length ps.length, frame, v⟩] } ∧
        (∀ f, frame = some f → f = s.heap.length + ps.length ∧ ∃ d, ps = [⟨true, d⟩] ∧ extra = [⟨true, four :: d⟩]) := by
      simp only [step, encode]
      split
      · rename_i d
        exact ⟨[⟨true, four :: d⟩], some (s.heap.length + 1), by simp, by
          intro f hf
          simp only [Option.some.injEq] at hf
          exact ⟨by simp [← hf], d, rfl, rfl⟩⟩
      · exact ⟨[], none, by simp, by simp⟩
    obtain ⟨extra, frame, hs, hf⟩ := key
    rw [hs]
    have hk : Keeps s.heap (s.heap ++ (ps ++ extra)) own (own ++ List.replicate (ps ++ extra).length none) := keeps_append hi.len _ _
    refine ⟨own ++ List.replicate (ps ++ extra).length none, by simp [hi.len], hi.conns, hi.stuck, ?_, ?_, hi.late⟩
    · intro c k
      have hlen : (D c).packets.length = s.encs.length := by
        rcases Nat.lt_trichotomy (D c).packets.length s.encs.length with h | h | h
        · rcases hi.encs c (D c).packets.length with ⟨a, _⟩ | ⟨_, _, _, a, _⟩
          · simp at a; omega
          · simp at a
        · exact h
        · rcases hi.encs c s.encs.length with ⟨_, a⟩ | ⟨_, _, a, _, _⟩
          · simp at a; omega
          · simp at a
      simp only [Spec.Due.step, List.getElem?_append]
      by_cases hlt : k < s.encs.length
      · rcases hi.encs c k with ⟨a, _⟩ | ⟨e, ps', h1, h2, h3⟩
        · simp at a; omega
        · refine .inr ⟨e, ps', by rw [if_pos hlt]; exact h1, by rw [if_pos (hlen ▸ hlt)]; exact h2, ?_⟩
          exact h3.ext fun f hf => hk _ _ hf
      · rw [if_neg hlt, if_neg (hlen ▸ hlt), hlen]
        by_cases heq : k = s.encs.length
        · subst heq
          refine .inr ⟨_, ps, by simp; rfl, by simp, ?_, ?_, ?_⟩
          · apply List.ext_getElem?
            intro i
            simp only [List.getElem?_map]
            by_cases hlt : i < ps.length
            · rw [List.getElem?_range' (by simpa using hlt)]
              simp only [Option.map_some]
              rw [List.getElem?_append_right (by omega)]
              simp only [Nat.one_mul, Nat.add_sub_cancel_left]
              rw [List.getElem?_append_left hlt, List.getElem?_eq_getElem hlt]
              rfl
            · simp [List.getElem?_eq_none_iff.2 (Nat.le_of_not_lt hlt)]
              omega
          · intro p hp
            simp only [List.mem_range'_1] at hp
            rw [List.getElem?_append_right (by rw [hi.len]; omega), List.getElem?_replicate, if_pos]
            simp only [List.length_append, hi.len]
            omega
          · intro f hff
            obtain ⟨h1, d, h2, h3⟩ := hf f hff
            subst h2 h3
            simp only [List.length_singleton] at h1
            subst h1
            refine ⟨?_, ?_⟩
            · rw [List.getElem?_append_right (by rw [hi.len]; omega), List.getElem?_replicate, if_pos]
              simp only [List.length_append, hi.len, List.length_singleton]
              omega
            · intro p hp
              simp only [List.mem_singleton] at hp
              subst hp
              refine ⟨rfl, ?_⟩
              rw [List.getElem?_append_right (by omega)]
              simp
        · left
          have : k - s.encs.length ≠ 0 := by omega
          constructor
          · simp; omega
          · simp; omega
    · intro c x hx
      obtain ⟨rest, h1, h2⟩ := hi.queue c x hx
      exact ⟨rest, h1, h2.keeps hk⟩
  | write k c =>
    cases hx : s.conns[c]? with
    | none =>
      have hcl : ¬ c < s.conns.length := by simpa using hx
      have : step false s (.write k c) = s := by
        simp only [step, hx]
        split <;> simp_all
      rw [this]
      refine ⟨own, ?_⟩
      have : (fun c' => (D c').step c' (.write k c)) = D := by
        funext c'
        simp only [Spec.Due.step]
        rw [if_neg]
        rintro ⟨rfl, h⟩
        exact hcl (by rw [hi.conns] at h; exact h)
      rw [this]
      exact hi
    | some x =>
      have hcl : c < s.conns.length := (List.getElem?_eq_some_iff.1 hx).1
      rcases hi.encs c k with ⟨a, b⟩ | ⟨e, ps, h1, h2, h3⟩
      · refine ⟨own, ?_⟩
        have hs : step false s (.write k c) = s := by simp [step, a]
        have : (fun c' => (D c').step c' (.write k c)) = D := by
          funext c'
          simp only [Spec.Due.step]
          split
          · rename_i h
            obtain ⟨rfl, _⟩ := h
            rw [b]
          · rfl
        rw [hs, this]
        exact hi
      · have hD : ∀ c', c' ≠ c → (D c').step c' (.write k c) = D c' := by
          intro c' hne
          simp only [Spec.Due.step]
          rw [if_neg]
          rintro ⟨h, _⟩
          exact hne h.symm
        have hst := hi.stuck c x hx
        by_cases hv : e.volatile = true ∧ x.writable = false
        · refine ⟨own, ?_⟩
          have hs : step false s (.write k c) = s := by simp [step, h1, hx, write, hv.1, hv.2]
          have : (fun c' => (D c').step c' (.write k c)) = D := by
            funext c'
            by_cases hc' : c' = c
            · subst hc'
              simp [Spec.Due.step, h2, hst, hv.1, hv.2]
            · exact hD c' hc'
          rw [hs, this]
          exact hi
        · have hvb : (e.volatile && !x.writable) = false := by
            cases hev : e.volatile <;> cases hxw : x.writable <;> simp_all
          obtain ⟨rest, hr1, hr2⟩ := hi.queue c x hx
          obtain ⟨own', g1, g2, g3⟩ := writeAll_ok c e.frame e.ptrs ps s.heap own x.part x.queue rest hi.len h3 hr2
          have hDc : (D c).step c (.write k c) = { D c with owed := (D c).owed ++ ps } := by
            simp only [Spec.Due.step]
            rw [if_pos ⟨trivial, by rw [hi.conns]; exact hcl⟩, h2]
            simp only
            rw [if_neg]
            rintro ⟨u, w⟩
            rw [hst] at w
            exact hv ⟨u, by simpa using w⟩
          have hs : step false s (.write k c) = { s with heap := (writeAll e.frame e.ptrs (s.heap, x.queue)).1, conns := s.conns.set c { x with queue := (writeAll e.frame e.ptrs (s.heap, x.queue)).2 } } := by
            simp [step, h1, hx, write, hvb]
          rw [hs]
          have hp : ∀ c', ((D c').step c' (.write k c)).conns = (D c').conns ∧ ((D c').step c' (.write k c)).stuck = (D c').stuck ∧
              ((D c').step c' (.write k c)).packets = (D c').packets := by
            intro c'
            by_cases hc' : c' = c
            · subst hc'; rw [hDc]; exact ⟨rfl, rfl, rfl⟩
            · rw [hD c' hc']; exact ⟨rfl, rfl, rfl⟩
          refine ⟨own', g1, ?_, ?_, ?_, ?_, ?_⟩
          · intro c'; rw [(hp c').1, hi.conns]; simp
          · intro c' z hz
            rw [(hp c').2.1]
            simp only [List.getElem?_set] at hz
            split at hz
            · rename_i h; subst h
              simp [hcl] at hz; subst hz
              exact hst
            · exact hi.stuck _ _ hz
          · intro c' k'
            rw [(hp c').2.2]
            rcases hi.encs c' k' with h | ⟨e', ps', i1, i2, i3⟩
            · exact .inl h
            · exact .inr ⟨e', ps', i1, i2, i3.ext fun f hf => g2 _ _ hf⟩
          · intro c' z hz
            simp only [List.getElem?_set] at hz
            split at hz
            · rename_i h; subst h
              simp [hcl] at hz; subst hz
              refine ⟨rest ++ ps, ?_, g3⟩
              rw [hDc]
              simp [hr1]
            · rename_i hne
              rw [hD c' (fun h => hne h.symm)]
              obtain ⟨rest', j1, j2⟩ := hi.queue _ _ hz
              exact ⟨rest', j1, j2.keeps g2⟩
          · intro c' hz
            have hz' : s.conns[c']? = none := by
              simp only [List.getElem?_eq_none_iff, List.length_set] at hz ⊢
              exact hz
            have hne : c' ≠ c := by rintro rfl; rw [hx] at hz'; cases hz'
            rw [hD c' hne]
            exact hi.late c' hz'
  | writable c b =>
    refine ⟨own, ?_⟩
    have hDf : ∀ c', ((D c').step c' (.writable c b)).conns = (D c').conns ∧ ((D c').step c' (.writable c b)).owed = (D c').owed ∧
        ((D c').step c' (.writable c b)).packets = (D c').packets := by
      intro c'
      simp only [Spec.Due.step]
      split <;> exact ⟨rfl, rfl, rfl⟩
    cases hx : s.conns[c]? with
    | none =>
      have hcl : ¬ c < s.conns.length := by simpa using hx
      have : step false s (.writable c b) = s := by simp [step, hx]
      rw [this]
      have : (fun c' => (D c').step c' (.writable c b)) = D := by
        funext c'
        simp only [Spec.Due.step]
        rw [if_neg]
        rintro ⟨rfl, h⟩
        exact hcl (by rw [hi.conns] at h; exact h)
      rw [this]
      exact hi
    | some x =>
      have hcl : c < s.conns.length := (List.getElem?_eq_some_iff.1 hx).1
      have hs : step false s (.writable c b) = { s with conns := s.conns.set c { x with writable := b } } := by simp [step, hx]
      rw [hs]
      refine ⟨hi.len, ?_, ?_, ?_, ?_, ?_⟩
      · intro c'; rw [(hDf c').1, hi.conns]; simp
      · intro c' z hz
        simp only [List.getElem?_set] at hz
        split at hz
        · rename_i h; subst h
          simp [hcl] at hz; subst hz
          simp [Spec.Due.step, hi.conns, hcl]
        · rename_i hne
          simp only [Spec.Due.step]
          rw [if_neg (fun h => hne h.1)]
          exact hi.stuck _ _ hz
      · intro c' k; rw [(hDf c').2.2]; exact hi.encs c' k
      · intro c' z hz
        rw [(hDf c').2.1]
        simp only [List.getElem?_set] at hz
        split at hz
        · rename_i h; subst h
          simp [hcl] at hz; subst hz
          exact hi.queue c x hx
        · exact hi.queue _ _ hz
      · intro c' hz
        have hz' : s.conns[c']? = none := by
          simp only [List.getElem?_eq_none_iff, List.length_set] at hz ⊢
          exact hz
        rw [(hDf c').2.1]
        have hne : c' ≠ c := by rintro rfl; rw [hx] at hz'; cases hz'
        refine ⟨(hi.late c' hz').1, ?_⟩
        simp only [Spec.Due.step]
        rw [if_neg (fun h => hne h.1.symm)]
        exact (hi.late c' hz').2
  | upgrade c =>
    refine ⟨own, ?_⟩
    show Inv (step false s (.upgrade c)) D own
    simp only [step]
    split
    · rename_i x hx
      exact hi.conn c x _ hx s.heap rfl rfl (fun _ _ _ _ => rfl) (hi.queue c x hx)
    · exact hi
  | read c n =>
    refine ⟨own, ?_⟩
    show Inv (step false s (.read c n)) D own
    simp only [step]
    split
    · rename_i x hx
      simp only [read]
      split
      · exact hi
      · rename_i it q hq
        split
        · exact hi
        · split
          · exact hi
          · rename_i b hb
            obtain ⟨rest, h1, h2⟩ := hi.queue c x hx
            rw [hq] at h2
            cases rest with
            | nil => exact h2.elim
            | cons p r =>
              obtain ⟨⟨p1, ⟨b', p2, p3, p4⟩, p5⟩, p6, p7⟩ := h2
              have hbb : b' = b := by rw [hb] at p2; exact (Option.some.inj p2).symm
              subst hbb
              have hoth : ∀ (p' : Nat) o, own[p']? = some o → o ≠ some c →
                  (s.heap.set it.ptr { b' with data := b'.data.drop n })[p']? = s.heap[p']? := by
                intro p' o ho hne
                rw [List.getElem?_set_ne]
                rintro rfl
                rw [p1] at ho
                exact hne (Option.some.inj ho).symm
              refine hi.conn c x _ hx _ (by simp) rfl hoth ⟨p :: r, h1, ?_⟩
              have hlt : it.ptr < s.heap.length := (List.getElem?_eq_some_iff.1 hb).1
              simp only [hq]
              refine ⟨⟨p1, ⟨{ b' with data := b'.data.drop n }, List.getElem?_set_self hlt, p3, by simpa using p4⟩, ?_⟩, p6, p7.ext ?_ ?_⟩
              · intro f hf
                obtain ⟨a, b, d⟩ := p5 f hf
                exact ⟨a, b, (hoth f none a (by simp)).trans d⟩
              · intro i him _
                exact ⟨rfl, List.getElem?_set_ne (fun h => p6 i him h.symm)⟩
              · intro f hf
                exact ⟨hf, hoth f none hf (by simp)⟩
    · exact hi
  | finish c =>
    refine ⟨own, ?_⟩
    show Inv (step false s (.finish c)) D own
    simp only [step]
    split
    · rename_i x hx
      simp only [finish]
      split
      · exact hi
      · rename_i it q hq
        obtain ⟨rest, h1, h2⟩ := hi.queue c x hx
        rw [hq] at h2
        cases rest with
        | nil => exact h2.elim
        | cons p r =>
          obtain ⟨⟨p1, ⟨b', p2, p3, p4⟩, p5⟩, p6, p7⟩ := h2
          split
          · rename_i f hf
            have hf' : it.frame = some f := by
              split at hf
              · exact hf
              · cases hf
            obtain ⟨a, b, d⟩ := p5 f hf'
            rw [d]
            simp only [Bool.false_eq_true, if_false]
            refine hi.conn c x _ hx s.heap rfl rfl (fun _ _ _ _ => rfl) ⟨r, ?_, p7⟩
            rw [h1]
            simp [wire, packed, b]
          · rw [p2]
            simp only
            split
            · rename_i hb
              refine hi.conn c x _ hx s.heap rfl rfl (fun _ _ _ _ => rfl) ⟨r, ?_, p7⟩
              rw [h1]
              rw [hb] at p4
              simp only [List.append_nil] at p4
              simp [wire, p3, p4]
            · exact hi
    · exact hi

theorem inv_run (h : List Ev) : ∃ own, Inv (run false h) (fun c => h.foldl (Spec.Due.step c) {}) own := by
  induction h using snocRec with
  | nil => exact ⟨[], rfl, fun _ => rfl, fun _ _ h => by simp [run] at h, fun _ _ => .inl ⟨by simp [run], by simp⟩,
      fun _ _ h => by simp [run] at h, fun _ _ => ⟨rfl, rfl⟩⟩
  | append_singleton l e ih =>
    obtain ⟨own, hi⟩ := ih
    obtain ⟨own', hi'⟩ := inv_step hi e
    simp only [run, List.foldl_append, List.foldl_cons, List.foldl_nil]
    exact ⟨own', hi'⟩

theorem due_eq (h : List Ev) (c : Nat) : Spec.dueFrames h c = (h.foldl (Spec.Due.step c) {}).owed.map wire := by
  simp only [Spec.dueFrames]
  apply List.map_congr_left
  intro p _
  rfl

end Verif.Buffers
