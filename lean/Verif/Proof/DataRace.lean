import Verif.Spec.DataRace
import Verif.Proof.RoomCalls

namespace Verif.DataRace
open Verif Verif.Spec Verif.World

/-! ## Calls and their accesses -/

def Access (l : List Instr) (x : Shared) (w : Bool) : Prop :=
  match x, w with
  | .modifier s f, false => .rdF s f ∈ l
  | .modifier s f, true => .wrF s f ∈ l
  | .other p, false => .rd p ∈ l
  | .other p, true => .wr p ∈ l

theorem changes_of (a : Call) (x : Shared) (h : Access (code a) x true) : Changes a x := by
  cases x with
  | modifier s f =>
    simp only [Access] at h
    cases a
    case emit s' ack => cases ack <;> simp [code, copy] at h
    case handler b => cases b <;> simp [code] at h
    all_goals simp [code, copy, inits] at h
    case modify s' f' => obtain ⟨rfl, rfl⟩ := h; exact ⟨rfl, rfl⟩
  | other p =>
    simp only [Access] at h
    cases a
    case emit s' ack => cases ack <;> simp [code, copy] at h
    case handler b => cases b <;> simp [code] at h <;> rcases h with rfl | rfl <;> trivial
    all_goals simp [code, copy, inits] at h
    case attach => rcases h with rfl | rfl | rfl <;> trivial
    case setPath => rcases h with rfl | rfl <;> trivial
    case setAdapter ns =>
      rcases h with rfl | ⟨n, hn, rfl⟩
      · trivial
      · exact hn
    all_goals (subst h; first | trivial | rfl)

theorem needs_of (a : Call) (x : Shared) (h : Access (code a) x false) : Needs a x := by
  cases x with
  | modifier s f =>
    simp only [Access] at h
    cases a
    case emit s' ack =>
      cases ack <;> simp only [code, copy, List.mem_append, List.mem_cons, Instr.rdF.injEq, reduceCtorEq, List.not_mem_nil, or_false, false_or] at h <;>
        (show s' = s) <;> omega
    case handler b => cases b <;> simp [code] at h
    all_goals simp [code, copy, inits] at h
    case derive_ s' => show s' = s; rcases h with ⟨h, _⟩ | ⟨h, _⟩ | ⟨h, _⟩ | ⟨h, _⟩ <;> exact h.symm
  | other p =>
    simp only [Access] at h
    cases a
    case emit s' ack => cases ack <;> simp [code, copy] at h
    case handler b =>
      cases b <;> simp [code] at h
      · subst h; trivial
      · rcases h with rfl | rfl | rfl | rfl <;> trivial
    all_goals simp [code, copy, inits] at h
    case attach => rcases h with rfl | rfl | rfl | rfl | rfl <;> trivial
    case ask => rcases h with rfl | rfl <;> rfl
    case file => rcases h with rfl | rfl <;> trivial
    case close ns =>
      rcases h with ⟨n, hn, rfl⟩ | rfl | rfl
      · exact hn
      · trivial
      · trivial
    case setAdapter ns =>
      obtain ⟨⟨n, hn⟩, rfl⟩ := h
      exact List.ne_nil_of_mem hn
    all_goals (subst h; first | trivial | rfl)

/-- The steps that change neither the pointers nor what the goroutine has loaded. -/
def Quiet : Instr → Prop
  | .load _ => False
  | .reset _ => False
  | _ => True

/-- What a call writes is in its code, after the loading of the structure if it is a modifier. -/
theorem changes_code (a : Call) (x : Shared) (h : Changes a x) :
    match x with
    | .modifier s f => ∃ pre mid post, code a = pre ++ .load s :: (mid ++ .wrF s f :: post) ∧ ∀ i ∈ mid, Quiet i
    | .other p => ∃ pre post, code a = pre ++ .wr p :: post := by
  cases x with
  | modifier s f =>
    cases a <;> simp only [Changes] at h
    obtain ⟨rfl, rfl⟩ := h
    exact ⟨[], [], [], rfl, by simp⟩
  | other p =>
    simp only
    have : .wr p ∈ code a := by
      cases a
      case handler b => cases b <;> cases p <;> simp_all [Changes, code]
      all_goals cases p <;> simp_all [Changes, code, inits]
    exact List.append_of_mem this

theorem needs_code (a : Call) (x : Shared) (h : Needs a x) :
    match x with
    | .modifier s f => ∃ pre mid post, code a = pre ++ .load s :: (mid ++ .rdF s f :: post) ∧ ∀ i ∈ mid, Quiet i
    | .other p => ∃ pre post, code a = pre ++ .rd p :: post := by
  cases x with
  | modifier s f =>
    have key : ∀ post, ∃ mid post', copy s ++ post = .load s :: (mid ++ .rdF s f :: post') ∧ ∀ i ∈ mid, Quiet i := by
      intro post
      cases f
      · exact ⟨[], _, rfl, by simp⟩
      · exact ⟨[.rdF s .compress], _, rfl, by simp [Quiet]⟩
      · exact ⟨[.rdF s .compress, .rdF s .volatile], _, rfl, by simp [Quiet]⟩
      · exact ⟨[.rdF s .compress, .rdF s .volatile, .rdF s .timeout], _, rfl, by simp [Quiet]⟩
    cases a <;> simp only [Needs] at h
    case emit s' ack =>
      subst h
      obtain ⟨mid, post', e, q⟩ := key [.reset s', .other]
      cases ack
      · exact ⟨[], mid, post', by simp only [code, List.nil_append]; exact e, q⟩
      · exact ⟨[.load s', .rdF s' .timeout], mid, post', by simp only [code, List.append_assoc, e], q⟩
    case derive_ s' =>
      subst h
      obtain ⟨mid, post', e, q⟩ := key [.reset s']
      exact ⟨[], mid, post', by simp only [code, List.nil_append]; exact e, q⟩
  | other p =>
    simp only
    have : .rd p ∈ code a := by
      cases a
      case handler b => cases b <;> cases p <;> simp_all [Needs, code]
      case setAdapter ns =>
        cases p <;> simp_all [Needs, code, inits]
        exact List.exists_mem_of_ne_nil ns h
      all_goals cases p <;> simp_all [Needs, code, inits]
    exact List.append_of_mem this

/-! ## Runs -/

theorem step_suffix (st : St) (k i : Nat) (g : G) (h : (step st k).gs[i]? = some g) :
    ∃ g', st.gs[i]? = some g' ∧ ∃ pre, g'.code = pre ++ g.code := by
  simp only [step] at h
  cases hk : st.gs[k]? with
  | none => simp only [hk] at h; exact ⟨g, h, [], rfl⟩
  | some gk =>
    simp only [hk] at h
    by_cases hi : i = k
    · subst hi
      have hlt : i < st.gs.length := by
        rcases Nat.lt_or_ge i st.gs.length with h' | h'
        · exact h'
        · rw [List.getElem?_eq_none h'] at hk; cases hk
      rw [List.getElem?_set_self hlt] at h
      cases h
      refine ⟨gk, hk, ?_⟩
      simp only [exec]
      split
      · rename_i e; exact ⟨[], by simp [e]⟩
      · rename_i s r e; exact ⟨[.load s], e⟩
      · rename_i s r e; exact ⟨[.reset s], e⟩
      · rename_i x r _ _ e; exact ⟨[x], e⟩
    · rw [List.getElem?_set_ne (fun h => hi h.symm)] at h
      exact ⟨g, h, [], rfl⟩

theorem run_suffix (progs : List (List Call)) (sched : List Nat) : ∀ (i : Nat) (g : G), (run progs sched).gs[i]? = some g →
    ∃ p, progs[i]? = some p ∧ ∃ pre, p.flatMap code = pre ++ g.code := by
  induction sched using snocRec with
  | nil =>
    intro i g h
    simp only [run, List.foldl_nil, start, List.getElem?_map, Option.map_eq_some_iff] at h
    obtain ⟨p, hp, rfl⟩ := h
    exact ⟨p, hp, [], rfl⟩
  | append_singleton sched k ih =>
    intro i g h
    rw [run, List.foldl_append, List.foldl_cons, List.foldl_nil] at h
    obtain ⟨g', h1, pre, h2⟩ := step_suffix _ k i g h
    obtain ⟨p, hp, pre', h3⟩ := ih i g' h1
    exact ⟨p, hp, pre' ++ pre, by rw [h3, h2, List.append_assoc]⟩

def shared : Cell → Shared
  | .flag s _ f => .modifier s f
  | .at x => .other x

/-- An access that is about to be made belongs to a call of the goroutine's program. -/
theorem access_call (progs : List (List Call)) (sched : List Nat) (i : Nat) (g : G) (c : Cell) (w : Bool)
    (h : (run progs sched).gs[i]? = some g) (ha : access g = some (c, w)) :
    ∃ p, progs[i]? = some p ∧ ∃ a ∈ p, Access (code a) (shared c) w := by
  obtain ⟨p, hp, pre, hc⟩ := run_suffix progs sched i g h
  refine ⟨p, hp, ?_⟩
  have mem : ∀ x ∈ g.code, ∃ a ∈ p, x ∈ code a := by
    intro x hx
    have : x ∈ p.flatMap code := by rw [hc]; exact List.mem_append_right _ hx
    exact List.mem_flatMap.1 this
  simp only [access] at ha
  split at ha <;> simp only [Option.some.injEq, Prod.mk.injEq, reduceCtorEq] at ha
  all_goals
    obtain ⟨rfl, rfl⟩ := ha
    rename_i e
    obtain ⟨a, h1, h2⟩ := mem _ (by rw [e]; exact List.mem_cons_self)
    exact ⟨a, h1, h2⟩

/-- A goroutine runs alone. -/
theorem solo (l post : List Instr) : ∀ (st : St) (i : Nat) (g : G), st.gs[i]? = some g → g.code = l ++ post →
    ∃ g', ((List.replicate l.length i).foldl step st).gs[i]? = some g' ∧ g'.code = post ∧
      (∀ j, j ≠ i → ((List.replicate l.length i).foldl step st).gs[j]? = st.gs[j]?) ∧
      ((∀ x ∈ l, Quiet x) → ((List.replicate l.length i).foldl step st).ptr = st.ptr ∧ g'.reg = g.reg) := by
  induction l with
  | nil => intro st i g h hc; exact ⟨g, h, hc, fun _ _ => rfl, fun _ => ⟨rfl, rfl⟩⟩
  | cons x l ih =>
    intro st i g h hc
    have hlt : i < st.gs.length := by
      rcases Nat.lt_or_ge i st.gs.length with h' | h'
      · exact h'
      · rw [List.getElem?_eq_none h'] at h; cases h
    have e : step st i = { ptr := (exec st.ptr g).1, gs := st.gs.set i (exec st.ptr g).2 } := by simp only [step, h]
    have hc' : (exec st.ptr g).2.code = l ++ post := by
      simp only [exec, hc]
      cases x <;> rfl
    obtain ⟨g', h1, h2, h3, h4⟩ := ih (step st i) i (exec st.ptr g).2 (by rw [e]; exact List.getElem?_set_self hlt) hc'
    rw [List.length_cons, List.replicate_succ, List.foldl_cons]
    refine ⟨g', h1, h2, fun j hj => ?_, fun q => ?_⟩
    · rw [h3 j hj, e]; exact List.getElem?_set_ne (fun h => hj h.symm)
    · have q1 := q x List.mem_cons_self
      obtain ⟨k1, k2⟩ := h4 (fun y hy => q y (List.mem_cons_of_mem _ hy))
      have : (exec st.ptr g).1 = st.ptr ∧ (exec st.ptr g).2.reg = g.reg := by
        simp only [exec, hc]
        cases x <;> simp_all [Quiet]
      rw [k1, k2, e]; exact this

theorem call_code (p : List Call) (a : Call) (h : a ∈ p) : ∃ pre post, p.flatMap code = pre ++ (code a ++ post) := by
  obtain ⟨p1, p2, rfl⟩ := List.append_of_mem h
  exact ⟨p1.flatMap code, p2.flatMap code, by simp⟩

/-- A goroutine can be brought to the access of one of its calls; if it is to the modifiers of a socket, to the loading before it. -/
def instr (x : Shared) (w : Bool) : Instr :=
  match x, w with
  | .modifier s f, false => .rdF s f
  | .modifier s f, true => .wrF s f
  | .other p, false => .rd p
  | .other p, true => .wr p

def Touches (a : Call) (x : Shared) (w : Bool) : Prop := if w then Changes a x else Needs a x

theorem touches_code (a : Call) (x : Shared) (w : Bool) (h : Touches a x w) :
    match x with
    | .modifier s _ => ∃ pre mid post, code a = pre ++ .load s :: (mid ++ instr x w :: post) ∧ ∀ i ∈ mid, Quiet i
    | .other _ => ∃ pre post, code a = pre ++ instr x w :: post := by
  cases w with
  | true => have := changes_code a x (by simpa [Touches] using h); cases x <;> exact this
  | false => have := needs_code a x (by simpa [Touches] using h); cases x <;> exact this

theorem start_get (progs : List (List Call)) (i : Nat) (p : List Call) (h : progs[i]? = some p) :
    (start progs).gs[i]? = some { code := p.flatMap code } := by
  simp [start, h]

theorem race_of (progs : List (List Call)) (i j : Nat) (hne : i ≠ j) (p q : List Call) (hp : progs[i]? = some p) (hq : progs[j]? = some q)
    (a b : Call) (ha : a ∈ p) (hb : b ∈ q) (x : Shared) (wi wj : Bool) (ta : Touches a x wi) (tb : Touches b x wj) (hw : wi = true ∨ wj = true) :
    ∃ sched, Race (run progs sched) := by
  obtain ⟨prea, posta, ca⟩ := call_code p a ha
  obtain ⟨preb, postb, cb⟩ := call_code q b hb
  have ka := touches_code a x wi ta
  have kb := touches_code b x wj tb
  cases x with
  | other y =>
    obtain ⟨pa, qa, ea⟩ := ka
    obtain ⟨pb, qb, eb⟩ := kb
    obtain ⟨g1, h1, c1, o1, _⟩ := solo (prea ++ pa) (instr (.other y) wi :: (qa ++ posta)) (start progs) i _ (start_get progs i p hp)
      (by simp only [ca, ea]; simp)
    obtain ⟨g2, h2, c2, o2, _⟩ := solo (preb ++ pb) (instr (.other y) wj :: (qb ++ postb)) _ j { code := q.flatMap code }
      (by rw [o1 j (fun h => hne h.symm)]; exact start_get progs j q hq) (by simp only [cb, eb]; simp)
    refine ⟨List.replicate (prea ++ pa).length i ++ List.replicate (preb ++ pb).length j, i, j, g1, g2, .at y, wi, wj, hne, ?_, ?_, ?_, ?_, hw⟩
    · rw [run, List.foldl_append, o2 i hne]; exact h1
    · rw [run, List.foldl_append]; exact h2
    · cases wi <;> simp [access, c1, instr]
    · cases wj <;> simp [access, c2, instr]
  | modifier s f =>
    obtain ⟨pa, ma, qa, ea, na⟩ := ka
    obtain ⟨pb, mb, qb, eb, nb⟩ := kb
    obtain ⟨g1, h1, c1, o1, _⟩ := solo (prea ++ pa) (.load s :: (ma ++ instr (.modifier s f) wi :: (qa ++ posta))) (start progs) i _ (start_get progs i p hp)
      (by simp only [ca, ea]; simp)
    obtain ⟨g2, h2, c2, o2, _⟩ := solo (preb ++ pb) (.load s :: (mb ++ instr (.modifier s f) wj :: (qb ++ postb))) _ j { code := q.flatMap code }
      (by rw [o1 j (fun h => hne h.symm)]; exact start_get progs j q hq) (by simp only [cb, eb]; simp)
    generalize hst : (List.replicate (preb ++ pb).length j).foldl step ((List.replicate (prea ++ pa).length i).foldl step (start progs)) = st at *
    have h1' : st.gs[i]? = some g1 := by rw [o2 i hne]; exact h1
    have hl : i < st.gs.length := by
      rcases Nat.lt_or_ge i st.gs.length with h' | h'
      · exact h'
      · rw [List.getElem?_eq_none h'] at h1'; cases h1'
    have hl2 : j < st.gs.length := by
      rcases Nat.lt_or_ge j st.gs.length with h' | h'
      · exact h'
      · rw [List.getElem?_eq_none h'] at h2; cases h2
    have e1 : step st i = { ptr := st.ptr, gs := st.gs.set i { code := ma ++ instr (.modifier s f) wi :: (qa ++ posta), reg := st.ptr s } } := by
      simp only [step, h1', exec, c1]
    obtain ⟨g3, h3, c3, o3, r3⟩ := solo ma (instr (.modifier s f) wi :: (qa ++ posta)) (step st i) i _
      (by rw [e1]; exact List.getElem?_set_self hl) rfl
    obtain ⟨r3, r3'⟩ := r3 na
    have e1p : (step st i).ptr = st.ptr := by rw [e1]
    generalize hst2 : (List.replicate ma.length i).foldl step (step st i) = st2 at *
    have h2' : st2.gs[j]? = some g2 := by
      rw [o3 j (fun h => hne h.symm), e1]
      simp only
      rw [List.getElem?_set_ne hne]; exact h2
    have hl3 : j < st2.gs.length := by
      rcases Nat.lt_or_ge j st2.gs.length with h' | h'
      · exact h'
      · rw [List.getElem?_eq_none h'] at h2'; cases h2'
    have e2 : step st2 j = { ptr := st2.ptr, gs := st2.gs.set j { code := mb ++ instr (.modifier s f) wj :: (qb ++ postb), reg := st2.ptr s } } := by
      simp only [step, h2', exec, c2]
    obtain ⟨g4, h4, c4, o4, r4⟩ := solo mb (instr (.modifier s f) wj :: (qb ++ postb)) (step st2 j) j _
      (by rw [e2]; exact List.getElem?_set_self hl3) rfl
    obtain ⟨_, r4'⟩ := r4 nb
    have fin : run progs (List.replicate (prea ++ pa).length i ++ (List.replicate (preb ++ pb).length j ++ (i :: (List.replicate ma.length i ++
        (j :: List.replicate mb.length j))))) = (List.replicate mb.length j).foldl step (step st2 j) := by
      rw [run, List.foldl_append, List.foldl_append, hst, List.foldl_cons, List.foldl_append, hst2, List.foldl_cons]
    refine ⟨List.replicate (prea ++ pa).length i ++ (List.replicate (preb ++ pb).length j ++ (i :: (List.replicate ma.length i ++
        (j :: List.replicate mb.length j)))),
      i, j, g3, g4, .flag s (st.ptr s) f, wi, wj, hne, ?_, ?_, ?_, ?_, hw⟩
    · rw [fin, o4 i hne, e2]
      simp only
      rw [List.getElem?_set_ne (fun h => hne h.symm)]; exact h3
    · rw [fin]; exact h4
    · cases wi <;> simp [access, c3, instr, r3']
    · have : st2.ptr s = st.ptr s := by rw [r3, e1p]
      cases wj <;> simp [access, c4, instr, r4', this]

end Verif.DataRace
