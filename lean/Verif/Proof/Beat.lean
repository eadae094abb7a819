import Verif.Spec.Beat
import Verif.Proof.Heartbeat

namespace Verif.Beat
open Verif Verif.Heartbeat Verif.Spec

theorem run_snoc (cfg : Cfg) (h : List Ev) (e : Ev) : run cfg (h ++ [e]) = step cfg (run cfg h) e := by
  simp [run, List.foldl_append]

/-- No hole longer than `G` between one element and the last. -/
def Gapless (G : Nat) (L : List Nat) : Prop :=
  ∀ x, (∃ t ∈ L, t ≤ x) → (∀ t ∈ L, t ≤ x) ∨ ∃ t ∈ L, x < t ∧ t ≤ x + G

theorem gapless_snoc {G : Nat} {L : List Nat} {m : Nat} (h : Gapless G L) (hm : ∀ t ∈ L, t ≤ m)
    (hl : L ≠ [] → ∃ t ∈ L, m ≤ t + G) : Gapless G (L ++ [m]) := by
  intro x ⟨t, ht, hx⟩
  by_cases hL : L = []
  · subst hL
    left
    intro t' ht'
    simp at ht ht'
    omega
  obtain ⟨l, hl1, hl2⟩ := hl hL
  rcases List.mem_append.1 ht with ht | ht
  · rcases h x ⟨t, ht, hx⟩ with h | ⟨u, hu, hu2⟩
    · by_cases hmx : m ≤ x
      · left
        intro u hu
        rcases List.mem_append.1 hu with hu | hu
        · exact h u hu
        · simp at hu; omega
      · right
        have := h l hl1
        exact ⟨m, by simp, by omega, by omega⟩
    · exact .inr ⟨u, by simp [hu], hu2⟩
  · simp at ht
    left
    intro u hu
    rcases List.mem_append.1 hu with hu | hu
    · have := hm u hu; omega
    · simp at hu; omega

/-- The record that server `j` has of server `i`. -/
def seen (cfg : Cfg) (s : St) (j i : Nat) : Option Nat := (s.nodes j).nodes.get? (cfg.uid i)

theorem counts_iff (cfg : Cfg) (s : St) (j i : Nat) : Counts cfg s j i ↔ ∃ t, seen cfg s j i = some t := by
  unfold Counts seen
  rw [FMap.mem_keys_iff]

structure Inv (cfg : Cfg) (slack : Nat) (s : St) : Prop where
  range : ∀ j, s.phase j ≠ .absent → j < cfg.n
  young : ∀ i, s.phase i = .absent → s.deadline i = none ∧ (∀ p ∈ s.net, p.src ≠ i)
  born : ∀ i j, s.phase i = .absent ∨ s.phase j = .absent → s.sentTo i j = []
  alive : ∀ i, s.phase i = .up → ∀ p ∈ s.net, p.src = i → p.type ≠ .close
  dl : ∀ i d, s.deadline i = some d → d ≤ s.now + cfg.I
  past : ∀ i j, ∀ t ∈ s.sentTo i j, t ≤ s.now
  last : ∀ i j, s.phase i = .up → s.phase j = .up → i ≠ j → s.sentTo i j ≠ [] →
    ∃ m ∈ s.sentTo i j, (∀ t ∈ s.sentTo i j, t ≤ m) ∧ s.deadline i = some (m + cfg.I)
  gap : ∀ i j, s.phase i = .up → s.phase j = .up → i ≠ j → Gapless (cfg.I + slack) (s.sentTo i j)
  got : ∀ i j, s.phase i = .up → s.phase j = .up → i ≠ j → ∀ t ∈ s.sentTo i j,
    (∃ p ∈ s.net, p.src = i ∧ p.dst = j ∧ p.sent = t) ∨ ∃ l, seen cfg s j i = some l ∧ t ≤ l

theorem mem_send {cfg : Cfg} {s : St} {i : Nat} {m : MType} {p : Packet} :
    p ∈ (send cfg s i m).net ↔
      p ∈ s.net ∨ (p.src = i ∧ p.dst < cfg.n ∧ p.dst ≠ i ∧ listens cfg s p.dst ∧ p.type = m ∧ p.sent = s.now) := by
  cases p with | mk a b c d =>
  simp only [send, List.mem_append, List.mem_map, List.mem_filter, List.mem_range]
  constructor
  · rintro (h | ⟨j, ⟨h1, h2⟩, h3⟩)
    · exact .inl h
    · simp at h2 h3
      obtain ⟨rfl, rfl, rfl, rfl⟩ := h3
      exact .inr ⟨rfl, h1, h2.1, h2.2, rfl, rfl⟩
  · rintro (h | ⟨h1, h2, h3, h4, h5, h6⟩)
    · exact .inl h
    · simp at h1 h2 h3 h4 h5 h6
      subst h1 h5 h6
      exact .inr ⟨b, ⟨h2, by simp [h3, h4]⟩, rfl⟩

theorem listens_up {cfg : Cfg} {s : St} {j : Nat} (h : s.phase j = .up) : listens cfg s j = true := by
  simp [listens, h]

theorem listens_there {cfg : Cfg} {s : St} {j : Nat} (h : listens cfg s j = true) : s.phase j ≠ .absent := by
  intro hc
  simp [listens, hc] at h

theorem inv_send {cfg : Cfg} {slack : Nat} {s : St} (i : Nat) (m : MType) (h : Inv cfg slack s) (hp : s.phase i ≠ .absent)
    (hm : m = .close → s.phase i ≠ .up) : Inv cfg slack (send cfg s i m) := by
  refine ⟨h.range, ?_, h.born, ?_, h.dl, h.past, h.last, h.gap, ?_⟩
  · intro k hk
    refine ⟨(h.young k hk).1, ?_⟩
    intro p hpn
    rcases mem_send.1 hpn with hpn | ⟨h1, -⟩
    · exact (h.young k hk).2 p hpn
    · rintro rfl; exact hp (h1 ▸ hk)
  · intro k hk p hpn hs
    rcases mem_send.1 hpn with hpn | ⟨h1, _, _, _, h5, _⟩
    · exact h.alive k hk p hpn hs
    · intro hc
      exact hm (h5 ▸ hc) (by rw [← h1, hs]; exact hk)
  · intro a b ha hb hab t ht
    rcases h.got a b ha hb hab t ht with ⟨p, h1, h2⟩ | h1
    · exact .inl ⟨p, mem_send.2 (.inl h1), h2⟩
    · exact .inr h1

theorem inv_publish {cfg : Cfg} {slack : Nat} {s : St} (i : Nat) (m : MType) (h : Inv cfg slack s) (hp : s.phase i ≠ .absent)
    (hm : m ≠ .close)
    (hd : ∀ i d, s.phase i = .up → s.deadline i = some d → s.now ≤ d + slack) : Inv cfg slack (publish cfg s i m) := by
  have hnet : ∀ p, p ∈ (publish cfg s i m).net ↔
      p ∈ s.net ∨ (p.src = i ∧ p.dst < cfg.n ∧ p.dst ≠ i ∧ listens cfg s p.dst ∧ p.type = m ∧ p.sent = s.now) :=
    fun p => mem_send
  have hst : ∀ a b, (publish cfg s i m).sentTo a b =
      if a = i ∧ b < cfg.n ∧ b ≠ i ∧ listens cfg s b then s.sentTo a b ++ [s.now] else s.sentTo a b := fun _ _ => rfl
  have hdl : ∀ k, (publish cfg s i m).deadline k = if k = i then some (s.now + cfg.I) else s.deadline k := fun _ => rfl
  refine ⟨h.range, ?_, ?_, ?_, ?_, ?_, ?_, ?_, ?_⟩
  · intro k hk
    have hki : k ≠ i := fun hc => hp (hc ▸ hk)
    refine ⟨by rw [hdl, if_neg hki]; exact (h.young k hk).1, ?_⟩
    intro p hpn
    rcases (hnet p).1 hpn with hpn | ⟨h1, -⟩
    · exact (h.young k hk).2 p hpn
    · rw [h1]; exact fun hc => hki hc.symm
  · intro a b hab
    rw [hst]
    split
    · next hc =>
      rcases hab with hab | hab
      · exact absurd (hc.1 ▸ hab) hp
      · exact absurd hab (listens_there hc.2.2.2)
    · exact h.born a b hab
  · intro k hk p hpn hs
    rcases (hnet p).1 hpn with hpn | ⟨_, _, _, _, h5, _⟩
    · exact h.alive k hk p hpn hs
    · rw [h5]; exact hm
  · intro k d hk
    rw [hdl] at hk
    split at hk
    · simp at hk; show d ≤ s.now + cfg.I; omega
    · exact h.dl k d hk
  · intro a b t ht
    rw [hst] at ht
    split at ht
    · rcases List.mem_append.1 ht with ht | ht
      · exact h.past a b t ht
      · simp at ht; show t ≤ s.now; omega
    · exact h.past a b t ht
  · intro a b ha hb hab hne
    rw [hst] at hne ⊢
    by_cases hc : a = i
    · have hcc : a = i ∧ b < cfg.n ∧ b ≠ i ∧ listens cfg s b :=
        ⟨hc, h.range b (by rw [show s.phase b = .up from hb]; simp), fun hx => hab (hc.trans hx.symm), listens_up hb⟩
      rw [if_pos hcc]
      refine ⟨s.now, by simp, ?_, by rw [hdl, if_pos hc]⟩
      intro t ht
      rcases List.mem_append.1 ht with ht | ht
      · exact h.past a b t ht
      · simp at ht; omega
    · have hcc : ¬ (a = i ∧ b < cfg.n ∧ b ≠ i ∧ listens cfg s b) := fun hx => hc hx.1
      rw [if_neg hcc] at hne ⊢
      rw [hdl, if_neg hc]
      exact h.last a b ha hb hab hne
  · intro a b ha hb hab
    rw [hst]
    split
    · apply gapless_snoc (h.gap a b ha hb hab) (h.past a b)
      intro hne
      obtain ⟨l, hl1, _, hl3⟩ := h.last a b ha hb hab hne
      have := hd a _ ha hl3
      exact ⟨l, hl1, by omega⟩
    · exact h.gap a b ha hb hab
  · intro a b ha hb hab t ht
    rw [hst] at ht
    have old : t ∈ s.sentTo a b → (∃ p ∈ (publish cfg s i m).net, p.src = a ∧ p.dst = b ∧ p.sent = t) ∨
        ∃ l, seen cfg (publish cfg s i m) b a = some l ∧ t ≤ l := by
      intro ht
      rcases h.got a b ha hb hab t ht with ⟨p, h1, h2⟩ | h1
      · exact .inl ⟨p, (hnet p).2 (.inl h1), h2⟩
      · exact .inr h1
    split at ht
    · next hc =>
      rcases List.mem_append.1 ht with ht | ht
      · exact old ht
      · simp at ht
        subst ht
        exact .inl ⟨⟨i, b, m, s.now⟩, (hnet _).2 (.inr ⟨rfl, hc.2.1, hc.2.2.1, hc.2.2.2, rfl, rfl⟩), hc.1.symm, rfl, rfl⟩
    · exact old ht

theorem publish_phase (cfg : Cfg) (s : St) (i : Nat) (m : MType) : (publish cfg s i m).phase = s.phase := rfl

theorem mem_eraseIdx_or {α} {l : List α} {k : Nat} {a p : α} (h : a ∈ l) (hk : l[k]? = some p) :
    a = p ∨ a ∈ l.eraseIdx k := by
  induction l generalizing k with
  | nil => cases h
  | cons b l ih =>
    cases k with
    | zero =>
      simp at hk
      rcases List.mem_cons.1 h with h | h
      · exact .inl (h.trans hk)
      · exact .inr (by simpa using h)
    | succ k =>
      simp at hk
      rcases List.mem_cons.1 h with h | h
      · exact .inr (by simp [h])
      · rcases ih h hk with h | h
        · exact .inl h
        · exact .inr (by simp [h])

/-- The state after `OnMessage` has recorded the sender. -/
def noted (cfg : Cfg) (s : St) (k : Nat) (p : Packet) : St :=
  { s with net := s.net.eraseIdx k
           nodes := fun x => if x = p.dst then onMessage (cfg.uid x) (s.nodes x) (cfg.uid p.src) p.type s.now else s.nodes x }

theorem deliver_eq (cfg : Cfg) (s : St) (k : Nat) (p : Packet) (hk : s.net[k]? = some p) :
    step cfg s (.deliver k) =
      if listens cfg s p.dst then
        (if p.type = .initialHeartbeat then publish cfg (noted cfg s k p) p.dst .heartbeat else noted cfg s k p)
      else { s with net := s.net.eraseIdx k } := by
  simp only [step, hk, receive]
  rfl

theorem seen_noted {cfg : Cfg} (hu : GoodUids cfg) (s : St) (k : Nat) (p : Packet) (j i : Nat) (hij : i ≠ j) :
    seen cfg (noted cfg s k p) j i =
      if j = p.dst ∧ i = p.src then (if p.type = .close then none else some s.now) else seen cfg s j i := by
  by_cases hj : j = p.dst
  · have e : seen cfg (noted cfg s k p) j i = (onMessage (cfg.uid j) (s.nodes j) (cfg.uid p.src) p.type s.now).nodes.get? (cfg.uid i) := by
      simp [seen, noted, hj]
    rw [e, onMessage_get _ _ _ _ _ _ (fun hc => hij (hu.inj _ _ hc)) (hu.emitter i)]
    by_cases hi : i = p.src
    · simp [hj, hi]
    · have : ¬ cfg.uid p.src = cfg.uid i := fun hc => hi (hu.inj _ _ hc).symm
      simp [hi, this, seen]
  · simp [seen, noted, hj]

theorem inv_noted {cfg : Cfg} (hu : GoodUids cfg) {slack : Nat} {s : St} (k : Nat) (p : Packet) (h : Inv cfg slack s)
    (hk : s.net[k]? = some p) : Inv cfg slack (noted cfg s k p) := by
  have sub : ∀ q ∈ (noted cfg s k p).net, q ∈ s.net := fun q hq => List.mem_of_mem_eraseIdx hq
  refine ⟨h.range, fun i hi => ⟨(h.young i hi).1, fun q hq => (h.young i hi).2 q (sub q hq)⟩, h.born,
    fun i hi q hq => h.alive i hi q (sub q hq), h.dl, h.past, h.last, h.gap, ?_⟩
  intro i j hi hj hij t ht
  have hpt := h.past i j t ht
  rw [seen_noted hu s k p j i hij]
  by_cases hc : j = p.dst ∧ i = p.src
  · rw [if_pos hc, if_neg (h.alive i hi p (List.mem_of_getElem? hk) hc.2.symm)]
    exact .inr ⟨s.now, rfl, hpt⟩
  · rw [if_neg hc]
    rcases h.got i j hi hj hij t ht with ⟨q, h1, h2, h3, h4⟩ | h1
    · rcases mem_eraseIdx_or h1 hk with hq | hq
      · exact absurd ⟨by rw [← h3, hq], by rw [← h2, hq]⟩ hc
      · exact .inl ⟨q, hq, h2, h3, h4⟩
    · exact .inr h1

theorem inv_lost {cfg : Cfg} {slack : Nat} {s : St} (k : Nat) (p : Packet) (h : Inv cfg slack s)
    (hk : s.net[k]? = some p) (hl : ¬ listens cfg s p.dst = true) : Inv cfg slack { s with net := s.net.eraseIdx k } := by
  have sub : ∀ q ∈ s.net.eraseIdx k, q ∈ s.net := fun q hq => List.mem_of_mem_eraseIdx hq
  refine ⟨h.range, fun i hi => ⟨(h.young i hi).1, fun q hq => (h.young i hi).2 q (sub q hq)⟩, h.born,
    fun i hi q hq => h.alive i hi q (sub q hq), h.dl, h.past, h.last, h.gap, ?_⟩
  intro i j hi hj hij t ht
  rcases h.got i j hi hj hij t ht with ⟨q, h1, h2, h3, h4⟩ | h1
  · rcases mem_eraseIdx_or h1 hk with hq | hq
    · exact absurd (listens_up (by rw [← hq, h3]; exact hj)) hl
    · exact .inl ⟨q, hq, h2, h3, h4⟩
  · exact .inr h1

theorem seen_cleanup (cfg : Cfg) (s : St) (k : Nat) (o : List Uid) (j i : Nat) (hk : s.phase k = .up) :
    seen cfg (step cfg s (.cleanup k o)) j i =
      if j = k then (seen cfg s j i).filter (fun τ => decide (s.now ≤ τ + cfg.T)) else seen cfg s j i := by
  simp only [step, hk, if_true, seen]
  split
  · rw [cleanup_get]
  · rfl

/-- A server whose heartbeats arrive is not given up. -/
theorem fresh {cfg : Cfg} {slack delay : Nat} {s : St} (h : Inv cfg slack s) (hp : Prompt slack delay s)
    (hT : cfg.I + slack + delay ≤ cfg.T) {i j : Nat} (hi : s.phase i = .up) (hj : s.phase j = .up) (hij : i ≠ j) {t l : Nat}
    (ht : t ∈ s.sentTo i j) (hs : seen cfg s j i = some l) (htl : t ≤ l) : s.now ≤ l + cfg.T := by
  rcases h.gap i j hi hj hij l ⟨t, ht, htl⟩ with hall | ⟨u, hu, h1, h2⟩
  · obtain ⟨m, hm1, _, hm3⟩ := h.last i j hi hj hij (List.ne_nil_of_mem ht)
    have := hp.1 i _ hi hm3
    have := hall m hm1
    omega
  · rcases h.got i j hi hj hij u hu with ⟨q, q1, q2, q3, q4⟩ | ⟨l', hl, hul⟩
    · have := hp.2 q q1 (by rw [q3]; exact hj)
      omega
    · rw [hs] at hl
      cases hl
      omega

theorem inv_step {cfg : Cfg} (hu : GoodUids cfg) {slack delay : Nat} (hT : cfg.I + slack + delay ≤ cfg.T) {s : St}
    (h : Inv cfg slack s) (hp : Prompt slack delay s) (e : Ev) : Inv cfg slack (step cfg s e) := by
  cases e with
  | tick d =>
    refine ⟨h.range, h.young, h.born, h.alive, ?_, ?_, h.last, h.gap, h.got⟩
    · intro i x hx
      have := h.dl i x hx
      show x ≤ s.now + d + cfg.I
      omega
    · intro i j t ht
      have := h.past i j t ht
      show t ≤ s.now + d
      omega
  | create i =>
    simp only [step]
    split
    · next hc =>
      have up : ∀ k, (if k = i then Phase.up else s.phase k) = .up → k = i ∨ s.phase k = .up := by
        intro k hk; split at hk
        · next hx => exact .inl hx
        · exact .inr hk
      have ab : ∀ k, (if k = i then Phase.up else s.phase k) = .absent → s.phase k = .absent := by
        intro k hk; split at hk
        · cases hk
        · exact hk
      have nil : ∀ a b, (if a = i then Phase.up else s.phase a) = .up → (if b = i then Phase.up else s.phase b) = .up →
          (s.phase a = .up ∧ s.phase b = .up) ∨ s.sentTo a b = [] := by
        intro a b ha hb
        rcases up a ha with ha | ha
        · exact .inr (h.born a b (.inl (ha ▸ hc.2)))
        · rcases up b hb with hb | hb
          · exact .inr (h.born a b (.inr (hb ▸ hc.2)))
          · exact .inl ⟨ha, hb⟩
      refine ⟨?_, fun k hk => h.young k (ab k hk), fun a b hab => h.born a b (hab.imp (ab a) (ab b)), ?_, h.dl, h.past, ?_, ?_, ?_⟩
      · intro j hj
        simp only at hj
        split at hj
        · next hx => rw [hx]; exact hc.1
        · exact h.range j hj
      · intro k hk p hpn hs
        rcases up k hk with hk | hk
        · exact absurd (hs.trans hk) ((h.young i hc.2).2 p hpn)
        · exact h.alive k hk p hpn hs
      · intro a b ha hb hab hne
        rcases nil a b ha hb with ⟨h1, h2⟩ | h1
        · exact h.last a b h1 h2 hab hne
        · exact absurd h1 hne
      · intro a b ha hb hab
        rcases nil a b ha hb with ⟨h1, h2⟩ | h1
        · exact h.gap a b h1 h2 hab
        · intro x hx
          simp only [h1] at hx
          obtain ⟨t, ht, _⟩ := hx
          cases ht
      · intro a b ha hb hab t ht
        rcases nil a b ha hb with ⟨h1, h2⟩ | h1
        · exact h.got a b h1 h2 hab t ht
        · simp only [h1] at ht; cases ht
    · exact h
  | init i =>
    simp only [step]
    split
    · next hc => exact inv_publish i _ h (by rw [hc]; simp) (by simp) hp.1
    · exact h
  | request i =>
    simp only [step]
    split
    · next hc => exact inv_publish i _ h (by rw [hc]; simp) (by simp) hp.1
    · exact h
  | broadcast i =>
    simp only [step]
    split
    · next hc => exact inv_send i _ h (by rw [hc]; simp) (by simp)
    · exact h
  | fire i =>
    simp only [step]
    split
    · next d hd =>
      split
      · refine inv_publish i _ h ?_ (by simp) hp.1
        intro hc
        rw [(h.young i hc).1] at hd
        cases hd
      · exact h
    · exact h
  | cleanup k o =>
    by_cases hk : s.phase k = .up
    · have hnet : (step cfg s (.cleanup k o)).net = s.net := by simp [step, hk]
      have hph : (step cfg s (.cleanup k o)).phase = s.phase := by simp [step, hk]
      have hst : (step cfg s (.cleanup k o)).sentTo = s.sentTo := by simp [step, hk]
      have hdl : (step cfg s (.cleanup k o)).deadline = s.deadline := by simp [step, hk]
      have hnow : (step cfg s (.cleanup k o)).now = s.now := by simp [step, hk]
      refine ⟨by rw [hph]; exact h.range, by rw [hph, hdl, hnet]; exact h.young, by rw [hph, hst]; exact h.born,
        by rw [hph, hnet]; exact h.alive, by rw [hdl, hnow]; exact h.dl, by rw [hst, hnow]; exact h.past,
        by rw [hph, hst, hdl]; exact h.last, by rw [hph, hst]; exact h.gap, ?_⟩
      rw [hph, hst, hnet]
      intro i j hi hj hij t ht
      rcases h.got i j hi hj hij t ht with h1 | ⟨l, h1, h2⟩
      · exact .inl h1
      · right
        refine ⟨l, ?_, h2⟩
        rw [seen_cleanup cfg s k o j i hk, h1]
        have := fresh h hp hT hi hj hij ht h1 h2
        split
        · simp [Option.filter, this]
        · rfl
    · simp [step, hk]; exact h
  | deliver k =>
    cases hk : s.net[k]? with
    | none => simp [step, hk]; exact h
    | some p =>
      rw [deliver_eq cfg s k p hk]
      split
      · next hl =>
        split
        · exact inv_publish p.dst _ (inv_noted hu k p h hk) (listens_there hl) (by simp) hp.1
        · exact inv_noted hu k p h hk
      · next hl => exact inv_lost k p h hk hl
  | close i =>
    simp only [step]
    split
    · next hc =>
      have up : ∀ k, (if k = i then Phase.closed else s.phase k) = .up → k ≠ i ∧ s.phase k = .up := by
        intro k hk; split at hk
        · cases hk
        · next hx => exact ⟨hx, hk⟩
      have ab : ∀ k, (if k = i then Phase.closed else s.phase k) = .absent → k ≠ i ∧ s.phase k = .absent := by
        intro k hk; split at hk
        · cases hk
        · next hx => exact ⟨hx, hk⟩
      have hst : ∀ a b, a ≠ i → (publish cfg s i .close).sentTo a b = s.sentTo a b := by
        intro a b ha
        simp [publish, send, ha]
      have hdl : ∀ a, a ≠ i → (publish cfg s i .close).deadline a = s.deadline a := by
        intro a ha
        simp [publish, send, ha]
      have hnet : ∀ p, p ∈ (publish cfg s i .close).net ↔ p ∈ s.net ∨ (p.src = i ∧ p.dst < cfg.n ∧ p.dst ≠ i ∧
          listens cfg s p.dst ∧ p.type = .close ∧ p.sent = s.now) := fun p => mem_send
      refine ⟨?_, ?_, ?_, ?_, ?_, ?_, ?_, ?_, ?_⟩
      · intro j hj
        apply h.range
        intro hx
        simp only [publish_phase] at hj
        split at hj
        · next hji => rw [hji, hc] at hx; cases hx
        · exact hj hx
      · intro k hk
        obtain ⟨h1, h2⟩ := ab k hk
        refine ⟨by simp only [if_neg h1]; rw [hdl k h1]; exact (h.young k h2).1, ?_⟩
        intro p hpn
        rcases (hnet p).1 hpn with hpn | ⟨h3, -⟩
        · exact (h.young k h2).2 p hpn
        · rw [h3]; exact fun hx => h1 hx.symm
      · intro a b hab
        have hnil : s.sentTo a b = [] := by
          rcases hab with hab | hab
          · exact h.born a b (.inl (ab a hab).2)
          · exact h.born a b (.inr (ab b hab).2)
        show (publish cfg s i .close).sentTo a b = []
        by_cases ha : a = i
        · rcases hab with hab | hab
          · exact absurd ha (ab a hab).1
          · have : listens cfg s b = false := by simp [listens, (ab b hab).2]
            simp [publish, send, this, hnil]
        · rw [hst a b ha, hnil]
      · intro k hk p hpn hs
        obtain ⟨h1, h2⟩ := up k hk
        rcases (hnet p).1 hpn with hpn | ⟨h3, -⟩
        · exact h.alive k h2 p hpn hs
        · exact absurd (hs.symm.trans h3) h1
      · intro k d hk
        simp only at hk
        split at hk
        · cases hk
        · next hx =>
          rw [hdl k hx] at hk
          exact h.dl k d hk
      · intro a b t ht
        by_cases ha : a = i
        · have ht' : t ∈ (if a = i ∧ b < cfg.n ∧ b ≠ i ∧ listens cfg s b then s.sentTo a b ++ [s.now] else s.sentTo a b) := ht
          show t ≤ s.now
          split at ht'
          · rcases List.mem_append.1 ht' with ht' | ht'
            · exact h.past a b t ht'
            · simp at ht'; omega
          · exact h.past a b t ht'
        · have ht' : t ∈ (publish cfg s i .close).sentTo a b := ht
          rw [hst a b ha] at ht'
          exact h.past a b t ht'
      · intro a b ha hb hab hne
        obtain ⟨h1, h2⟩ := up a ha
        obtain ⟨h3, h4⟩ := up b hb
        have := h.last a b h2 h4 hab (by rw [← hst a b h1]; exact hne)
        show ∃ m ∈ (publish cfg s i .close).sentTo a b, (∀ t ∈ (publish cfg s i .close).sentTo a b, t ≤ m) ∧
          (if a = i then none else (publish cfg s i .close).deadline a) = some (m + cfg.I)
        rw [hst a b h1, if_neg h1, hdl a h1]
        exact this
      · intro a b ha hb hab
        obtain ⟨h1, h2⟩ := up a ha
        obtain ⟨h3, h4⟩ := up b hb
        show Gapless _ ((publish cfg s i .close).sentTo a b)
        rw [hst a b h1]
        exact h.gap a b h2 h4 hab
      · intro a b ha hb hab t ht
        obtain ⟨h1, h2⟩ := up a ha
        obtain ⟨h3, h4⟩ := up b hb
        have ht' : t ∈ (publish cfg s i .close).sentTo a b := ht
        rw [hst a b h1] at ht'
        rcases h.got a b h2 h4 hab t ht' with ⟨q, q1, q2⟩ | h5
        · exact .inl ⟨q, (hnet q).2 (.inl q1), q2⟩
        · exact .inr h5
    · exact h

theorem prompt_prefix {cfg : Cfg} {slack delay : Nat} {h : List Ev} {e : Ev} (hp : AlwaysPrompt cfg slack delay (h ++ [e])) :
    AlwaysPrompt cfg slack delay h :=
  fun h₁ h₂ hh => hp h₁ (h₂ ++ [e]) (by rw [hh, List.append_assoc])

theorem inv_run {cfg : Cfg} (hu : GoodUids cfg) {slack delay : Nat} (hT : cfg.I + slack + delay ≤ cfg.T) (h : List Ev)
    (hp : AlwaysPrompt cfg slack delay h) : Inv cfg slack (run cfg h) := by
  induction h using snocRec with
  | nil => constructor <;> simp [run, Gapless]
  | append_singleton h e ih =>
    rw [run_snoc]
    exact inv_step hu hT (ih (prompt_prefix hp)) (hp h [e] rfl) e

theorem publish_deadline (cfg : Cfg) (s : St) (i : Nat) (m : MType) (k : Nat) :
    (publish cfg s i m).deadline k = if k = i then some (s.now + cfg.I) else s.deadline k := rfl

theorem publish_sentTo (cfg : Cfg) (s : St) (i : Nat) (m : MType) (a b : Nat) :
    (publish cfg s i m).sentTo a b =
      if a = i ∧ b < cfg.n ∧ b ≠ i ∧ listens cfg s b then s.sentTo a b ++ [s.now] else s.sentTo a b := rfl

theorem step_phase (cfg : Cfg) (s : St) (e : Ev) (k : Nat) :
    (step cfg s e).phase k = s.phase k ∨ (s.phase k = .absent ∧ (step cfg s e).phase k = .up) ∨
      (s.phase k = .up ∧ (step cfg s e).phase k = .closed ∧ e = .close k) := by
  cases e with
  | tick d => exact .inl rfl
  | create i =>
    simp only [step]
    split
    · next hc =>
      by_cases hk : k = i
      · subst hk; simp [hc.2]
      · simp [hk]
    · exact .inl rfl
  | init i => simp only [step]; split <;> exact .inl rfl
  | request i => simp only [step]; split <;> exact .inl rfl
  | broadcast i => simp only [step]; split <;> exact .inl rfl
  | fire i => simp only [step]; repeat' split
              all_goals exact .inl rfl
  | cleanup i o => simp only [step]; split <;> exact .inl rfl
  | deliver n =>
    left
    cases hn : s.net[n]? with
    | none => simp [step, hn]
    | some p => rw [deliver_eq cfg s n p hn]; repeat' split
                all_goals rfl
  | close i =>
    simp only [step]
    split
    · next hc =>
      by_cases hk : k = i
      · subst hk; simp [hc]
      · simp [hk, publish_phase]
    · exact .inl rfl

/-- A server that is up and was there before has been up before. -/
theorem up_before {cfg : Cfg} {s : St} {e : Ev} {k : Nat} (hk : (step cfg s e).phase k = .up) (h0 : s.phase k ≠ .absent) :
    s.phase k = .up := by
  rcases step_phase cfg s e k with h | h | h
  · rw [← h, hk]
  · exact absurd h.1 h0
  · exact h.1

theorem there_run (cfg : Cfg) (h₁ h₂ : List Ev) (k : Nat) (h0 : (run cfg h₁).phase k ≠ .absent) :
    (run cfg (h₁ ++ h₂)).phase k ≠ .absent := by
  induction h₂ using snocRec with
  | nil => simpa using h0
  | append_singleton h₂ e ih =>
    rw [← List.append_assoc, run_snoc]
    rcases step_phase cfg (run cfg (h₁ ++ h₂)) e k with h | h | h
    · rw [h]; exact ih
    · exact absurd h.1 ih
    · rw [h.2.1]; simp

theorem closed_run (cfg : Cfg) (h₁ h₂ : List Ev) (k : Nat) (h0 : (run cfg h₁).phase k = .closed) :
    (run cfg (h₁ ++ h₂)).phase k = .closed := by
  induction h₂ using snocRec with
  | nil => simpa using h0
  | append_singleton h₂ e ih =>
    rw [← List.append_assoc, run_snoc]
    rcases step_phase cfg (run cfg (h₁ ++ h₂)) e k with h | h | h
    · rw [h]; exact ih
    · rw [h.1] at ih; cases ih
    · rw [h.1] at ih; cases ih

/-- What one event does to the deadline of `i` and to what it has sent to `j`, while both are up: nothing, or `i`
publishes. -/
theorem step_beats {cfg : Cfg} {slack : Nat} {s : St} (h : Inv cfg slack s) (e : Ev) {i j : Nat} (hi : s.phase i = .up)
    (hj : s.phase j = .up) (hij : i ≠ j) (hi' : (step cfg s e).phase i = .up) :
    ((step cfg s e).deadline i = s.deadline i ∧ (step cfg s e).sentTo i j = s.sentTo i j) ∨
    ((step cfg s e).deadline i = some (s.now + cfg.I) ∧ (step cfg s e).sentTo i j = s.sentTo i j ++ [s.now]) := by
  have pub : ∀ (s' : St) k m, s'.phase = s.phase → s'.now = s.now → s'.deadline = s.deadline → s'.sentTo = s.sentTo →
      ((publish cfg s' k m).deadline i = s.deadline i ∧ (publish cfg s' k m).sentTo i j = s.sentTo i j) ∨
      ((publish cfg s' k m).deadline i = some (s.now + cfg.I) ∧ (publish cfg s' k m).sentTo i j = s.sentTo i j ++ [s.now]) := by
    intro s' k m h1 h2 h3 h4
    rw [publish_deadline, publish_sentTo]
    by_cases hk : i = k
    · right
      have hcc : i = k ∧ j < cfg.n ∧ j ≠ k ∧ listens cfg s' j :=
        ⟨hk, h.range j (by rw [hj]; simp), fun hx => hij (hk.trans hx.symm), listens_up (by rw [h1]; exact hj)⟩
      rw [if_pos hcc, if_pos hk, h2, h4]
      exact ⟨rfl, rfl⟩
    · left
      rw [if_neg hk, if_neg (fun hx => hk hx.1), h3, h4]
      exact ⟨rfl, rfl⟩
  cases e with
  | tick d => exact .inl ⟨rfl, rfl⟩
  | create k => simp only [step]; split <;> exact .inl ⟨rfl, rfl⟩
  | init k => simp only [step]; split
              · exact pub s k _ rfl rfl rfl rfl
              · exact .inl ⟨rfl, rfl⟩
  | request k => simp only [step]; split
                 · exact pub s k _ rfl rfl rfl rfl
                 · exact .inl ⟨rfl, rfl⟩
  | broadcast k => simp only [step]; split <;> exact .inl ⟨rfl, rfl⟩
  | fire k =>
    simp only [step]
    repeat' split
    · exact pub s k _ rfl rfl rfl rfl
    · exact .inl ⟨rfl, rfl⟩
    · exact .inl ⟨rfl, rfl⟩
  | cleanup k o => simp only [step]; split <;> exact .inl ⟨rfl, rfl⟩
  | deliver n =>
    cases hn : s.net[n]? with
    | none => simp [step, hn]
    | some p =>
      rw [deliver_eq cfg s n p hn]
      repeat' split
      · exact pub (noted cfg s n p) _ _ rfl rfl rfl rfl
      · exact .inl ⟨rfl, rfl⟩
      · exact .inl ⟨rfl, rfl⟩
  | close k =>
    simp only [step] at hi' ⊢
    split
    · next hc =>
      rw [if_pos hc] at hi'
      have hk : i ≠ k := by rintro rfl; simp at hi'
      left
      simp [hk, publish_deadline, publish_sentTo]
    · exact .inl ⟨rfl, rfl⟩

theorem step_now (cfg : Cfg) (s : St) (e : Ev) : s.now ≤ (step cfg s e).now := by
  cases e with
  | tick d => simp [step]
  | deliver n =>
    cases hn : s.net[n]? with
    | none => simp [step, hn]
    | some p => rw [deliver_eq cfg s n p hn]; repeat' split
                all_goals exact Nat.le_refl _
  | _ => simp only [step]; repeat' split
         all_goals exact Nat.le_refl _

theorem run_now (cfg : Cfg) (h₁ h₂ : List Ev) : (run cfg h₁).now ≤ (run cfg (h₁ ++ h₂)).now := by
  induction h₂ using snocRec with
  | nil => simp
  | append_singleton h₂ e ih =>
    rw [← List.append_assoc, run_snoc]
    exact Nat.le_trans ih (step_now _ _ _)

/-- From a moment on at which both are up and `i` is beating, `i` sends something to `j` in time. -/
theorem first_beat {cfg : Cfg} (hu : GoodUids cfg) {slack delay : Nat} (hT : cfg.I + slack + delay ≤ cfg.T) (h₁ h₂ : List Ev)
    (hp : AlwaysPrompt cfg slack delay (h₁ ++ h₂)) {i j : Nat} (hij : i ≠ j) (hi : (run cfg h₁).phase i = .up)
    (hj : (run cfg h₁).phase j = .up) (hb : Beating (run cfg h₁) i) (hi' : (run cfg (h₁ ++ h₂)).phase i = .up)
    (hj' : (run cfg (h₁ ++ h₂)).phase j = .up) :
    ((run cfg (h₁ ++ h₂)).sentTo i j = [] → ∃ d, (run cfg (h₁ ++ h₂)).deadline i = some d ∧ d ≤ (run cfg h₁).now + cfg.I) ∧
    ((run cfg (h₁ ++ h₂)).sentTo i j ≠ [] → ∃ t ∈ (run cfg (h₁ ++ h₂)).sentTo i j, t ≤ (run cfg h₁).now + cfg.I + slack) := by
  induction h₂ using snocRec with
  | nil =>
    simp only [List.append_nil] at hp ⊢
    have inv := inv_run hu hT h₁ hp
    constructor
    · intro _
      cases hd : (run cfg h₁).deadline i with
      | none => exact absurd hd hb
      | some d => exact ⟨d, rfl, inv.dl i d hd⟩
    · intro hne
      obtain ⟨m, hm1, _, _⟩ := inv.last i j hi hj hij hne
      have := inv.past i j m hm1
      exact ⟨m, hm1, by omega⟩
  | append_singleton h₂ e ih =>
    rw [← List.append_assoc] at hp hi' hj' ⊢
    rw [run_snoc] at hi' hj' ⊢
    have hp0 := prompt_prefix hp
    have inv := inv_run hu hT (h₁ ++ h₂) hp0
    have hiu := up_before hi' (there_run cfg h₁ h₂ i (by rw [hi]; simp))
    have hju := up_before hj' (there_run cfg h₁ h₂ j (by rw [hj]; simp))
    obtain ⟨ih1, ih2⟩ := ih hp0 hiu hju
    rcases step_beats inv e hiu hju hij hi' with ⟨h1, h2⟩ | ⟨h1, h2⟩
    · rw [h1, h2]; exact ⟨ih1, ih2⟩
    · rw [h1, h2]
      refine ⟨by simp, ?_⟩
      intro _
      by_cases hnil : (run cfg (h₁ ++ h₂)).sentTo i j = []
      · obtain ⟨d, hd1, hd2⟩ := ih1 hnil
        have := (hp (h₁ ++ h₂) [e] rfl).1 i d hiu hd1
        exact ⟨(run cfg (h₁ ++ h₂)).now, by simp, by omega⟩
      · obtain ⟨t, ht, ht2⟩ := ih2 hnil
        exact ⟨t, by simp [ht], ht2⟩

/-! ### After `Close` -/

/-- Server `i` is gone since time `A`. -/
structure Gone (cfg : Cfg) (delay A : Nat) (s : St) (i j : Nat) : Prop where
  dead : s.deadline i = none
  sent : ∀ p ∈ s.net, p.src = i → p.sent ≤ A
  known : ∀ l, seen cfg s j i = some l → l ≤ A + delay

theorem gone_pub {cfg : Cfg} {delay A : Nat} {s : St} {i j : Nat} (h : Gone cfg delay A s i j) (k : Nat) (m : MType)
    (hk : k ≠ i) : Gone cfg delay A (publish cfg s k m) i j := by
  refine ⟨by rw [publish_deadline, if_neg (fun hx => hk hx.symm)]; exact h.dead, ?_, h.known⟩
  intro p hp hs
  rcases mem_send.1 hp with hp | ⟨h1, -⟩
  · exact h.sent p hp hs
  · exact absurd (h1.symm.trans hs) hk

theorem gone_send {cfg : Cfg} {delay A : Nat} {s : St} {i j : Nat} (h : Gone cfg delay A s i j) (k : Nat) (m : MType)
    (hk : k ≠ i) : Gone cfg delay A (send cfg s k m) i j := by
  refine ⟨h.dead, ?_, h.known⟩
  intro p hp hs
  rcases mem_send.1 hp with hp | ⟨h1, -⟩
  · exact h.sent p hp hs
  · exact absurd (h1.symm.trans hs) hk

theorem gone_noted {cfg : Cfg} (hu : GoodUids cfg) {slack delay A : Nat} {s : St} {i j : Nat} (hij : i ≠ j)
    (h : Gone cfg delay A s i j) (hp : Prompt slack delay s) (hj : s.phase j = .up) (k : Nat) (p : Packet)
    (hk : s.net[k]? = some p) : Gone cfg delay A (noted cfg s k p) i j := by
  refine ⟨h.dead, fun q hq => h.sent q (List.mem_of_mem_eraseIdx hq), ?_⟩
  intro l hl
  rw [seen_noted hu s k p j i hij] at hl
  split at hl
  · next hc =>
    have hmem := List.mem_of_getElem? hk
    have h1 := h.sent p hmem hc.2.symm
    have h2 := hp.2 p hmem (by rw [← hc.1]; exact hj)
    split at hl
    · cases hl
    · cases hl; omega
  · exact h.known l hl

theorem gone_step {cfg : Cfg} (hu : GoodUids cfg) (hdeaf : cfg.deaf = true) {slack delay A : Nat} {s : St} {i j : Nat}
    (hij : i ≠ j) (h : Gone cfg delay A s i j) (hp : Prompt slack delay s) (hi : s.phase i = .closed) (hj : s.phase j = .up)
    (e : Ev) : Gone cfg delay A (step cfg s e) i j := by
  have ne : ∀ k, s.phase k = .up → k ≠ i := by rintro k hk rfl; rw [hi] at hk; cases hk
  cases e with
  | tick d => exact ⟨h.dead, h.sent, h.known⟩
  | create k => simp only [step]; split
                · exact ⟨h.dead, h.sent, h.known⟩
                · exact h
  | init k => simp only [step]; split
              · next hk => exact gone_pub h k _ (ne k hk)
              · exact h
  | request k => simp only [step]; split
                 · next hk => exact gone_pub h k _ (ne k hk)
                 · exact h
  | broadcast k => simp only [step]; split
                   · next hk => exact gone_send h k _ (ne k hk)
                   · exact h
  | fire k =>
    simp only [step]
    split
    · next d hd =>
      split
      · exact gone_pub h k _ (by rintro rfl; rw [h.dead] at hd; cases hd)
      · exact h
    · exact h
  | cleanup k o =>
    by_cases hk : s.phase k = .up
    · refine ⟨by simp [step, hk]; exact h.dead, by simp [step, hk]; exact h.sent, ?_⟩
      intro l hl
      rw [seen_cleanup cfg s k o j i hk] at hl
      split at hl
      · exact h.known l (Option.eq_some_of_filter_eq_some hl)
      · exact h.known l hl
    · simp [step, hk]; exact h
  | deliver n =>
    cases hn : s.net[n]? with
    | none => simp [step, hn]; exact h
    | some p =>
      rw [deliver_eq cfg s n p hn]
      split
      · next hl =>
        split
        · refine gone_pub (gone_noted hu hij h hp hj n p hn) _ _ ?_
          rintro hx
          simp [hx, listens, hi, hdeaf] at hl
        · exact gone_noted hu hij h hp hj n p hn
      · exact ⟨h.dead, fun q hq => h.sent q (List.mem_of_mem_eraseIdx hq), h.known⟩
  | close k =>
    simp only [step]
    split
    · next hk =>
      have g := gone_pub h k .close (ne k hk)
      refine ⟨?_, g.sent, g.known⟩
      show (if i = k then none else (publish cfg s k .close).deadline i) = none
      split
      · rfl
      · exact g.dead
    · exact h

/-- Everything recorded and under way is of the past; a closed server has no timer. -/
structure Old (cfg : Cfg) (s : St) : Prop where
  sent : ∀ p ∈ s.net, p.sent ≤ s.now
  known : ∀ j i l, i ≠ j → seen cfg s j i = some l → l ≤ s.now
  dead : cfg.deaf = true → ∀ i, s.phase i = .closed → s.deadline i = none

theorem old_step {cfg : Cfg} (hu : GoodUids cfg) {s : St} (h : Old cfg s) (e : Ev) : Old cfg (step cfg s e) := by
  have pub : ∀ (s : St) k m, Old cfg s → (cfg.deaf = true → s.phase k ≠ .closed) → Old cfg (publish cfg s k m) := by
    intro s k m h hk
    refine ⟨?_, h.known, ?_⟩
    · intro p hp
      rcases mem_send.1 hp with hp | ⟨_, _, _, _, _, h6⟩
      · exact h.sent p hp
      · exact Nat.le_of_eq h6
    · intro hd i hi
      rw [publish_deadline, if_neg]
      · exact h.dead hd i hi
      · rintro rfl; exact hk hd hi
  cases e with
  | tick d =>
    refine ⟨fun p hp => ?_, fun j i l hij hl => ?_, h.dead⟩
    · have := h.sent p hp; show p.sent ≤ s.now + d; omega
    · have := h.known j i l hij hl; show l ≤ s.now + d; omega
  | create k =>
    simp only [step]
    split
    · refine ⟨h.sent, h.known, ?_⟩
      intro hd i hi
      simp only at hi
      split at hi
      · cases hi
      · exact h.dead hd i hi
    · exact h
  | init k => simp only [step]; split
              · next hk => exact pub s k _ h (by rw [hk]; simp)
              · exact h
  | request k => simp only [step]; split
                 · next hk => exact pub s k _ h (by rw [hk]; simp)
                 · exact h
  | broadcast k =>
    simp only [step]; split
    · refine ⟨?_, h.known, h.dead⟩
      intro p hp
      rcases mem_send.1 hp with hp | ⟨_, _, _, _, _, h6⟩
      · exact h.sent p hp
      · exact Nat.le_of_eq h6
    · exact h
  | fire k =>
    simp only [step]
    split
    · next d hd =>
      split
      · refine pub s k _ h ?_
        intro hde hc
        rw [h.dead hde k hc] at hd
        cases hd
      · exact h
    · exact h
  | cleanup k o =>
    by_cases hk : s.phase k = .up
    · refine ⟨by simp [step, hk]; exact h.sent, ?_, by simp [step, hk]; exact h.dead⟩
      intro j i l hij hl
      have hnow : (step cfg s (.cleanup k o)).now = s.now := by simp [step, hk]
      rw [hnow]
      rw [seen_cleanup cfg s k o j i hk] at hl
      split at hl
      · exact h.known j i l hij (Option.eq_some_of_filter_eq_some hl)
      · exact h.known j i l hij hl
    · simp [step, hk]; exact h
  | deliver n =>
    cases hn : s.net[n]? with
    | none => simp [step, hn]; exact h
    | some p =>
      have hno : Old cfg (noted cfg s n p) := by
        refine ⟨fun q hq => h.sent q (List.mem_of_mem_eraseIdx hq), ?_, h.dead⟩
        intro j i l hij hl
        rw [seen_noted hu s n p j i hij] at hl
        split at hl
        · split at hl
          · cases hl
          · cases hl; exact Nat.le_refl _
        · exact h.known j i l hij hl
      rw [deliver_eq cfg s n p hn]
      split
      · next hl =>
        split
        · refine pub _ _ _ hno ?_
          intro hd hc
          have hc' : s.phase p.dst = .closed := hc
          simp [listens, hc', hd] at hl
        · exact hno
      · exact ⟨fun q hq => h.sent q (List.mem_of_mem_eraseIdx hq), h.known, h.dead⟩
  | close k =>
    simp only [step]
    split
    · next hk =>
      have g := pub s k .close h (by rw [hk]; simp)
      refine ⟨g.sent, g.known, ?_⟩
      intro hd i hi
      show (if i = k then none else (publish cfg s k .close).deadline i) = none
      split
      · rfl
      · next hik =>
        rw [show ({ publish cfg s k .close with
            deadline := fun x => if x = k then none else (publish cfg s k .close).deadline x
            phase := fun x => if x = k then .closed else (publish cfg s k .close).phase x } : St).phase i = s.phase i by
          simp [hik, publish_phase]] at hi
        exact g.dead hd i hi
    · exact h

theorem old_run {cfg : Cfg} (hu : GoodUids cfg) (h : List Ev) : Old cfg (run cfg h) := by
  induction h using snocRec with
  | nil => exact ⟨by simp [run], by intro j i l _ hl; simp [run, seen, FMap.get?] at hl, by simp [run]⟩
  | append_singleton h e ih => rw [run_snoc]; exact old_step hu ih e

theorem gone_run {cfg : Cfg} (hu : GoodUids cfg) (hdeaf : cfg.deaf = true) {slack delay : Nat} (h₁ h₂ : List Ev)
    (hp : AlwaysPrompt cfg slack delay (h₁ ++ h₂)) {i j : Nat} (hij : i ≠ j) (hi : (run cfg h₁).phase i = .closed)
    (hj : (run cfg h₁).phase j = .up) (hj' : (run cfg (h₁ ++ h₂)).phase j = .up) :
    Gone cfg delay (run cfg h₁).now (run cfg (h₁ ++ h₂)) i j := by
  induction h₂ using snocRec with
  | nil =>
    have o := old_run hu h₁
    simp only [List.append_nil]
    refine ⟨o.dead hdeaf i hi, fun p hp _ => o.sent p hp, ?_⟩
    intro l hl
    have := o.known j i l hij hl
    omega
  | append_singleton h₂ e ih =>
    rw [← List.append_assoc] at hp hj' ⊢
    rw [run_snoc] at hj' ⊢
    have hju := up_before hj' (there_run cfg h₁ h₂ j (by rw [hj]; simp))
    exact gone_step hu hdeaf hij (ih (prompt_prefix hp) hju) (hp (h₁ ++ h₂) [e] rfl) (closed_run cfg h₁ h₂ i hi) hju e

/-- Once a closed server is forgotten and its messages have all arrived, it stays forgotten. -/
theorem gone_none {cfg : Cfg} (hu : GoodUids cfg) {slack delay A : Nat} {s : St} {i j : Nat} (hij : i ≠ j)
    (h : Gone cfg delay A s i j) (hp : Prompt slack delay s) (hj : s.phase j = .up) (hn : A + delay < s.now)
    (hs : seen cfg s j i = none) (e : Ev) : seen cfg (step cfg s e) j i = none := by
  cases e with
  | cleanup k o =>
    by_cases hk : s.phase k = .up
    · rw [seen_cleanup cfg s k o j i hk, hs]; split <;> rfl
    · simp [step, hk]; exact hs
  | deliver n =>
    cases hk : s.net[n]? with
    | none => simp [step, hk]; exact hs
    | some p =>
      have hno : seen cfg (noted cfg s n p) j i = none := by
        rw [seen_noted hu s n p j i hij]
        split
        · next hc =>
          have hmem := List.mem_of_getElem? hk
          have := h.sent p hmem hc.2.symm
          have := hp.2 p hmem (by rw [← hc.1]; exact hj)
          omega
        · exact hs
      rw [deliver_eq cfg s n p hk]
      repeat' split
      · exact hno
      · exact hno
      · exact hs
  | tick d => exact hs
  | _ => simp only [step]; repeat' split
         all_goals exact hs

/-! ### A server that says nothing -/

structure Mute (cfg : Cfg) (s : St) (i j : Nat) : Prop where
  dead : s.deadline i = none
  noInit : ∀ p ∈ s.net, p.type ≠ .initialHeartbeat
  noNews : ∀ p ∈ s.net, p.src = i → p.type = .close
  none : seen cfg s j i = none

theorem mute_send {cfg : Cfg} {s : St} {i j : Nat} (h : Mute cfg s i j) (k : Nat) (m : MType) (hm : m ≠ .initialHeartbeat)
    (hk : k = i → m = .close) : Mute cfg (send cfg s k m) i j := by
  refine ⟨h.dead, ?_, ?_, h.none⟩
  · intro p hp
    rcases mem_send.1 hp with hp | ⟨_, _, _, _, h5, _⟩
    · exact h.noInit p hp
    · rw [h5]; exact hm
  · intro p hp hs
    rcases mem_send.1 hp with hp | ⟨h1, _, _, _, h5, _⟩
    · exact h.noNews p hp hs
    · rw [h5]; exact hk (h1.symm.trans hs)

theorem mute_pub {cfg : Cfg} {s : St} {i j : Nat} (h : Mute cfg s i j) (k : Nat) (m : MType) (hm : m ≠ .initialHeartbeat)
    (hk : k ≠ i) : Mute cfg (publish cfg s k m) i j := by
  have h' : Mute cfg { s with
    deadline := fun x => if x = k then some (s.now + cfg.I) else s.deadline x
    sentTo := fun a b => if a = k ∧ b < cfg.n ∧ b ≠ k ∧ listens cfg s b then s.sentTo a b ++ [s.now] else s.sentTo a b } i j :=
    ⟨by show (if i = k then some (s.now + cfg.I) else s.deadline i) = none
        rw [if_neg (fun hx => hk hx.symm)]; exact h.dead, h.noInit, h.noNews, h.none⟩
  exact mute_send h' k m hm (fun hx => absurd hx hk)

theorem mute_step {cfg : Cfg} (hu : GoodUids cfg) {s : St} {i j : Nat} (hij : i ≠ j) (h : Mute cfg s i j) (e : Ev)
    (h1 : ∀ k, e ≠ .init k) (h2 : e ≠ .request i) (h3 : e ≠ .broadcast i) : Mute cfg (step cfg s e) i j := by
  cases e with
  | tick d => exact ⟨h.dead, h.noInit, h.noNews, h.none⟩
  | create k => simp only [step]; split
                · exact ⟨h.dead, h.noInit, h.noNews, h.none⟩
                · exact h
  | init k => exact absurd rfl (h1 k)
  | request k => simp only [step]; split
                 · exact mute_pub h k _ (by simp) (by rintro rfl; exact h2 rfl)
                 · exact h
  | broadcast k => simp only [step]; split
                   · exact mute_send h k _ (by simp) (by rintro rfl; exact absurd rfl h3)
                   · exact h
  | fire k =>
    simp only [step]
    split
    · next d hd =>
      split
      · exact mute_pub h k _ (by simp) (by rintro rfl; rw [h.dead] at hd; cases hd)
      · exact h
    · exact h
  | cleanup k o =>
    by_cases hk : s.phase k = .up
    · refine ⟨by simp [step, hk]; exact h.dead, by simp [step, hk]; exact h.noInit, by simp [step, hk]; exact h.noNews, ?_⟩
      rw [seen_cleanup cfg s k o j i hk, h.none]; split <;> rfl
    · simp [step, hk]; exact h
  | deliver n =>
    cases hk : s.net[n]? with
    | none => simp [step, hk]; exact h
    | some p =>
      have hmem := List.mem_of_getElem? hk
      rw [deliver_eq cfg s n p hk, if_neg (h.noInit p hmem)]
      split
      · refine ⟨h.dead, fun q hq => h.noInit q (List.mem_of_mem_eraseIdx hq),
          fun q hq => h.noNews q (List.mem_of_mem_eraseIdx hq), ?_⟩
        rw [seen_noted hu s n p j i hij]
        split
        · next hc => rw [if_pos (h.noNews p hmem hc.2.symm)]
        · exact h.none
      · exact ⟨h.dead, fun q hq => h.noInit q (List.mem_of_mem_eraseIdx hq),
          fun q hq => h.noNews q (List.mem_of_mem_eraseIdx hq), h.none⟩
  | close k =>
    simp only [step]
    split
    · have g : Mute cfg (send cfg s k .close) i j := mute_send h k .close (by simp) (fun _ => rfl)
      refine ⟨?_, g.noInit, g.noNews, g.none⟩
      show (if i = k then none else (publish cfg s k .close).deadline i) = none
      rw [publish_deadline]
      repeat' split
      · rfl
      · exact h.dead
    · exact h

theorem mute_run {cfg : Cfg} (hu : GoodUids cfg) {i j : Nat} (hij : i ≠ j) (h : List Ev) (hinit : ∀ k, .init k ∉ h)
    (hreq : .request i ∉ h) (hbc : .broadcast i ∉ h) : Mute cfg (run cfg h) i j := by
  induction h using snocRec with
  | nil => exact ⟨rfl, by simp [run], by simp [run], rfl⟩
  | append_singleton h e ih =>
    rw [run_snoc]
    refine mute_step hu hij (ih (fun k hk => hinit k (by simp [hk])) (fun hk => hreq (by simp [hk]))
      (fun hk => hbc (by simp [hk]))) e ?_ ?_ ?_
    · rintro k rfl; exact hinit k (by simp)
    · rintro rfl; exact hreq (by simp)
    · rintro rfl; exact hbc (by simp)

/-! ### Checking a given history -/

def promptB (cfg : Cfg) (slack delay : Nat) (s : St) : Bool :=
  (List.range cfg.n).all (fun i => match s.deadline i with
    | some d => decide (s.now ≤ d + slack)
    | none => true) && s.net.all (fun p => decide (s.now ≤ p.sent + delay))

theorem phase_range (cfg : Cfg) (h : List Ev) (k : Nat) (hk : (run cfg h).phase k ≠ .absent) : k < cfg.n := by
  induction h using snocRec with
  | nil => simp [run] at hk
  | append_singleton h e ih =>
    rw [run_snoc] at hk
    by_cases h0 : (run cfg h).phase k = .absent
    · cases e with
      | create i =>
        simp only [step] at hk
        split at hk
        · next hc =>
          by_cases hki : k = i
          · rw [hki]; exact hc.1
          · simp [hki] at hk; exact absurd h0 hk
        · exact absurd h0 hk
      | close i =>
        rcases step_phase cfg (run cfg h) (.close i) k with h1 | ⟨_, h1⟩ | ⟨h1, _⟩
        · exact absurd (h1.trans h0) hk
        · simp only [step] at h1
          split at h1
          · simp only [publish_phase] at h1
            split at h1
            · cases h1
            · rw [h0] at h1; cases h1
          · rw [h0] at h1; cases h1
        · rw [h0] at h1; cases h1
      | tick d => exact absurd h0 hk
      | deliver n =>
        exfalso
        apply hk
        rw [← h0]
        cases hn : (run cfg h).net[n]? with
        | none => simp [step, hn]
        | some p => rw [deliver_eq cfg _ n p hn]; repeat' split
                    all_goals rfl
      | _ =>
        exfalso
        apply hk
        rw [← h0]
        simp only [step]
        repeat' split
        all_goals rfl
    · exact ih h0

theorem alwaysPrompt_of (cfg : Cfg) (slack delay : Nat) (h : List Ev)
    (hc : (List.range (h.length + 1)).all (fun n => promptB cfg slack delay (run cfg (h.take n))) = true) :
    AlwaysPrompt cfg slack delay h := by
  intro h₁ h₂ hh
  have e : h.take h₁.length = h₁ := by rw [hh]; simp
  have hb := List.all_eq_true.1 hc h₁.length (by simp [hh]; omega)
  rw [e] at hb
  simp only [promptB, Bool.and_eq_true, List.all_eq_true] at hb
  refine ⟨?_, ?_⟩
  · intro i d hi hd
    have := hb.1 i (by simpa using phase_range cfg h₁ i (by rw [hi]; simp))
    rw [hd] at this
    simpa using this
  · intro p hp _
    simpa using hb.2 p hp

end Verif.Beat
