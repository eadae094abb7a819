import Verif.Proof.ClusterAck

/-! # C45: acknowledgements of a broadcast in a cluster -/

namespace Verif.Props
open Verif Verif.Spec Verif.ClusterAck

section
variable (c : Cfg) (hn : 1 ≤ c.n) (notLocal : c.isLocal = false) (known : c.serverCount = c.n)
  (one : ∀ j a, a ∈ c.clients j → a.length = 1)
include hn notLocal known one

/-- **C45**, all servers known, one value per answer, responses handled one at a time.  For every number of
servers and clients and every order in which requests, reports, answers and responses travel: as long as a
report or an answer is missing the callback is not called; as soon as none is missing it has been called once,
with the answers of all clients of all servers. -/
theorem C45_complete_partial (h : List ClusterAck.Ev) (nt : NoTimeout h) :
    (¬ AllArrived (run c h) → (run c h).col.calls = []) ∧
    (AllArrived (run c h) → ∃ l, (run c h).col.calls = [.ok l] ∧ l.Perm (allAnswers c)) := by
  obtain ⟨hp, hw⟩ := conserved c hn h nt.2
  have hev : ∀ x ∈ (run c h).evs, isArrival x = true := evs_noFire c h nt.1 (fun h' hpre =>
    (conserved c hn h' (fun hm => nt.2 (hpre.subset hm))).2)
  rw [arr_self hev] at hp
  have hf := full_perm hp (full_total c notLocal known one)
  have hat := Collector.at_run _ _ hf hev
  rw [evs_run c h]
  constructor
  · intro hna
    have hne : rest c (run c h) ≠ [] := fun e => hna ((rest_nil c _).1 e)
    have : (rest c (run c h)).any isArrival = true := by
      obtain ⟨x, hx⟩ := List.exists_mem_of_ne_nil _ hne
      exact List.any_eq_true.2 ⟨x, hx, rest_arrival c _ hw x hx⟩
    rw [this] at hat
    simpa using hat.calls
  · intro ha
    have hr := (rest_nil c _).2 ha
    rw [hr] at hat hp
    refine ⟨_, by simpa using hat.calls, ?_⟩
    rw [List.append_nil] at hp
    rw [← answers_total c notLocal]
    exact answersOf_perm hp

/-- **C45**, with the timers (of the collector and of the list of open requests) expiring at any time: the
callback is called at most once; without an error only with the answers of all clients of all servers; and
once the timer has expired it has been called. -/
theorem C45_once_partial (h : List ClusterAck.Ev) :
    ((run c h).col.calls = [] ∧ .fire ∉ h) ∨
    (∃ l, (run c h).col.calls = [.ok l] ∧ l.Perm (allAnswers c)) ∨
    (∃ l, (run c h).col.calls = [.err l]) := by
  obtain ⟨lost, hp, _⟩ := conserved_lost c hn h
  rw [List.append_assoc] at hp
  have := calls_of (full_total c notLocal known one) hp
  rw [answers_total c notLocal] at this
  rw [evs_run c h]
  rcases this with ⟨a, b⟩ | h | h
  · exact .inl ⟨a, fun hm => b (fire_mem c h hm)⟩
  · exact .inr (.inl h)
  · exact .inr (.inr h)

end

/-- Three servers with two, none and one clients. -/
def cfg45 : Cfg where
  n := 3
  clients := fun j => if j = 0 then [[.str "a"], [.str "b"]] else if j = 2 then [[.str "c"]] else []
  isLocal := false
  serverCount := 3

example : ∀ j a, a ∈ cfg45.clients j → a.length = 1 := by
  intro j a ha
  simp only [cfg45] at ha
  split at ha
  · simp at ha; rcases ha with rfl | rfl <;> rfl
  · split at ha
    · simp at ha; rw [ha]; rfl
    · simp at ha

/-- The answer of the client of the third server overtakes the report of that server. -/
def sched45 : List ClusterAck.Ev :=
  [.arrive 1, .answer 2, .report 0, .deliver 0, .servers, .report 0, .answer 1, .arrive 0, .report 0, .deliver 1,
   .answer 0, .deliver 0]

example : NoTimeout sched45 ∧ AllArrived (run cfg45 sched45) ∧
    (run cfg45 sched45).col.calls = [.ok [.str "c", .str "b", .str "a"]] ∧
    ¬ AllArrived (run cfg45 (sched45.take 11)) := by
  refine ⟨⟨by decide, by decide⟩, by decide, by decide, by decide⟩

/-- **C45**: once the request is forgotten, a response of another server that arrives changes nothing of what has been collected, and
calls nothing. -/
theorem C45_expired (c : Cfg) (h₁ h₂ : List ClusterAck.Ev) (k : Nat) :
    (run c (h₁ ++ .expire :: h₂ ++ [.deliver k])).col = (run c (h₁ ++ .expire :: h₂)).col := by
  have stays : ∀ (e : ClusterAck.Ev) (s : ClusterAck.St), s.open_ = false → (step c s e).open_ = false := by
    intro e s hs
    cases e <;> simp only [step] <;> (try split) <;> (try split) <;> simp_all [St.collect]
  have closed : (run c (h₁ ++ .expire :: h₂)).open_ = false := by
    simp only [run, List.foldl_append, List.foldl_cons]
    generalize List.foldl (step c) (init c) h₁ = s
    have : (step c s .expire).open_ = false := rfl
    revert this
    generalize step c s .expire = s
    induction h₂ generalizing s with
    | nil => exact id
    | cons e h₂ ih => exact fun hs => ih _ (stays e s hs)
  have : run c (h₁ ++ .expire :: h₂ ++ [.deliver k]) = step c (run c (h₁ ++ .expire :: h₂)) (.deliver k) := by
    simp [run, List.foldl_append]
  rw [this]
  simp only [step, closed]
  split <;> rfl

/-- An answer under way when the request is forgotten. -/
example : (run cfg45 (sched45.take 4 ++ [.expire, .arrive 0, .report 1, .report 0])).responses ≠ [] := by decide

/-- **C45 fails with the Local flag**: nothing is published, only the calling server reports, but the
callback waits for as many reports as there are servers.  In a cluster of several servers it is never called
without an error, whatever arrives. -/
theorem C45_local_false (c : Cfg) (hn : 1 ≤ c.n) (hl : c.isLocal = true) (several : 2 ≤ c.serverCount)
    (h : List ClusterAck.Ev) : ∀ l, .ok l ∉ (run c h).col.calls := by
  have hrep : ∀ h', h' <+: (run c h).evs → reports h' ≤ 1 := by
    intro h' hpre
    have := local_reports c hl hn h
    have e : reports (run c h).evs = reports (arr (run c h).evs) := by
      generalize (run c h).evs = l
      induction l with
      | nil => rfl
      | cons x l ih =>
        have e1 : ∀ l : List Collector.Ev, reports (x :: l) = reports [x] + reports l := fun l =>
          Collector.reports_append [x] l
        cases x
        case fire => rw [e1, ih]; simp [arr, isArrival, reports]
        all_goals
          rw [e1, ih]
          simp only [arr, isArrival, List.filter_cons, if_true]
          rw [← e1]
    obtain ⟨t, ht⟩ := hpre
    have : reports (run c h).evs = reports h' + reports t := by rw [← ht, Collector.reports_append]
    omega
  have hsrv : ∀ k, .servers k ∈ (run c h).evs → k = c.serverCount := by
    intro k hk
    obtain ⟨lost, hp, _⟩ := conserved_lost c hn h
    have : Collector.Ev.servers k ∈ total c := by
      apply hp.mem_iff.1
      simp only [List.mem_append]
      exact .inl (.inl (List.mem_filter.2 ⟨hk, rfl⟩))
    simp only [total, hl, if_true, List.mem_cons, List.flatMap_cons, List.flatMap_nil, List.append_nil] at this
    rcases this with h | h
    · cases h; rfl
    · simp [part] at h
  rw [evs_run c h]
  generalize (run c h).evs = evs at hrep hsrv
  have key : ∀ evs : List Collector.Ev, (∀ h', h' <+: evs → reports h' ≤ 1) →
      (∀ k, .servers k ∈ evs → k = c.serverCount) →
      (Collector.run false evs).actualServers = reports evs ∧
      ((Collector.run false evs).expectedServers = -1 ∨ (Collector.run false evs).expectedServers = c.serverCount) ∧
      (Collector.run false evs).panicked = false ∧
      ∀ l, .ok l ∉ (Collector.run false evs).calls := by
    intro evs
    induction evs using snocRec with
    | nil => intro _ _; refine ⟨rfl, .inl rfl, rfl, ?_⟩; intro l hl; simp [Collector.run] at hl
    | append_singleton evs e ih =>
      intro h1 h2
      obtain ⟨i1, i2, i3, i4⟩ := ih (fun h' hp => h1 h' (hp.trans (List.prefix_append _ _)))
        (fun k hk => h2 k (by simp [hk]))
      have hr : Collector.run false (evs ++ [e]) = Collector.step false (Collector.run false evs) e := by
        simp [Collector.run]
      have hone := h1 (evs ++ [e]) (List.prefix_refl _)
      rw [Collector.reports_append] at hone
      have he2 : ∀ k, e = .servers k → k = c.serverCount := fun k hk => h2 k (by simp [hk])
      rw [hr, Collector.reports_append]
      generalize Collector.run false evs = r at i1 i2 i3 i4
      have ck : ∀ s : Collector.St, s.actualServers ≤ 1 →
          (s.expectedServers = -1 ∨ s.expectedServers = c.serverCount) → Collector.check false s = s := by
        intro s ha hx
        simp only [Collector.check]
        rw [if_neg]
        rintro ⟨_, hb, _⟩
        rcases hx with hx | hx <;> omega
      simp only [Collector.step, i3, Bool.false_eq_true, if_false]
      cases e with
      | count m =>
        have : reports [Collector.Ev.count m] = 1 := rfl
        rw [this] at hone ⊢
        simp only
        rw [ck _ (by show _ ≤ 1; simp only; omega) (by exact i2)]
        exact ⟨by simp [i1], i2, rfl, i4⟩
      | answer a =>
        have : reports [Collector.Ev.answer a] = 0 := rfl
        rw [this] at hone ⊢
        simp only
        rw [ck _ (by show _ ≤ 1; simp only; omega) (by exact i2)]
        exact ⟨by simp [i1], i2, rfl, i4⟩
      | servers k =>
        have : reports [Collector.Ev.servers k] = 0 := rfl
        rw [this] at hone ⊢
        have := he2 k rfl
        subst this
        simp only
        rw [ck _ (by simp only; omega) (.inr rfl)]
        exact ⟨by simp [i1], .inr rfl, rfl, i4⟩
      | fire =>
        have : reports [Collector.Ev.fire] = 0 := rfl
        rw [this]
        simp only [Collector.fire]
        split
        · refine ⟨by simp [i1], i2, i3, ?_⟩
          intro l hl
          rcases List.mem_append.1 hl with h | h
          · exact i4 l h
          · simp at h
        · exact ⟨by simp [i1], i2, i3, i4⟩
  exact (key evs hrep hsrv).2.2.2

/-- Two servers, the only client of the calling one answers; everything has arrived, nothing is called. -/
example :
    let c : Cfg := { n := 2, clients := fun _ => [[.str "a"]], isLocal := true, serverCount := 2 }
    AllArrived (run c [.report 0, .servers, .answer 0]) ∧ (run c [.report 0, .servers, .answer 0]).col.calls = [] := by
  decide

end Verif.Props
