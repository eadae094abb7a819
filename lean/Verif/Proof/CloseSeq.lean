import Verif.Spec.CloseSeq
import Verif.Proof.CloseLoop
import Verif.Proof.WorldClose
import Verif.Proof.WorldKeep

/-! A call of `Model/CloseLoop` during which nothing else happens does what `Server.Close` does to one namespace in `Model/World`. -/

namespace Verif.CloseLoop
open Verif Verif.Spec

/-- `n` steps of call `k`. -/
def advs (k : Nat) : Nat → St → St
  | 0, s => s
  | n + 1, s => advs k n (step s (.adv k))

theorem advs_add (k n m : Nat) (s : St) : advs k (n + m) s = advs k m (advs k n s) := by
  induction n generalizing s with
  | zero => simp [advs]
  | succ n ih => rw [Nat.succ_add]; exact ih _

theorem advs_run (k n : Nat) (s : St) : (List.replicate n (Ev.adv k)).foldl step s = advs k n s := by
  induction n generalizing s with
  | zero => rfl
  | succ n ih => simpa [List.replicate_succ, advs] using ih _

theorem advs_back (k n : Nat) (s : St) (h : cameBack s k) : advs k n s = s := by
  induction n with
  | zero => rfl
  | succ n ih =>
    have : step s (.adv k) = s := by
      have h' : s.calls[k]? = some ([], LPC.next) := h
      simp only [step, advance, h', act]
      have : s.calls.set k ([], LPC.next) = s.calls := by
        apply List.ext_getElem?
        intro i
        rw [List.getElem?_set]
        split
        · next e =>
          subst e
          rw [h']
          split
          · rfl
          · next hl =>
            rw [List.getElem?_eq_none (by omega)] at h'; cases h'
        · rfl
      rw [this]
    rw [advs, this]; exact ih

theorem advs_unique {k n m : Nat} {s : St} (h : cameBack (advs k n s) k) (h' : cameBack (advs k m s) k) : advs k n s = advs k m s := by
  rcases Nat.le_total n m with hl | hl
  · obtain ⟨d, rfl⟩ := Nat.exists_eq_add_of_le hl
    rw [advs_add, advs_back _ _ _ h]
  · obtain ⟨d, rfl⟩ := Nat.exists_eq_add_of_le hl
    rw [advs_add, advs_back _ _ _ h']

theorem adv_at {s : St} {k : Nat} {t : List Nat} {pc : LPC} (h : s.calls[k]? = some (t, pc)) :
    (step s (.adv k)).sk = (act s t pc).1.sk ∧ (step s (.adv k)).log = (act s t pc).1.log ∧
      (step s (.adv k)).calls[k]? = some (act s t pc).2 := by
  have hl : k < s.calls.length := by
    by_cases hl : k < s.calls.length
    · exact hl
    · rw [List.getElem?_eq_none (by omega)] at h; cases h
  have e : step s (.adv k) = { (act s t pc).1 with calls := s.calls.set k (act s t pc).2 } := by simp only [step, advance, h]
  rw [e]
  exact ⟨rfl, rfl, by simp [hl]⟩

/-- The call passes over a socket that is not in the namespace. -/
theorem pass {s : St} {k id : Nat} {ids : List Nat} (h : s.calls[k]? = some (id :: ids, .next)) (hi : (s.sk id).inNsp = false) :
    (advs k 1 s).sk = s.sk ∧ (advs k 1 s).log = s.log ∧ (advs k 1 s).calls[k]? = some (ids, .next) := by
  have := adv_at h
  simpa [act, hi, advs] using this

/-- The call closes a socket. -/
theorem shut {s : St} {k id : Nat} {ids : List Nat} (h : s.calls[k]? = some (id :: ids, .next)) (hi : (s.sk id).inNsp = true)
    (hc : (s.sk id).connected = true) :
    (advs k 7 s).sk = World.upd s.sk id { s.sk id with inNsp := false, canJoin := false, connected := false } ∧
      (advs k 7 s).log = s.log ++ [id] ∧ (advs k 7 s).calls[k]? = some (ids, .next) := by
  obtain ⟨a1, b1, c1⟩ := adv_at h
  simp only [act, hi, if_true] at a1 b1 c1
  obtain ⟨a2, b2, c2⟩ := adv_at c1
  simp only [act, a1, hc, if_true] at a2 b2 c2
  obtain ⟨a3, b3, c3⟩ := adv_at c2
  simp only [act, a1, a2] at a3 b3 c3
  obtain ⟨a4, b4, c4⟩ := adv_at c3
  simp only [act, a1, a2, a3] at a4 b4 c4
  obtain ⟨a5, b5, c5⟩ := adv_at c4
  simp only [act, a1, a2, a3, a4] at a5 b5 c5
  obtain ⟨a6, b6, c6⟩ := adv_at c5
  simp only [act, a1, a2, a3, a4, a5] at a6 b6 c6
  obtain ⟨a7, b7, c7⟩ := adv_at c6
  simp only [act] at a7 b7 c7
  refine ⟨?_, ?_, c7⟩
  · simp only [advs]
    rw [a7, a6]
    funext j
    simp only [World.upd_apply]
    split <;> simp_all
  · simp only [advs]
    rw [b7, b6, b5, b4, b3, b2, b1]

open World in
theorem same_onclose {cfg : Cfg} {w : W} {s s' : St} (S : SameClosing w s) {ref : Nat} (reason : String)
    (hc : (w.socks ref).connected = true) (hr : (w.nss (w.socks ref).ns).sockets.get? (w.socks ref).sid = some ref)
    (h1 : s'.sk = upd s.sk ref { s.sk ref with inNsp := false, canJoin := false, connected := false }) (h2 : s'.log = s.log ++ [ref]) :
    SameClosing (onclose cfg w ref reason) s' := by
  obtain ⟨f1, f2, -⟩ := onclose_effect cfg reason hc
  have hns : ∀ r, ((onclose cfg w ref reason).socks r).ns = (w.socks r).ns ∧ ((onclose cfg w ref reason).socks r).sid = (w.socks r).sid := by
    intro r; rw [f1]; by_cases e : r = ref
    · subst e; simp [closed]
    · simp [upd_ne _ _ e]
  refine ⟨fun r => ?_, fun r => ?_, fun r => ?_, ?_⟩
  · rw [(hns r).1, (hns r).2, f2, h1]
    by_cases e : r = ref
    · subst e; simp
    · rw [upd_ne _ _ e, S.inNsp r]
      split
      · next en =>
        by_cases es : (w.socks r).sid = (w.socks ref).sid
        · rw [es, FMap.get?_erase_self]
          constructor
          · intro hg
            rw [en, hr] at hg
            exact absurd (Option.some.inj hg).symm e
          · intro h; cases h
        · rw [FMap.get?_erase_ne (Ne.symm es)]
      · rfl
  · rw [f1, h1]; by_cases e : r = ref
    · subst e; simp [closed]
    · simp [upd_ne _ _ e, S.connected]
  · rw [f1, h1]; by_cases e : r = ref
    · subst e; simp [closed]
    · simp [upd_ne _ _ e, S.canJoin]
  · rw [h2, S.events, onclose_log cfg reason hc]
    simp only [List.filterMap_append]
    congr 1
    split <;> simp

open World in
/-- The loop over the sockets of one namespace. -/
theorem close_loop (cfg : Cfg) (n k : Nat) (f : Sid → Nat) (l : List Sid) {w : W} {s : St} (hs : InvS w) (S : SameClosing w s)
    (hf : ∀ sid ∈ l, (w.socks (f sid)).ns = n ∧ (w.socks (f sid)).sid = sid ∧ ∀ r, (w.nss n).sockets.get? sid = some r → r = f sid)
    (hk : s.calls[k]? = some (l.map f, .next)) :
    ∃ m, SameClosing (l.foldl (closeSid cfg n) w) (advs k m s) ∧ cameBack (advs k m s) k := by
  induction l generalizing w s with
  | nil => exact ⟨0, S, hk⟩
  | cons a l ih =>
    obtain ⟨f1, f2, f3⟩ := hf a List.mem_cons_self
    rw [List.foldl_cons]
    cases hg : (w.nss n).sockets.get? a with
    | none =>
      have hi : (s.sk (f a)).inNsp = false := by
        cases hb : (s.sk (f a)).inNsp with
        | false => rfl
        | true => have := (S.inNsp _).1 hb; rw [f1, f2, hg] at this; cases this
      obtain ⟨g1, g2, g3⟩ := pass hk hi
      have e : closeSid cfg n w a = w := by simp [closeSid, hg]
      rw [e]
      obtain ⟨m, h1, h2⟩ := ih hs (s := advs k 1 s) ⟨by rw [g1]; exact S.inNsp, by rw [g1]; exact S.connected, by rw [g1]; exact S.canJoin,
        by rw [g2]; exact S.events⟩ (fun sid h => hf sid (List.mem_cons_of_mem _ h)) g3
      exact ⟨1 + m, by rw [advs_add]; exact h1, by rw [advs_add]; exact h2⟩
    | some r =>
      have er := f3 r hg
      subst er
      obtain ⟨-, -, hc⟩ := hs.reg _ _ _ hg
      have hr : (w.nss (w.socks (f a)).ns).sockets.get? (w.socks (f a)).sid = some (f a) := by rw [f1, f2]; exact hg
      obtain ⟨g1, g2, g3⟩ := shut hk ((S.inNsp _).2 hr) (by rw [S.connected]; exact hc)
      have e : closeSid cfg n w a = onclose cfg w (f a) "server shutting down" := by simp [closeSid, hg]
      rw [e]
      obtain ⟨o1, o2, -⟩ := onclose_effect cfg "server shutting down" hc
      obtain ⟨m, h1, h2⟩ := ih (invS_onclose hs _ _ _) (s := advs k 7 s) (same_onclose S _ hc hr g1 g2) (fun sid h => by
        obtain ⟨q1, q2, q3⟩ := hf sid (List.mem_cons_of_mem _ h)
        refine ⟨?_, ?_, fun r hr' => q3 r ?_⟩
        · rw [o1, upd_apply]; split
          · next e => rw [e] at q1; exact q1
          · exact q1
        · rw [o1, upd_apply]; split
          · next e => rw [e] at q2; exact q2
          · exact q2
        · rw [o2] at hr'
          split at hr'
          · rw [FMap.get?_erase] at hr'
            split at hr'
            · cases hr'
            · exact hr'
          · exact hr') g3
      exact ⟨7 + m, by rw [advs_add]; exact h1, by rw [advs_add]; exact h2⟩

open World in
theorem closeNs_loop (cfg : Cfg) (k : Nat) (name : String) {w : W} {s : St} (hs : InvS w) (S : SameClosing w s)
    (hk : s.calls[k]? = some (socketsIn w name, .next)) :
    ∃ m, SameClosing (closeNs cfg w name) (advs k m s) ∧ cameBack (advs k m s) k := by
  rw [closeNs_eq]
  unfold socketsIn at hk
  cases hn : w.nsps.get? name with
  | none => rw [hn] at hk; exact ⟨0, S, hk⟩
  | some n =>
    rw [hn] at hk
    let f : Sid → Nat := fun sid => ((w.nss n).sockets.get? sid).getD 0
    have hd : ∀ sid ∈ (w.nss n).sockets.keys, (w.nss n).sockets.get? sid = some (f sid) := by
      intro sid h
      obtain ⟨r, hr⟩ := Option.isSome_iff_exists.1 ((FMap.mem_keys_isSome _ _).1 h)
      simp [f, hr]
    have e : ((w.nss n).sockets.keys.filterMap fun sid => (w.nss n).sockets.get? sid) = (w.nss n).sockets.keys.map f := by
      generalize (w.nss n).sockets.keys = l at hd
      induction l with
      | nil => rfl
      | cons a l ih =>
        rw [List.filterMap_cons, hd a List.mem_cons_self, List.map_cons, ih fun sid h => hd sid (List.mem_cons_of_mem _ h)]
    simp only [e] at hk
    exact close_loop cfg n k f _ hs S (fun sid h => by
      obtain ⟨q1, q2, -⟩ := hs.reg _ _ _ (hd sid h)
      exact ⟨q1, q2, fun r hr => by rw [hd sid h] at hr; exact (Option.some.inj hr).symm⟩) hk

end Verif.CloseLoop
