import Verif.Proof.SharedPkt

/-!
# C102: in a cluster a broadcast has the same arguments everywhere
-/

namespace Verif.Props
open Verif Verif.Spec Verif.SharedPkt

/-- **C102, once**: whatever the transport does with the message, the sockets of a server are sent each broadcast at most once, and
once when everything has been handled. -/
theorem C102_once (c : SharedPkt.Cfg) (h : List SharedPkt.Ev) (j k : Nat) (hj : j < c.n) (hk : k < (run c h).calls.length) :
    (broadcastTo (run c h) j k).length ≤ 1 ∧ (AllHandled (run c h) → (broadcastTo (run c h) j k).length = 1) := by
  have ht := (tok_run c h).2.2 j k hj hk
  have e : (broadcastTo (run c h) j k).length = gotCount (run c h) j k := by
    unfold broadcastTo gotCount; rw [List.length_map, List.countP_eq_length_filter]
  refine ⟨by omega, fun hq => ?_⟩
  have h0 : ((run c h).ths.map (tok j k)).sum = 0 := by
    rw [show (run c h).ths.map (tok j k) = (run c h).ths.map fun _ => 0 from List.map_congr_left fun t hm => by
      simp [tok, hq t hm]]
    generalize (run c h).ths = l
    induction l with
    | nil => rfl
    | cons _ _ ih => simpa using ih
  omega

/-- **C102 (partial)**: if the transport copies the packet when it is given it, or if no offset is added, the sockets of every server
are sent the arguments of the call, followed by its offset if the packet is stored, and nothing else; whatever the order of the steps.
Missing: transports that keep the packet or copy it later, for which it is false (`C102_late_fails`, `C102_kept_fails`). -/
theorem C102_partial (c : SharedPkt.Cfg) (hp : c.prompt = true ∨ c.stored = false) (h : List SharedPkt.Ev) (j k : Nat) (hj : j < c.n)
    (cl : SharedPkt.Call) (hk : (run c h).calls[k]? = some cl) :
    (broadcastTo (run c h) j k = [] ∨ broadcastTo (run c h) j k = [sentFor c.stored cl]) ∧
    (AllHandled (run c h) → broadcastTo (run c h) j k = [sentFor c.stored cl]) := by
  obtain ⟨h1, h2⟩ := C102_once c h j k hj (List.getElem?_eq_some_iff.1 hk).1
  have hall : ∀ a ∈ broadcastTo (run c h) j k, a = sentFor c.stored cl := by
    intro a ha
    obtain ⟨x, hx, rfl⟩ := List.mem_map.1 ha
    obtain ⟨hx1, hx2⟩ := List.mem_filter.1 hx
    simp only [Bool.and_eq_true, beq_iff_eq] at hx2
    obtain ⟨cl', g1, g2⟩ := (pk_run c hp h).got x hx1
    rw [hx2.2, hk] at g1
    injection g1 with g1
    rw [g2, g1]
  revert h1 h2 hall
  generalize broadcastTo (run c h) j k = l
  intro h1 h2 hall
  match l with
  | [] => exact ⟨.inl rfl, fun hq => by have := h2 hq; simp at this⟩
  | [a] => rw [hall a (by simp)]; exact ⟨.inr rfl, fun _ => rfl⟩
  | _ :: _ :: _ => simp at h1

namespace Demo

/-- Two servers broadcast in a cluster of three; the messages arrive in an order of their own. -/
def twoCasts : List SharedPkt.Ev :=
  [.call 0 [.str "news", .num 1] "a", .call 1 [.str "news", .num 2] "b", .adv 0, .adv 1, .adv 4, .adv 4, .adv 0, .adv 2, .adv 2, .adv 4,
   .adv 1, .adv 0, .adv 5, .adv 1, .adv 5, .adv 2, .adv 3, .adv 5, .adv 3, .adv 3]

end Demo

/-- Non-vacuity: everything has been handled, and every server has got both. -/
example : (run ⟨3, true, true⟩ Demo.twoCasts).calls.length = 2 ∧ AllHandled (run ⟨3, true, true⟩ Demo.twoCasts) ∧
    broadcastTo (run ⟨3, true, true⟩ Demo.twoCasts) 2 0 = [[.str "news", .num 1, .str "a"]] ∧
    broadcastTo (run ⟨3, true, true⟩ Demo.twoCasts) 0 1 = [[.str "news", .num 2, .str "b"]] ∧
    AllHandled (run ⟨3, false, false⟩ Demo.twoCasts) ∧ broadcastTo (run ⟨3, false, false⟩ Demo.twoCasts) 2 0 = [[.str "news", .num 1]] := by decide

/-- **C102 fails** if the transport sends later: by then the packet has an offset, and the other server adds it again. -/
theorem C102_late_fails : ∃ h : List SharedPkt.Ev, h = [.call 0 [.str "news"] "a", .adv 0, .adv 0, .encode 1, .adv 1, .adv 1, .adv 0, .adv 1] ∧
    AllHandled (run ⟨2, false, true⟩ h) ∧ broadcastTo (run ⟨2, false, true⟩ h) 0 0 = [[.str "news", .str "a"]] ∧
    broadcastTo (run ⟨2, false, true⟩ h) 1 0 = [[.str "news", .str "a", .str "a"]] := ⟨_, rfl, by decide⟩

/-- **C102 fails** if the transport hands the packet over as it is, for instance by calling `OnMessage` in `DoPublish`: every server adds
the offset to the same packet, and the one that made the call comes last. -/
theorem C102_kept_fails : ∃ h : List SharedPkt.Ev,
    h = [.call 0 [.str "news"] "a", .adv 0, .adv 1, .adv 1, .adv 1, .adv 2, .adv 2, .adv 2, .adv 0, .adv 0] ∧
    AllHandled (run ⟨3, false, true⟩ h) ∧ broadcastTo (run ⟨3, false, true⟩ h) 0 0 = [[.str "news", .str "a", .str "a", .str "a"]] ∧
    broadcastTo (run ⟨3, false, true⟩ h) 1 0 = [[.str "news", .str "a"]] ∧ broadcastTo (run ⟨3, false, true⟩ h) 2 0 = [[.str "news", .str "a", .str "a"]] :=
  ⟨_, rfl, by decide⟩

end Verif.Props
