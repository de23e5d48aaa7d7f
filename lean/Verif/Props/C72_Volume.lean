import Verif.Proofs.Volume
import Verif.Props.C24_Close
import Verif.Props.C31_Take
import Verif.Props.C64_Logs
/-!
C72  Every trade is counted once on each side.

The market keeps the volume that makers traded and the volume that takers without an account traded; each open orders account keeps the
volume it traded as maker and as taker.  These counters are kept by different code at different times: the taker's when the order is
placed, the maker's when the fill is delivered.
-/
namespace OB
open Spec

/-- The market's maker volume is the sum of the maker volumes of the accounts, those included that were closed. -/
theorem C72_makers {s : State} {m t : Int} (h : VolumeHistory s m t) : makersTotal s + m = s.g.market.makerVolume := by
  have both : Reachable s ∧ makersTotal s + m = s.g.market.makerVolume := by
    induction h with
    | init a now tk lam s h =>
      refine ⟨.init a now tk lam s h, ?_⟩
      obtain ⟨_, rfl⟩ := createMarket_inv h
      rfl
    | step s s' op m t _ h ih =>
      refine ⟨.step s s' op ih.1 h, ?_⟩
      have := (step_volumes ih.1 h).1
      have := ih.2
      omega
  exact both.2

/-- The volumes of takers with and without an account are together the maker volume and the value of the fills that wait in the queue. -/
theorem C72_takers {s : State} {m t : Int} (h : VolumeHistory s m t) :
    takersTotal s + t + s.g.market.takerVolumeWoOo = s.g.market.makerVolume + waitingValue s := by
  have both : Reachable s ∧ takersTotal s + t + s.g.market.takerVolumeWoOo = s.g.market.makerVolume + waitingValue s := by
    induction h with
    | init a now tk lam s h =>
      refine ⟨.init a now tk lam s h, ?_⟩
      obtain ⟨_, rfl⟩ := createMarket_inv h
      rfl
    | step s s' op m t _ h ih =>
      refine ⟨.step s s' op ih.1 h, ?_⟩
      have := (step_volumes ih.1 h).2
      have := ih.2
      omega
  exact both.2

/-- When no account was closed and no fill waits in the queue, the sums agree (the assertions of the fuzz harness,
programs/openbook-v2/fuzz/fuzz_targets/multiple_orders.rs:320-340). -/
theorem C72_agree {a : CreateArgs} {now : Int} {tk : Tokens} {lam : Lamports} {s0 s : State} {ops : List Op}
    (h0 : createMarket a now tk lam = .ok s0) (h : Runs s0 ops s) (hc : ∀ op ∈ ops, ∀ k o, op ≠ .closeOO k o)
    (hq : queuedFills s.g = []) :
    makersTotal s = s.g.market.makerVolume ∧ makersTotal s = takersTotal s + s.g.market.takerVolumeWoOo := by
  have hv : VolumeHistory s 0 0 := by
    clear hq
    induction h with
    | nil => exact .init a now tk lam s0 h0
    | @snoc s1 s2 ops op h1 h2 ih =>
      have i := ih (fun o ho => hc o (by simp [ho]))
      have := VolumeHistory.step _ _ op _ _ i h2
      have hn := hc op (by simp)
      have e1 : makerGone s1 op = 0 := by cases op <;> first | rfl | exact absurd rfl (hn _ _)
      have e2 : takerGone s1 op = 0 := by cases op <;> first | rfl | exact absurd rfl (hn _ _)
      rw [e1, e2] at this
      exact this
  have h1 := C72_makers hv
  have h2 := C72_takers hv
  have h3 : waitingValue s = 0 := by unfold waitingValue; rw [hq]; rfl
  omega

/-- An instruction that places orders raises the takers' side by the value of all its fills, at once. -/
theorem C72_placing {s s' : State} {op : Op} {p : Placer} (hr : Reachable s) (h : step s op = .ok s') (hp : placer op = some p) :
    ∃ s1 cs g1, Placement s s1 s' p cs g1 ∧
      takersTotal s' + s'.g.market.takerVolumeWoOo =
        takersTotal s + s.g.market.takerVolumeWoOo + ((tradesOf cs).map (fillQuote s.g.market)).sum := by
  obtain ⟨L, hl⟩ := C64_emitted hr h
  obtain ⟨s1, cs, g1, told, P, ht, _⟩ := C64_placing hr h hp hl
  refine ⟨s1, cs, g1, P, ?_⟩
  have hv := (C64_volumes hr h hl).market
  have e2 := (step_volumes hr h).2
  have hg : takerGone s op = 0 := by cases op <;> first | rfl | cases hp
  have hrt := step_rates hr h
  have hfq : fillQuote s'.g.market = fillQuote s.g.market := by funext f; unfold fillQuote; rw [hrt.lots]
  have hperm := sum_of_perm (ht.queue.map (fillQuote s.g.market))
  rw [List.map_append, List.map_append, List.sum_append, List.sum_append] at hperm
  have hrep : (((fillLogs L).map (reportedValue s.g.market)).sum : Int) = (told.map (fillQuote s.g.market)).sum := by
    have := ht.reported
    unfold ReportAll at this
    generalize fillLogs L = ls at this
    clear hperm ht hv hl
    induction this with
    | nil => rfl
    | @cons l f ls fs w _ ih =>
      rw [List.map_cons, List.map_cons, List.sum_cons, List.sum_cons, ih]
      unfold reportedValue fillQuote
      rw [w.quantity, w.price]
  rw [hrep] at hv
  unfold waitingValue at e2
  rw [hfq] at e2
  omega

/-- An instruction that places no order leaves the takers' side as it is, apart from the volume of an account that it closes. -/
theorem C72_other {s s' : State} {op : Op} (hr : Reachable s) (h : step s op = .ok s') (hp : placer op = none) :
    takersTotal s' + takerGone s op + s'.g.market.takerVolumeWoOo = takersTotal s + s.g.market.takerVolumeWoOo := by
  obtain ⟨L, hl⟩ := C64_emitted hr h
  have hv := (C64_volumes hr h hl).market
  have e2 := (step_volumes hr h).2
  obtain ⟨_, told, ht⟩ := C64_other hr h hp hl
  have hrt := step_rates hr h
  have hfq : fillQuote s'.g.market = fillQuote s.g.market := by funext f; unfold fillQuote; rw [hrt.lots]
  have hperm := sum_of_perm (ht.queue.map (fillQuote s.g.market))
  rw [List.map_append, List.map_append, List.sum_append, List.sum_append] at hperm
  have hrep : (((fillLogs L).map (reportedValue s.g.market)).sum : Int) = (told.map (fillQuote s.g.market)).sum := by
    have := ht.reported
    unfold ReportAll at this
    generalize fillLogs L = ls at this
    clear hperm ht hv hl
    induction this with
    | nil => rfl
    | @cons l f ls fs w _ ih =>
      rw [List.map_cons, List.map_cons, List.sum_cons, List.sum_cons, ih]
      unfold reportedValue fillQuote
      rw [w.quantity, w.price]
  rw [hrep] at hv
  unfold waitingValue at e2
  rw [hfq] at e2
  simp only [List.map_nil, List.sum_nil] at hperm
  omega

/-! ### Non-vacuity -/

namespace VolumeCase
open Scenario

def go : State → Int → Int → List Op → R (State × Int × Int)
  | s, m, t, [] => .ok (s, m, t)
  | s, m, t, op :: ops => do go (← step s op) (m + makerGone s op) (t + takerGone s op) ops

theorem go_history {s : State} {m t : Int} {ops : List Op} {r : State × Int × Int} (hs : VolumeHistory s m t) (h : go s m t ops = .ok r) :
    VolumeHistory r.1 r.2.1 r.2.2 := by
  induction ops generalizing s m t with
  | nil => injection h with h; rw [← h]; exact hs
  | cons op ops ih =>
    unfold go at h
    cases h1 : step s op with
    | error e => rw [h1] at h; cases h
    | ok s1 => rw [h1] at h; exact ih (.step s s1 op m t hs h1) h

theorem history_spec {a : CreateArgs} {ops : List Op} {p : State → Int → Int → Bool}
    (h : okAnd (start a) (fun s => okAnd (go s 0 0 ops) (fun r => p r.1 r.2.1 r.2.2)) = true) :
    ∃ s m t, VolumeHistory s m t ∧ p s m t = true := by
  obtain ⟨s0, h0, h⟩ := okAnd_spec h
  obtain ⟨r, h1, h2⟩ := okAnd_spec h
  exact ⟨_, _, _, go_history (.init _ _ _ _ s0 h0) h1, h2⟩

/-- Trader 33 buys without an account. -/
def takeOf : Op := .placeTakeOrder (takeCtx 2) { limitOrder .bid 1030 2 9 with orderType := .immediateOrCancel }

/-- A fill waits in the queue, takers with and without accounts have traded. -/
example : ∃ s m t, VolumeHistory s m t ∧ decide (0 < waitingValue s ∧ 0 < takersTotal s ∧ 0 < s.g.market.takerVolumeWoOo) = true :=
  history_spec (a := args) (ops := ops1 ++ [takeOf])
    (p := fun s _ _ => decide (0 < waitingValue s ∧ 0 < takersTotal s ∧ 0 < s.g.market.takerVolumeWoOo)) (by decide +kernel)

/-- Accounts that traded were closed. -/
example : ∃ s m t, VolumeHistory s m t ∧ decide (0 < m ∧ 0 < t ∧ s.g.accts.length = 1) = true :=
  history_spec (a := args) (ops := CloseCase.unwind ++ [.closeOO 41 31, .closeOO 43 33])
    (p := fun s m t => decide (0 < m ∧ 0 < t ∧ s.g.accts.length = 1)) (by decide +kernel)

end VolumeCase

end OB
