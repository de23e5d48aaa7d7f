import Verif.Proofs.Exit
/-!
C47  Accounts of a closed market.
-/
namespace OB
open Spec

/-- On a closed market no account holds anything, and the owner of an account without unpaid penalties can close it in one
instruction.  Missing to the full claim: accounts with unpaid penalties, for which it is false (below). -/
theorem C47_closable_partial {s : State} (hr : Reachable s) (hc : s.closed = true) {k : Pubkey} {a : OOA}
    (ha : s.g.accts.get? k = some a) :
    HoldsNothing a ∧ (a.position.penaltyHeapCount = 0 → ∃ s', step s (.closeOO k a.owner) = .ok s' ∧ s'.g.accts.get? k = none) := by
  have h := closed_holds_nothing hr hc k a ha
  refine ⟨h, fun hp => ⟨{ s with g := { s.g with accts := s.g.accts.del k } }, ?_, ?_⟩⟩
  · simp only [step, closeOO, bind_ok, req_ok, Accts.get_ok, pure_ok]
    exact ⟨a, ha, (), rfl, (), isEmpty_iff.mpr ⟨h.bids.1, h.asks, h.freeBase, h.freeQuote, h.fees, h.rebates, hp, h.bids.2⟩, trivial⟩
  · obtain ⟨O, q, hw⟩ := (reachable_Inv hr).core.linv
    show (s.g.accts.del k).get? k = none
    rw [Accts.get?_del hw.ginv.nodup, if_pos rfl]

/-- An order that only drops an expired one grows the event queue, and is not filled; then the market is emptied and closed. -/
def closableOps : List Op :=
    [.createOO 41 31 0, .createOO 42 32 0,
     .placeOrder (Scenario.ctx 0 .ask []) { Scenario.limitOrder .ask 1010 5 1 with expiry := 1010 },
     .placeOrder { Scenario.ctx 1 .bid [] with now := 1020 } { Scenario.limitOrder .bid 1010 4 6 with orderType := .immediateOrCancel },
     .consumeEvents 0 8 [41],
     .settleFunds (settleTo 31 31 41 51 61), .setMarketExpired 2 1030, .closeMarket 2 1040]

/-- On a closed market there is nothing left to be paid, but an account cannot always be closed.  An account with an unpaid penalty
for growing the event queue is empty otherwise; its market is closed nevertheless, since closing does not look at penalties.  From
then on, nothing can settle the penalty, and the account cannot be closed by any sequence of instructions. -/
theorem C47_closable_false :
    ∃ (s : State) (k : Pubkey) (a : OOA), Reachable s ∧ s.closed = true ∧ s.g.accts.get? k = some a ∧ HoldsNothing a ∧
      ∀ ops s', Runs s ops s' → s'.g.accts.get? k ≠ none := by
  obtain ⟨s, h1, h2⟩ := Scenario.exec_spec (a := Scenario.args) (ops := closableOps)
    (p := fun s => match s.g.accts.get? 42 with
      | none => false
      | some a => decide (s.closed = true ∧ a.position.penaltyHeapCount ≠ 0 ∧ a.position.baseFreeNative = 0 ∧ a.position.quoteFreeNative = 0 ∧
        a.position.bidsBaseLots = 0 ∧ a.position.bidsQuoteLots = 0 ∧ a.position.asksBaseLots = 0 ∧ a.position.lockedMakerFees = 0 ∧
        a.position.referrerRebatesAvailable = 0 ∧ (∀ oo ∈ a.openOrders, oo.isFree = true))) (by decide +kernel)
  cases ha : s.g.accts.get? 42 with
  | none => rw [ha] at h2; cases h2
  | some a =>
    rw [ha] at h2
    obtain ⟨c1, c2, c3, c4, c5, c6, c7, c8, c9, c10⟩ := of_decide_eq_true h2
    refine ⟨s, 42, a, h1, c1, ha, ⟨c3, c4, ⟨c5, c6⟩, c7, c8, c9, c10⟩, fun ops s' hrun hn => ?_⟩
    obtain ⟨_, a', ha', _⟩ := closed_penalty h1 c1 hrun ha c2
    rw [hn] at ha'; cases ha'

/-! In the same market, account 41 can be closed. -/
example : ∃ (s : State) (a : OOA), Reachable s ∧ s.closed = true ∧ s.g.accts.get? 41 = some a ∧ a.position.penaltyHeapCount = 0 := by
  obtain ⟨s, h1, h2⟩ := Scenario.exec_spec (a := Scenario.args) (ops := closableOps)
    (p := fun s => match s.g.accts.get? 41 with
      | none => false
      | some a => decide (s.closed = true ∧ a.position.penaltyHeapCount = 0)) (by decide +kernel)
  cases ha : s.g.accts.get? 41 with
  | none => rw [ha] at h2; cases h2
  | some a =>
    rw [ha] at h2
    obtain ⟨c1, c2⟩ := of_decide_eq_true h2
    exact ⟨s, a, h1, c1, ha, c2⟩

end OB
