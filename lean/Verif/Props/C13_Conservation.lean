import Verif.Proofs.Facts
import Verif.Props.Scenario
/-!
C13, C14  Base and quote tokens are conserved.
C15  The vaults are always solvent.
C30  Referrer rebates are accounted exactly (the invariant; settlement is in C26_Settle).

`Reachable s`: some market creation followed by any finite sequence of instructions of any users, and of token transfers
outside the program, led to `s`.
-/
namespace OB
open Spec

theorem C13_base_conserved (s : State) (h : Reachable s) :
    s.g.market.baseDepositTotal =
      sumAccts s (fun a => a.position.baseFreeNative + a.position.asksBaseLots * s.g.market.baseLotSize) +
      sumEvents s (undeliveredBase s.g.market) := by
  obtain ⟨O, q, hl⟩ := (reachable_Inv h).core.linv
  have hb := hl.ginv.base
  rw [hl.sum (Obl.pendB s.g.market) (fun k => match k with | .rest _ _ _ => 0 | .ev e => undeliveredBase s.g.market e) (by
    intro o _; cases o <;> rfl)] at hb
  have hz : (s.book.resting.map (fun _ => (0 : Int))).sum = 0 := by
    generalize s.book.resting = l
    induction l with
    | nil => rfl
    | cons x xs ih => simp
  simp only [hz] at hb
  show _ = asum (acctB s.g.market) s.g.accts + (s.g.heap.events.map (fun e => undeliveredBase s.g.market e)).sum
  omega

theorem C14_quote_conserved (s : State) (h : Reachable s) :
    s.g.market.quoteDepositTotal =
      sumAccts s (fun a => a.position.quoteFreeNative + a.position.bidsQuoteLots * s.g.market.quoteLotSize +
        a.position.lockedMakerFees + a.position.referrerRebatesAvailable) +
      s.g.market.feesAvailable +
      sumEvents s (undeliveredQuote s.g.market) := by
  obtain ⟨O, q, hl⟩ := (reachable_Inv h).core.linv
  have hb := hl.ginv.quote
  rw [hl.sum (Obl.pendQ s.g.market) (fun k => match k with | .rest _ _ _ => 0 | .ev e => undeliveredQuote s.g.market e) (by
    intro o _
    cases o with
    | rest => rfl
    | out => rfl
    | fill f oo => cases hs : f.takerSide <;> simp only [Obl.pendQ, Obl.k, undeliveredQuote, hs] <;> rfl)] at hb
  have hz : (s.book.resting.map (fun _ => (0 : Int))).sum = 0 := by
    generalize s.book.resting = l
    induction l with
    | nil => rfl
    | cons x xs ih => simp
  simp only [hz] at hb
  show _ = asum (acctQ s.g.market) s.g.accts + s.g.market.feesAvailable + (s.g.heap.events.map (fun e => undeliveredQuote s.g.market e)).sum
  omega

/-- The vaults hold at least the recorded deposits; they are token accounts of the right mint under the market's authority. -/
theorem C15_vaults_solvent (s : State) (h : Reachable s) :
    s.g.market.baseDepositTotal ≤ (s.tokens s.g.market.marketBaseVault).amount ∧
    s.g.market.quoteDepositTotal ≤ (s.tokens s.g.market.marketQuoteVault).amount ∧
    s.g.market.marketBaseVault ≠ s.g.market.marketQuoteVault ∧
    (s.tokens s.g.market.marketBaseVault).mint = s.g.market.baseMint ∧
    (s.tokens s.g.market.marketQuoteVault).mint = s.g.market.quoteMint ∧
    (s.tokens s.g.market.marketBaseVault).owner = s.g.market.marketAuthority ∧
    (s.tokens s.g.market.marketQuoteVault).owner = s.g.market.marketAuthority := by
  have hi := reachable_Inv h
  exact ⟨hi.vb.le, hi.vq.le, hi.vaults, hi.vb.mint, hi.vq.mint, hi.vb.owner, hi.vq.owner⟩

/-- No recorded claim is negative. -/
theorem C15_claims_nonneg (s : State) (h : Reachable s) (k : Pubkey) (a : OOA) (ha : (k, a) ∈ s.g.accts) :
    0 ≤ a.position.baseFreeNative ∧ 0 ≤ a.position.quoteFreeNative ∧ 0 ≤ a.position.lockedMakerFees ∧
    0 ≤ a.position.referrerRebatesAvailable ∧ 0 ≤ a.position.bidsBaseLots ∧ 0 ≤ a.position.asksBaseLots ∧
    0 ≤ a.position.bidsQuoteLots ∧ 0 ≤ s.g.market.feesAvailable := by
  obtain ⟨O, q, hl⟩ := (reachable_Inv h).core.linv
  have hk := hl.ginv.acct k a (acct_get hl.ginv.nodup ha)
  have hq : ∀ o ∈ O, 0 ≤ o.qty := fun o ho => by have := (hl.ginv.ok o ho).qty; omega
  have hlp : ∀ o ∈ O, 0 ≤ o.lp := fun o ho => by have := (hl.ginv.ok o ho).lp; omega
  refine ⟨hk.baseFree.1, hk.quoteFree.1, hk.locked.1, hk.refs.1, ?_, ?_, ?_, (reachable_Inv h).core.avail.1⟩
  · rw [hk.bids]
    refine osum_nonneg (fun o ho => ?_)
    unfold cB; split
    · exact hq o ho
    · exact Int.le_refl 0
  · rw [hk.asks]
    refine osum_nonneg (fun o ho => ?_)
    unfold cA; split
    · exact hq o ho
    · exact Int.le_refl 0
  · rw [hk.quote]
    refine osum_nonneg (fun o ho => ?_)
    unfold cQ; split
    · exact Int.mul_nonneg (hq o ho) (hlp o ho)
    · exact Int.le_refl 0

theorem C30_rebates_are_the_sum (s : State) (h : Reachable s) :
    s.g.market.referrerRebatesAccrued = sumAccts s (fun a => a.position.referrerRebatesAvailable) := by
  obtain ⟨O, q, hl⟩ := (reachable_Inv h).core.linv
  exact hl.ginv.refs

/-! A reachable state with deposits, locked funds on both sides, a locked maker fee, taker fees and undelivered fills. -/
open Scenario in
example : ∃ s, Reachable s ∧ decide (s.g.heap.events.length = 2 ∧ s.book.resting.length = 4 ∧
    sumEvents s (undeliveredBase s.g.market) = -400 ∧ sumEvents s (undeliveredQuote s.g.market) = 40340 ∧
    s.g.market.referrerRebatesAccrued = 17 ∧
    s.g.market.baseDepositTotal = 5500 ∧ s.g.market.quoteDepositTotal = 540357) = true :=
  exec_spec (a := args) (ops := ops1) (by decide +kernel)

end OB
