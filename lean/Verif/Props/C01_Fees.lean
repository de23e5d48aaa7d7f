import Verif.Proofs.Fees
/-!
C01  Fee rounding is exact and always against the trader.

For every market whose fees pass `create_market` and every u64 amount the fee functions succeed and return the exact
ceiling (taker fee, locked maker fee) or floor (maker fee released or charged on a fill, rebate).
-/
namespace OB
open Spec

theorem C01_taker_fee_is_ceiling (m : Market) (hv : ValidFees m) (amount : Int) (h0 : 0 ≤ amount) (h1 : amount ≤ u64Max) :
    ∃ f, m.takerFeesCeil amount = .ok f ∧ IsCeilFee amount m.takerFee f :=
  takerFeesCeil_spec hv h0 h1

/-- The fee released when a bid is cancelled (u64 instance). -/
theorem C01_maker_fee_unlocked_is_ceiling (m : Market) (hv : ValidFees m) (amount : Int) (h0 : 0 ≤ amount)
    (h1 : amount ≤ u64Max) :
    ∃ f, m.makerFeesCeilU amount = .ok f ∧ IsCeilFee amount (max m.makerFee 0) f :=
  makerFeesCeilU_spec hv h0 h1

/-- The fee locked when a bid is posted (i64 instance). -/
theorem C01_maker_fee_locked_is_ceiling (m : Market) (hv : ValidFees m) (amount : Int) (h0 : 0 ≤ amount)
    (h1 : amount ≤ i64Max) :
    ∃ f, m.makerFeesCeilI amount = .ok f ∧ IsCeilFee amount (max m.makerFee 0) f :=
  makerFeesCeilI_spec hv h0 h1

theorem C01_maker_fee_on_fill_is_floor (m : Market) (hv : ValidFees m) (amount : Int) (h0 : 0 ≤ amount)
    (h1 : amount ≤ u64Max) :
    ∃ f, m.makerFeesFloor amount = .ok f ∧ IsFloorFee amount (max m.makerFee 0) f :=
  makerFeesFloor_spec hv h0 h1

theorem C01_maker_rebate_is_floor (m : Market) (hv : ValidFees m) (amount : Int) (h0 : 0 ≤ amount) (h1 : amount ≤ u64Max) :
    ∃ f, m.makerRebateFloor amount = .ok f ∧ IsFloorFee amount (max (-m.makerFee) 0) f :=
  makerRebateFloor_spec hv h0 h1

/-- The ceiling fee is less than one native unit above the mathematical fee and never below it;
the floor is never above it (in millionths of a unit). -/
theorem C01_error_bounds (amount rate f g : Int) (hf : IsCeilFee amount rate f) (hg : IsFloorFee amount rate g) :
    amount * rate ≤ f * 1000000 ∧ f * 1000000 < amount * rate + 1000000 ∧
    g * 1000000 ≤ amount * rate ∧ amount * rate < g * 1000000 + 1000000 := by
  refine ⟨hf.1, ?_, hg.1, ?_⟩
  · have := hf.2 (f - 1); omega
  · have := hg.2 (g + 1); omega

/-- A market with a positive maker fee: non-vacuity of the hypotheses, with a fee that needs rounding. -/
def exampleMarket : Market :=
  { marketAuthority := 101, timeExpiry := 0, collectFeeAdmin := 1, openOrdersAdmin := 0, consumeEventsAdmin := 0,
    closeMarketAdmin := 2, oracleA := 50, oracleB := 0, quoteLotSize := 10, baseLotSize := 100, seqNum := 0,
    makerFee := 200, takerFee := 400, feesAccrued := 0, feesToReferrers := 0, referrerRebatesAccrued := 0,
    feesAvailable := 0, makerVolume := 0, takerVolumeWoOo := 0, baseMint := 10, quoteMint := 11, marketBaseVault := 20,
    baseDepositTotal := 0, marketQuoteVault := 21, quoteDepositTotal := 0 }

example : ValidFees exampleMarket := ⟨by decide, by decide, by decide⟩
example : exampleMarket.takerFeesCeil 12345 = .ok 5 ∧ exampleMarket.makerFeesFloor 12345 = .ok 2 ∧
    exampleMarket.makerFeesCeilU 12345 = .ok 3 := by decide
example : ValidFees { exampleMarket with makerFee := -200 } := ⟨by decide, by decide, by decide⟩
example : ({ exampleMarket with makerFee := -200 } : Market).makerRebateFloor 12345 = .ok 2 := by decide

end OB
