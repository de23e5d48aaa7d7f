import Verif.Model.Find
import Verif.Proofs.Ts
/-! Searching accounts by their content. -/
namespace OB.Find
open OB.Layout OB.Ts

theorem leI64_length (x : Int) : (leI64 x).length = 8 := le_length _ _

theorem marketBytes_length (m : MarketData) : (marketBytes m).length = 840 := by
  simp [marketBytes, le_length, leI64_length, zeros_length]

theorem le_inj {k a b : Nat} (ha : a < 256 ^ k) (hb : b < 256 ^ k) (h : le k a = le k b) : a = b := by
  have := congrArg unle h
  rwa [unle_le _ _ ha, unle_le _ _ hb] at this

theorem memcmp_at {A B C X : Bytes} {n : Nat} (ha : A.length = n) (hl : X.length = B.length) :
    memcmp n X (A ++ (B ++ C)) = decide (B = X) := by
  unfold memcmp
  have h1 : n + X.length ≤ (A ++ (B ++ C)).length := by simp only [List.length_append]; omega
  have h2 : (A ++ (B ++ C)).drop n = B ++ C := drop_at A _ n ha
  rw [h2, take_at B C _ hl.symm]
  rw [decide_eq_true h1, Bool.true_and]

theorem memcmp_zero {B C X : Bytes} (hl : X.length = B.length) : memcmp 0 X (B ++ C) = decide (B = X) :=
  memcmp_at (A := []) rfl hl

theorem memcmp_short {X D : Bytes} {n : Nat} (h : D.length < n + X.length) : memcmp n X D = false := by
  unfold memcmp
  rw [show decide (n + X.length ≤ D.length) = false from decide_eq_false (by omega)]
  rfl

/-- The base mint of a market is at 576, the quote mint at 608. -/
theorem market_mints (m : MarketData) (d : Bytes) (hd : d.length = 8) :
    ∃ A C, d ++ marketBytes m = A ++ (le 32 m.baseMint ++ (le 32 m.quoteMint ++ C)) ∧ A.length = 576 := by
  refine ⟨d ++ (le 1 m.bump ++ (le 1 m.baseDecimals ++ (le 1 m.quoteDecimals ++ (zeros 5 ++ (le 32 m.marketAuthority ++ (leI64 m.timeExpiry ++
    (le 32 m.collectFeeAdmin ++ (le 32 m.openOrdersAdmin ++ (le 32 m.consumeEventsAdmin ++ (le 32 m.closeMarketAdmin ++ (le 16 m.name ++
    (le 32 m.bids ++ (le 32 m.asks ++ (le 32 m.eventHeap ++ (le 32 m.oracleA ++ (le 32 m.oracleB ++ (le 8 m.confFilter ++
    (leI64 m.maxStalenessSlots ++ (zeros 72 ++ (leI64 m.quoteLotSize ++ (leI64 m.baseLotSize ++ (le 8 m.seqNum ++
    (leI64 m.registrationTime ++ (leI64 m.makerFee ++ (leI64 m.takerFee ++ (le 16 m.feesAccrued ++ (le 16 m.feesToReferrers ++
    (le 8 m.referrerRebatesAccrued ++ (le 8 m.feesAvailable ++ (le 16 m.makerVolume ++ le 16 m.takerVolumeWoOo)))))))))))))))))))))))))))))),
    le 32 m.marketBaseVault ++ (le 8 m.baseDepositTotal ++ (le 32 m.marketQuoteVault ++ (le 8 m.quoteDepositTotal ++ zeros 128))), ?_, ?_⟩
  · simp only [marketBytes, List.append_assoc]
  · simp [le_length, leI64_length, zeros_length, hd]

end OB.Find
