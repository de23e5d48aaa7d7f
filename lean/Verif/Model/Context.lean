import Verif.Model.Market
/-!
lib/client/src/context.rs: the limits of an order from the amount that somebody wants to trade.

All amounts are `u64`; a sum or product beyond it panics (`overflow-checks = true` in Cargo.toml).  Casts of lot sizes and fees, which
are not negative, do not change them.
-/
namespace OB.Context

/-- context.rs:22-29 -/
def maxQuoteLotsTaker (m : Market) (quoteSize : Int) : R Int := do
  let fees ← ckU64 ((quoteSize * m.takerFee).tdiv (feesScale + m.takerFee))
  ckU64 (quoteSize.tdiv m.quoteLotSize + fees)

/-- context.rs:31-35 -/
def maxQuoteLotsMaker (m : Market) (quoteSize : Int) : R Int := do
  let fees ← m.makerFeesFloor quoteSize
  ckU64 (quoteSize.tdiv m.quoteLotSize + fees)

/-- context.rs:37-39 -/
def maxBaseLots (m : Market) (baseSize : Int) : Int := baseSize.tdiv m.baseLotSize

/-- context.rs:11-13 -/
def maxQuoteLotsTakerFromUsd (m : Market) (usd : Int) : R Int := do maxQuoteLotsTaker m (← ckU64 (usd * 10 ^ 6))

/-- context.rs:14-16 -/
def maxQuoteLotsMakerFromUsd (m : Market) (usd : Int) : R Int := do maxQuoteLotsMaker m (← ckU64 (usd * 10 ^ 6))

/-- context.rs:17-19 -/
def maxBaseLotsFromUsd (m : Market) (baseDecimals : Nat) (size : Int) : R Int := do return maxBaseLots m (← ckU64 (size * baseDecimals))

end OB.Context
