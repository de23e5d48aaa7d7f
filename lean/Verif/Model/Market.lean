import Verif.Model.Types
/-!
state/market.rs: the market account and its fee arithmetic.
-/
namespace OB

/-- state/market.rs:21-120.  Not kept: bump, decimals, name, mints' decimals, oracle configuration
(oracle prices are inputs of the model), registration time, reserved bytes.  The keys of bids, asks and event heap
are not kept because the model has exactly one of each per market (`has_one` constraints). -/
structure Market where
  marketAuthority : Pubkey
  timeExpiry : Int
  collectFeeAdmin : Pubkey
  openOrdersAdmin : Pubkey
  consumeEventsAdmin : Pubkey
  closeMarketAdmin : Pubkey
  oracleA : Pubkey
  oracleB : Pubkey
  quoteLotSize : Int
  baseLotSize : Int
  seqNum : Nat
  makerFee : Int
  takerFee : Int
  feesAccrued : Int
  feesToReferrers : Int
  referrerRebatesAccrued : Int
  feesAvailable : Int
  makerVolume : Int
  takerVolumeWoOo : Int
  baseMint : Pubkey
  quoteMint : Pubkey
  marketBaseVault : Pubkey
  baseDepositTotal : Int
  marketQuoteVault : Pubkey
  quoteDepositTotal : Int
  deriving DecidableEq, Repr

/-- state/market.rs:15 -/
def feesScale : Int := 1000000

/-- state/market.rs:17 -/
def penaltyEventHeap : Int := 500

namespace Market

/-- state/market.rs:166-168 -/
def isExpired (m : Market) (ts : Int) : Bool := m.timeExpiry ≠ 0 ∧ m.timeExpiry < ts

/-- state/market.rs:170-175 -/
def isEmpty (m : Market) : Bool :=
  m.baseDepositTotal = 0 ∧ m.quoteDepositTotal = 0 ∧ m.feesAvailable = 0 ∧ m.referrerRebatesAccrued = 0

/-- state/market.rs:177-179 -/
def isMarketVault (m : Market) (k : Pubkey) : Bool := k = m.marketQuoteVault ∨ k = m.marketBaseVault

/-- state/market.rs:181-186 -/
def vaultBySide (m : Market) : Side → Pubkey
  | .ask => m.marketBaseVault
  | .bid => m.marketQuoteVault

/-- state/market.rs:193-195 (both operands positive) -/
def maxBaseLots (m : Market) : Int := i64Max / m.baseLotSize

/-- state/market.rs:197-199 -/
def maxQuoteLots (m : Market) : Int := i64Max / m.quoteLotSize

/-- state/market.rs:201-206; the `try_into` cannot fail because of the `min`. -/
def maxBaseLotsFromLamports (m : Market) (lamports : Int) : Int :=
  min m.maxBaseLots (lamports / m.baseLotSize)

/-- state/market.rs:208-213 -/
def maxQuoteLotsFromLamports (m : Market) (lamports : Int) : Int :=
  min m.maxQuoteLots (lamports / m.quoteLotSize)

/-- state/market.rs:301-305.  The i128 intermediate cannot overflow (|quote| < 2^63, scale 10^6). -/
def subtractTakerFees (m : Market) (quote : Int) : R Int :=
  ckI64 ((quote * feesScale).tdiv (feesScale + m.takerFee))

/-- state/market.rs:347-349 -/
def ceilFeeDivision (numerator : Int) : Int := (numerator + (feesScale - 1)).tdiv feesScale

/-- state/market.rs:351-355.  `amount < 2^64`, `|maker_fee| ≤ 10^6`: the i128 product cannot overflow. -/
def unsignedMakerFeesFloor (m : Market) (amount : Int) : R Int :=
  ckU64 ((amount * m.makerFee.natAbs).tdiv feesScale)

/-- state/market.rs:307-313 -/
def makerFeesFloor (m : Market) (amount : Int) : R Int :=
  if m.makerFee > 0 then m.unsignedMakerFeesFloor amount else .ok 0

/-- state/market.rs:315-321 -/
def makerRebateFloor (m : Market) (amount : Int) : R Int :=
  if m.makerFee > 0 then .ok 0 else m.unsignedMakerFeesFloor amount

/-- state/market.rs:323-335 at `T = u64` -/
def makerFeesCeilU (m : Market) (amount : Int) : R Int :=
  if m.makerFee > 0 then ckU64 (ceilFeeDivision (amount * m.makerFee.natAbs)) else .ok 0

/-- state/market.rs:323-335 at `T = i64` -/
def makerFeesCeilI (m : Market) (amount : Int) : R Int :=
  if m.makerFee > 0 then ckI64 (ceilFeeDivision (amount * m.makerFee.natAbs)) else .ok 0

/-- state/market.rs:337-345 at `T = u64` -/
def takerFeesCeil (m : Market) (amount : Int) : R Int :=
  ckU64 (ceilFeeDivision (amount * m.takerFee))

end Market
end OB
