import Verif.Model.TsDecode
import Verif.Spec.Fields
/-! What a decoded account must say. -/
namespace OB.Spec

/-- The numbers fit the types of their fields. -/
structure MarketExtraFits (x : Layout.MarketExtra) : Prop where
  u8s : ∀ n ∈ [x.bump, x.baseDecimals, x.quoteDecimals], n < 2 ^ 8
  name : x.name < 2 ^ 128
  keys : ∀ k ∈ [x.bids, x.asks, x.eventHeap], FitsKey k
  confFilter : x.confFilter < 2 ^ 64
  i64s : ∀ y ∈ [x.maxStalenessSlots, x.registrationTime], FitsI64 y

structure AcctExtraFits (x : Layout.AcctExtra) : Prop where
  market : FitsKey x.market
  name : x.name < 2 ^ 256
  accountNum : x.accountNum < 2 ^ 32
  bump : x.bump < 2 ^ 8

/-- A decoded market has the content of the market in every field. -/
structure MarketIs (x : Layout.MarketExtra) (m : Market) (y : Find.MarketData) : Prop where
  bump : y.bump = x.bump
  baseDecimals : y.baseDecimals = x.baseDecimals
  quoteDecimals : y.quoteDecimals = x.quoteDecimals
  name : y.name = x.name
  bids : y.bids = x.bids
  asks : y.asks = x.asks
  eventHeap : y.eventHeap = x.eventHeap
  confFilter : y.confFilter = x.confFilter
  maxStalenessSlots : y.maxStalenessSlots = x.maxStalenessSlots
  registrationTime : y.registrationTime = x.registrationTime
  marketAuthority : y.marketAuthority = m.marketAuthority
  timeExpiry : y.timeExpiry = m.timeExpiry
  collectFeeAdmin : y.collectFeeAdmin = m.collectFeeAdmin
  openOrdersAdmin : y.openOrdersAdmin = m.openOrdersAdmin
  consumeEventsAdmin : y.consumeEventsAdmin = m.consumeEventsAdmin
  closeMarketAdmin : y.closeMarketAdmin = m.closeMarketAdmin
  oracleA : y.oracleA = m.oracleA
  oracleB : y.oracleB = m.oracleB
  quoteLotSize : y.quoteLotSize = m.quoteLotSize
  baseLotSize : y.baseLotSize = m.baseLotSize
  seqNum : y.seqNum = m.seqNum
  makerFee : y.makerFee = m.makerFee
  takerFee : y.takerFee = m.takerFee
  feesAccrued : (y.feesAccrued : Int) = m.feesAccrued
  feesToReferrers : (y.feesToReferrers : Int) = m.feesToReferrers
  referrerRebatesAccrued : (y.referrerRebatesAccrued : Int) = m.referrerRebatesAccrued
  feesAvailable : (y.feesAvailable : Int) = m.feesAvailable
  makerVolume : (y.makerVolume : Int) = m.makerVolume
  takerVolumeWoOo : (y.takerVolumeWoOo : Int) = m.takerVolumeWoOo
  baseMint : y.baseMint = m.baseMint
  quoteMint : y.quoteMint = m.quoteMint
  marketBaseVault : y.marketBaseVault = m.marketBaseVault
  baseDepositTotal : (y.baseDepositTotal : Int) = m.baseDepositTotal
  marketQuoteVault : y.marketQuoteVault = m.marketQuoteVault
  quoteDepositTotal : (y.quoteDepositTotal : Int) = m.quoteDepositTotal

/-- A decoded slot has the content of the slot. -/
structure SlotIs (o : OpenOrder) (y : Ts.SlotAcct) : Prop where
  id : y.id = o.id
  clientId : y.clientId = o.clientId
  lockedPrice : y.lockedPrice = o.lockedPrice
  /-- zero is false in TypeScript, all other numbers are true -/
  isFree : y.isFree ≠ 0 ↔ o.isFree = true
  /-- even numbers are bids -/
  side : y.sideAndTree % 2 = 0 ↔ o.side = .bid
  /-- small numbers have fixed prices -/
  tree : y.sideAndTree < 2 ↔ o.comp = .fixed

/-- A decoded open orders account has the content of the account in every field. -/
structure AcctIs (x : Layout.AcctExtra) (a : OOA) (y : Ts.OpenOrdersAcct) : Prop where
  owner : y.owner = a.owner
  delegate : y.delegate = a.delegate
  market : y.market = x.market
  name : y.name = x.name
  accountNum : y.accountNum = x.accountNum
  bump : y.bump = x.bump
  position : y.position = a.position
  slots : List.Forall₂ SlotIs a.openOrders y.openOrders

end OB.Spec
