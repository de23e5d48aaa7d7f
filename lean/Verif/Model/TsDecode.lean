import Verif.Model.TsEvents
import Verif.Model.Find
import Verif.Model.World
/-!
The bytes of the accounts of markets, traders and indexers, and how the TypeScript library decodes them.  For the layout of structs
see `Verif.Model.Layout`; the types that the library decodes by are those of ts/client/src/openbook_v2.ts, which it walks field after
field, without gaps (`BorshAccountsCoder` of anchor 0.29).
-/
namespace OB.Layout

/-- state/orderbook/order_type.rs:181-211 -/
def sideAndTree : Side → Comp → Nat
  | .bid, .fixed => 0
  | .ask, .fixed => 1
  | .bid, .pegged => 2
  | .ask, .pegged => 3

/-- An unsigned number of `k` bytes. -/
def leU (k : Nat) (x : Int) : Bytes := le k x.toNat

/-- state/open_orders_account.rs:350-375 -/
def positionBytes (p : Position) : Bytes :=
  leI64 p.bidsBaseLots ++ (leI64 p.asksBaseLots ++ (leU 8 p.baseFreeNative ++ (leU 8 p.quoteFreeNative ++ (leU 8 p.lockedMakerFees ++
    (leU 8 p.referrerRebatesAvailable ++ (leU 8 p.penaltyHeapCount ++ (leU 16 p.makerVolume ++ (leU 16 p.takerVolume ++
      (leI64 p.bidsQuoteLots ++ zeros 64)))))))))

/-- state/open_orders_account.rs:426-435 -/
def slotBytes (o : OpenOrder) : Bytes :=
  le 16 o.id ++ (le 8 o.clientId ++ (leI64 o.lockedPrice ++ (le 1 (boolTag o.isFree) ++ (le 1 (sideAndTree o.side o.comp) ++ zeros 6))))

/-- The fields of an open orders account that `OOA` does not have. -/
structure AcctExtra where
  market : Nat
  name : Nat
  accountNum : Nat
  bump : Nat

/-- The data of an open orders account: the 8 bytes by which anchor tells accounts apart, then state/open_orders_account.rs:16-37 with the
version of instructions/create_open_orders_account.rs:24. -/
def acctBytes (disc : Bytes) (x : AcctExtra) (a : OOA) : Bytes :=
  disc ++ Find.openOrdersBytes
    { owner := a.owner, market := x.market, name := x.name, delegate := a.delegate, accountNum := x.accountNum, bump := x.bump,
      version := 1, rest := positionBytes a.position ++ a.openOrders.flatMap slotBytes }

/-- The fields of a market account that `Market` does not have.  `f64` is its bits. -/
structure MarketExtra where
  bump : Nat
  baseDecimals : Nat
  quoteDecimals : Nat
  name : Nat
  bids : Nat
  asks : Nat
  eventHeap : Nat
  confFilter : Nat
  maxStalenessSlots : Int
  registrationTime : Int

/-- All fields of a market account. -/
def marketData (x : MarketExtra) (m : Market) : Find.MarketData :=
  { bump := x.bump, baseDecimals := x.baseDecimals, quoteDecimals := x.quoteDecimals, marketAuthority := m.marketAuthority,
    timeExpiry := m.timeExpiry, collectFeeAdmin := m.collectFeeAdmin, openOrdersAdmin := m.openOrdersAdmin,
    consumeEventsAdmin := m.consumeEventsAdmin, closeMarketAdmin := m.closeMarketAdmin, name := x.name, bids := x.bids, asks := x.asks,
    eventHeap := x.eventHeap, oracleA := m.oracleA, oracleB := m.oracleB, confFilter := x.confFilter,
    maxStalenessSlots := x.maxStalenessSlots, quoteLotSize := m.quoteLotSize, baseLotSize := m.baseLotSize, seqNum := m.seqNum,
    registrationTime := x.registrationTime, makerFee := m.makerFee, takerFee := m.takerFee, feesAccrued := m.feesAccrued.toNat,
    feesToReferrers := m.feesToReferrers.toNat, referrerRebatesAccrued := m.referrerRebatesAccrued.toNat,
    feesAvailable := m.feesAvailable.toNat, makerVolume := m.makerVolume.toNat, takerVolumeWoOo := m.takerVolumeWoOo.toNat,
    baseMint := m.baseMint, quoteMint := m.quoteMint, marketBaseVault := m.marketBaseVault, baseDepositTotal := m.baseDepositTotal.toNat,
    marketQuoteVault := m.marketQuoteVault, quoteDepositTotal := m.quoteDepositTotal.toNat }

/-- The data of a market account: the 8 bytes by which anchor tells accounts apart, then state/market.rs:21-120. -/
def marketAcctBytes (disc : Bytes) (x : MarketExtra) (m : Market) : Bytes := disc ++ Find.marketBytes (marketData x m)

/-- The data of an indexer, state/open_orders_indexer.rs:3-9: not mapped but serialised (`#[account]` with borsh: a list is its length and
its members).  What the account has beyond that is left as it was. -/
def indexerBytes (disc : Bytes) (bump : Nat) (ix : Indexer) (left : Bytes) : Bytes :=
  disc ++ (le 1 bump ++ (le 4 ix.createdCounter ++ (le 4 ix.addresses.length ++ (ix.addresses.flatMap (le 32) ++ left))))

end OB.Layout

namespace OB.Ts
open Layout

/-- Skipping a field whose bytes nobody looks at. -/
def skip (k : Nat) (d : Bytes) : Js Bytes := do
  let (_, d) ← field k d
  return d

/-- A field of type `i64` -/
def fieldI (d : Bytes) : Js (Int × Bytes) := do
  let (n, d) ← field 8 d
  return (asI64 n, d)

/-- Decoding a `market`: openbook_v2.ts:5417-5639, with `NonZeroPubkeyOption` (5847-5859) and `OracleConfig` (5964-5983). -/
def decodeMarket (data : Bytes) : Js Find.MarketData := do
  let (bump, d) ← field 1 (data.drop 8)
  let (baseDecimals, d) ← field 1 d
  let (quoteDecimals, d) ← field 1 d
  let d ← skip 5 d
  let (marketAuthority, d) ← field 32 d
  let (timeExpiry, d) ← fieldI d
  let (collectFeeAdmin, d) ← field 32 d
  let (openOrdersAdmin, d) ← field 32 d
  let (consumeEventsAdmin, d) ← field 32 d
  let (closeMarketAdmin, d) ← field 32 d
  let (name, d) ← field 16 d
  let (bids, d) ← field 32 d
  let (asks, d) ← field 32 d
  let (eventHeap, d) ← field 32 d
  let (oracleA, d) ← field 32 d
  let (oracleB, d) ← field 32 d
  let (confFilter, d) ← field 8 d
  let (maxStalenessSlots, d) ← fieldI d
  let d ← skip 72 d
  let (quoteLotSize, d) ← fieldI d
  let (baseLotSize, d) ← fieldI d
  let (seqNum, d) ← field 8 d
  let (registrationTime, d) ← fieldI d
  let (makerFee, d) ← fieldI d
  let (takerFee, d) ← fieldI d
  let (feesAccrued, d) ← field 16 d
  let (feesToReferrers, d) ← field 16 d
  let (referrerRebatesAccrued, d) ← field 8 d
  let (feesAvailable, d) ← field 8 d
  let (makerVolume, d) ← field 16 d
  let (takerVolumeWoOo, d) ← field 16 d
  let (baseMint, d) ← field 32 d
  let (quoteMint, d) ← field 32 d
  let (marketBaseVault, d) ← field 32 d
  let (baseDepositTotal, d) ← field 8 d
  let (marketQuoteVault, d) ← field 32 d
  let (quoteDepositTotal, d) ← field 8 d
  let _ ← skip 128 d
  return { bump, baseDecimals, quoteDecimals, marketAuthority, timeExpiry, collectFeeAdmin, openOrdersAdmin, consumeEventsAdmin,
           closeMarketAdmin, name, bids, asks, eventHeap, oracleA, oracleB, confFilter, maxStalenessSlots, quoteLotSize, baseLotSize,
           seqNum, registrationTime, makerFee, takerFee, feesAccrued, feesToReferrers, referrerRebatesAccrued, feesAvailable, makerVolume,
           takerVolumeWoOo, baseMint, quoteMint, marketBaseVault, baseDepositTotal, marketQuoteVault, quoteDepositTotal }

/-- Decoding a `Position`: openbook_v2.ts:5862-5926 -/
def decodePosition (d : Bytes) : Js (Position × Bytes) := do
  let (bidsBaseLots, d) ← fieldI d
  let (asksBaseLots, d) ← fieldI d
  let (baseFreeNative, d) ← field 8 d
  let (quoteFreeNative, d) ← field 8 d
  let (lockedMakerFees, d) ← field 8 d
  let (referrerRebatesAvailable, d) ← field 8 d
  let (penaltyHeapCount, d) ← field 8 d
  let (makerVolume, d) ← field 16 d
  let (takerVolume, d) ← field 16 d
  let (bidsQuoteLots, d) ← fieldI d
  let d ← skip 64 d
  return ({ bidsBaseLots, asksBaseLots, baseFreeNative, quoteFreeNative, lockedMakerFees, referrerRebatesAvailable, penaltyHeapCount,
            makerVolume, takerVolume, bidsQuoteLots }, d)

/-- An `OpenOrder` as the library holds it: flags and enums are numbers. -/
structure SlotAcct where
  id : Nat
  clientId : Nat
  lockedPrice : Int
  isFree : Nat
  sideAndTree : Nat
  deriving DecidableEq, Repr

/-- Decoding an `OpenOrder`: openbook_v2.ts:5929-5961 -/
def decodeSlot (d : Bytes) : Js (SlotAcct × Bytes) := do
  let (id, d) ← field 16 d
  let (clientId, d) ← field 8 d
  let (lockedPrice, d) ← fieldI d
  let (isFree, d) ← field 1 d
  let (sideAndTree, d) ← field 1 d
  let d ← skip 6 d
  return ({ id, clientId, lockedPrice, isFree, sideAndTree }, d)

def decodeSlots : Nat → Bytes → Js (List SlotAcct)
  | 0, _ => .ok []
  | n + 1, d => do
    let (x, d) ← decodeSlot d
    let rest ← decodeSlots n d
    return x :: rest

/-- An `openOrdersAccount` as the library holds it. -/
structure OpenOrdersAcct where
  owner : Nat
  market : Nat
  name : Nat
  delegate : Nat
  accountNum : Nat
  bump : Nat
  version : Nat
  position : Position
  openOrders : List SlotAcct
  deriving DecidableEq, Repr

/-- Decoding an `openOrdersAccount`: openbook_v2.ts:5642-5703 -/
def decodeOpenOrders (data : Bytes) : Js OpenOrdersAcct := do
  let (owner, d) ← field 32 (data.drop 8)
  let (market, d) ← field 32 d
  let (name, d) ← field 32 d
  let (delegate, d) ← field 32 d
  let (accountNum, d) ← field 4 d
  let (bump, d) ← field 1 d
  let (version, d) ← field 1 d
  let d ← skip 2 d
  let (position, d) ← decodePosition d
  let openOrders ← decodeSlots 24 d
  return { owner, market, name, delegate, accountNum, bump, version, position, openOrders }

/-- An `openOrdersIndexer` as the library holds it. -/
structure IndexerAcct where
  bump : Nat
  createdCounter : Nat
  addresses : List Nat
  deriving DecidableEq, Repr

def decodeKeys : Nat → Bytes → Js (List Nat)
  | 0, _ => .ok []
  | n + 1, d => do
    let (x, d) ← field 32 d
    let rest ← decodeKeys n d
    return x :: rest

/-- Decoding an `openOrdersIndexer`: openbook_v2.ts:5705-5724; a list is its length as a `u32` and its members. -/
def decodeIndexer (data : Bytes) : Js IndexerAcct := do
  let (bump, d) ← field 1 (data.drop 8)
  let (createdCounter, d) ← field 4 d
  let (n, d) ← field 4 d
  let addresses ← decodeKeys n d
  return { bump, createdCounter, addresses }

/-! The other three account types are read elsewhere: book sides and the event heap (`Ts.lean`, `TsEvents.lean`), and stub oracles only
by the program (`OracleBytes.lean`). -/

/-! ### accounts by name -/

/-- The decoded accounts of the kinds the library decodes. -/
inductive Decoded
  | market (m : Find.MarketData)
  | openOrders (a : OpenOrdersAcct)
  | indexer (i : IndexerAcct)
  | heap (h : HeapAcct)

/-- `coder.accounts.decode(name, data)` (anchor 0.29, `BorshAccountsCoder`): the discriminator of the name must be the first eight bytes of
the data, and the name must be one of the accounts of openbook_v2.ts:5415-5844 (of `stubOracle` and `bookSide`, for which the library
does not call this, nothing is decoded here).  Both failures are an `Error`.  `disc` hashes the name with its first letter in upper case. -/
def decodeAccount (disc : String → Bytes) (name : String) (data : Bytes) : Js Decoded :=
  if data.take 8 ≠ disc name then .error .undefined
  else if name = "market" then do return .market (← decodeMarket data)
  else if name = "openOrdersAccount" then do return .openOrders (← decodeOpenOrders data)
  else if name = "openOrdersIndexer" then do return .indexer (← decodeIndexer data)
  else if name = "eventHeap" then do return .heap (← decodeHeap data)
  else .error .undefined

end OB.Ts
