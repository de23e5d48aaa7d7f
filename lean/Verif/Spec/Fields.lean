import Verif.Spec.Ts
import Verif.Spec.TsEvents
import Verif.Model.Program
/-! The types of the fields of the accounts (state/market.rs:21-120, state/open_orders_account.rs:16-37, 350-375 and 426-435,
state/orderbook/{nodes,ordertree,bookside,heap}.rs, and those of token accounts), as ranges of numbers. -/
namespace OB.Spec

def FitsI64 (x : Int) : Prop := -2 ^ 63 ≤ x ∧ x < 2 ^ 63
def FitsU64 (x : Int) : Prop := 0 ≤ x ∧ x < 2 ^ 64
def FitsU128 (x : Int) : Prop := 0 ≤ x ∧ x < 2 ^ 128
/-- 32 bytes -/
def FitsKey (k : Pubkey) : Prop := k < 2 ^ 256

structure MarketFits (m : Market) : Prop where
  keys : ∀ k ∈ [m.marketAuthority, m.collectFeeAdmin, m.openOrdersAdmin, m.consumeEventsAdmin, m.closeMarketAdmin, m.oracleA, m.oracleB,
    m.baseMint, m.quoteMint, m.marketBaseVault, m.marketQuoteVault], FitsKey k
  i64s : ∀ x ∈ [m.timeExpiry, m.quoteLotSize, m.baseLotSize, m.makerFee, m.takerFee], FitsI64 x
  seqNum : m.seqNum < 2 ^ 64
  u64s : ∀ x ∈ [m.referrerRebatesAccrued, m.feesAvailable, m.baseDepositTotal, m.quoteDepositTotal], FitsU64 x
  u128s : ∀ x ∈ [m.feesAccrued, m.feesToReferrers, m.makerVolume, m.takerVolumeWoOo], FitsU128 x

structure PositionFits (p : Position) : Prop where
  i64s : ∀ x ∈ [p.bidsBaseLots, p.asksBaseLots, p.bidsQuoteLots], FitsI64 x
  u64s : ∀ x ∈ [p.baseFreeNative, p.quoteFreeNative, p.lockedMakerFees, p.referrerRebatesAvailable, p.penaltyHeapCount], FitsU64 x
  u128s : ∀ x ∈ [p.makerVolume, p.takerVolume], FitsU128 x

structure SlotFits (o : OpenOrder) : Prop where
  id : o.id < 2 ^ 128
  clientId : o.clientId < 2 ^ 64
  lockedPrice : FitsI64 o.lockedPrice

structure AccountFits (a : OOA) : Prop where
  owner : FitsKey a.owner
  delegate : FitsKey a.delegate
  position : PositionFits a.position
  slots : ∀ o ∈ a.openOrders, SlotFits o
  /-- an array of this length -/
  length : a.openOrders.length = 24

structure TokenFits (t : TokenAcct) : Prop where
  owner : FitsKey t.owner
  mint : FitsKey t.mint
  amount : FitsU64 t.amount

/-- Every number in every account fits the type of its field. -/
structure StateFits (s : State) : Prop where
  marketKey : FitsKey s.marketKey
  market : MarketFits s.g.market
  heap : HeapFits s.g.heap
  accounts : ∀ x ∈ s.g.accts, FitsKey x.1 ∧ AccountFits x.2
  bids : SideFits s.book.bids
  asks : SideFits s.book.asks
  tokens : ∀ k, TokenFits (s.tokens k)
  lamports : ∀ k, FitsU64 (s.lamports k)

/-- The inputs of an operation that the model does not bound itself and that end up in an account: keys of 32 bytes, and the lists of
a batch, whose positions are the client order ids.  (The other numbers of the arguments are checked by `typed` in the model, as
deserialisation does.) -/
def Sized : Op → Prop
  | .createOO ooKey owner delegate => FitsKey ooKey ∧ FitsKey owner ∧ FitsKey delegate
  | .setDelegate _ _ delegate => FitsKey delegate
  | .placeTakeOrder c _ => FitsKey c.signer
  | .placeOrders _ _ _ bids asks _ => bids.length + asks.length ≤ 2 ^ 64
  | .externalToken _ t => FitsKey t.owner ∧ FitsKey t.mint
  | _ => True

def SizedArgs (a : CreateArgs) : Prop :=
  ∀ k ∈ [a.marketKey, a.marketAuthority, a.collectFeeAdmin, a.openOrdersAdmin, a.consumeEventsAdmin, a.closeMarketAdmin, a.oracleA,
    a.oracleB, a.baseMint, a.quoteMint, a.baseVault, a.quoteVault], FitsKey k

/-- States reached with such inputs, from token accounts and balances of a ledger. -/
inductive SizedReachable : State → Prop
  | init (a : CreateArgs) (now : Int) (tokens : Tokens) (lamports : Lamports) (s : State) (ha : SizedArgs a)
      (ht : ∀ k, TokenFits (tokens k)) (hl : ∀ k, FitsU64 (lamports k)) (h : createMarket a now tokens lamports = .ok s) : SizedReachable s
  | step (s s' : State) (op : Op) (hs : SizedReachable s) (ho : Sized op) (h : step s op = .ok s') : SizedReachable s'
  | again (s s' : State) (a : CreateArgs) (now : Int) (hs : SizedReachable s) (ha : SizedArgs a)
      (h : recreateMarket s a now = .ok s') : SizedReachable s'

end OB.Spec
