import Verif.Model.Layout
/-!
How the clients search the accounts of the program by their content: `fetch_openbook_accounts` of lib/client/src/gpa.rs and
`findAccountsByMints` of ts/client/src/market.ts.  Both send filters to a node, which applies them to the data of all accounts of the
program.
-/
namespace OB.Find
open Layout

/-- state/market.rs:19-112, field by field.  Addresses are numbers, `f64` and names are their bytes as a number. -/
structure MarketData where
  bump : Nat
  baseDecimals : Nat
  quoteDecimals : Nat
  marketAuthority : Nat
  timeExpiry : Int
  collectFeeAdmin : Nat
  openOrdersAdmin : Nat
  consumeEventsAdmin : Nat
  closeMarketAdmin : Nat
  name : Nat
  bids : Nat
  asks : Nat
  eventHeap : Nat
  oracleA : Nat
  oracleB : Nat
  confFilter : Nat
  maxStalenessSlots : Int
  quoteLotSize : Int
  baseLotSize : Int
  seqNum : Nat
  registrationTime : Int
  makerFee : Int
  takerFee : Int
  feesAccrued : Nat
  feesToReferrers : Nat
  referrerRebatesAccrued : Nat
  feesAvailable : Nat
  makerVolume : Nat
  takerVolumeWoOo : Nat
  baseMint : Nat
  quoteMint : Nat
  marketBaseVault : Nat
  baseDepositTotal : Nat
  marketQuoteVault : Nat
  quoteDepositTotal : Nat

/-- The data of a market account after the discriminator, with the oracle configuration of state/oracle.rs:35-39 (88 bytes).  Padding and
reserved bytes are zero. -/
def marketBytes (m : MarketData) : Bytes :=
  le 1 m.bump ++ (le 1 m.baseDecimals ++ (le 1 m.quoteDecimals ++ (zeros 5 ++ (le 32 m.marketAuthority ++ (leI64 m.timeExpiry ++
  (le 32 m.collectFeeAdmin ++ (le 32 m.openOrdersAdmin ++ (le 32 m.consumeEventsAdmin ++ (le 32 m.closeMarketAdmin ++ (le 16 m.name ++
  (le 32 m.bids ++ (le 32 m.asks ++ (le 32 m.eventHeap ++ (le 32 m.oracleA ++ (le 32 m.oracleB ++ (le 8 m.confFilter ++
  (leI64 m.maxStalenessSlots ++ (zeros 72 ++ (leI64 m.quoteLotSize ++ (leI64 m.baseLotSize ++ (le 8 m.seqNum ++
  (leI64 m.registrationTime ++ (leI64 m.makerFee ++ (leI64 m.takerFee ++ (le 16 m.feesAccrued ++ (le 16 m.feesToReferrers ++
  (le 8 m.referrerRebatesAccrued ++ (le 8 m.feesAvailable ++ (le 16 m.makerVolume ++ (le 16 m.takerVolumeWoOo ++ (le 32 m.baseMint ++
  (le 32 m.quoteMint ++ (le 32 m.marketBaseVault ++ (le 8 m.baseDepositTotal ++ (le 32 m.marketQuoteVault ++ (le 8 m.quoteDepositTotal ++
  zeros 128))))))))))))))))))))))))))))))))))))

/-- state/open_orders_account.rs:16-38: the fields before the position; the position (160 bytes) and the slots (24 times 40 bytes) are
taken as they are. -/
structure OpenOrdersData where
  owner : Nat
  market : Nat
  name : Nat
  delegate : Nat
  accountNum : Nat
  bump : Nat
  version : Nat
  rest : Bytes

/-- The data of an open orders account after the discriminator. -/
def openOrdersBytes (a : OpenOrdersData) : Bytes :=
  le 32 a.owner ++ (le 32 a.market ++ (le 32 a.name ++ (le 32 a.delegate ++ (le 4 a.accountNum ++ (le 1 a.bump ++ (le 1 a.version ++
  (zeros 2 ++ a.rest)))))))

/-- The types of accounts that the program owns: state/market.rs:19, open_orders_account.rs:14, open_orders_indexer.rs:3,
orderbook/bookside.rs:30, orderbook/heap.rs:17, oracle.rs:138. -/
inductive Kind | market | openOrders | indexer | bookSide | eventHeap | stubOracle
  deriving DecidableEq, Repr

/-- An account of the program.  Of the other types only the bytes matter here. -/
inductive Content
  | market (m : MarketData)
  | openOrders (a : OpenOrdersData)
  | other (k : Kind) (bytes : Bytes)

def Content.kind : Content → Kind
  | .market _ => .market
  | .openOrders _ => .openOrders
  | .other k _ => k

/-- The data of an account: the discriminator that anchor derives from the name of the type, then the struct. -/
def Content.data (disc : Kind → Bytes) : Content → Bytes
  | .market m => disc .market ++ marketBytes m
  | .openOrders a => disc .openOrders ++ openOrdersBytes a
  | .other k b => disc k ++ b

/-- A `memcmp` filter as a node applies it: the bytes at the offset are all there and are the ones given. -/
def memcmp (offset : Nat) (bytes data : Bytes) : Bool :=
  decide (offset + bytes.length ≤ data.length) && decide ((data.drop offset).take bytes.length = bytes)

/-- An account with its address. -/
abbrev Account := Nat × Content

/-- lib/client/src/gpa.rs:11-41 without the deserialisation of what was found -/
def fetchOpenbookAccounts (disc : Kind → Bytes) (accounts : List Account) (owner : Nat) : List Account :=
  accounts.filter (fun x => memcmp 0 (disc .openOrders) (x.2.data disc) && memcmp 8 (le 32 owner) (x.2.data disc))

/-- ts/client/src/market.ts:25-46 -/
def findAccountsByMints (disc : Kind → Bytes) (accounts : List Account) (baseMint quoteMint : Nat) : List Account :=
  accounts.filter (fun x => memcmp 792 (le 32 baseMint) (x.2.data disc) && memcmp 824 (le 32 quoteMint) (x.2.data disc))

end OB.Find
