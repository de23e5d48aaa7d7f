import Verif.Spec.Accept
/-!
Vocabulary for stating which batches of orders are accepted (`place_orders`, `cancel_all_and_place_orders`).  Used only in statements.
-/
namespace OB.Spec
open OB

/-- The market takes orders, and the accounts given with a batch are the right ones. -/
structure MayPlaceAll (s : State) (c : MultiCtx) : Prop where
  isOpen : s.closed = false
  live : s.g.market.timeExpiry = 0 ∨ c.now ≤ s.g.market.timeExpiry
  clock : 0 ≤ c.now ∧ c.now ≤ i64Max
  signer : Controls s c.signer c.ooKey
  notVault : c.signer ≠ s.g.market.marketAuthority
  admin : s.g.market.openOrdersAdmin = c.admin
  baseMint : (s.tokens c.userBase).mint = (s.tokens s.g.market.marketBaseVault).mint ∧ (s.tokens c.userBase).mint ≠ 0
  quoteMint : (s.tokens c.userQuote).mint = (s.tokens s.g.market.marketQuoteVault).mint ∧ (s.tokens c.userQuote).mint ≠ 0
  baseWallet : (s.tokens c.userBase).owner = c.signer
  quoteWallet : (s.tokens c.userQuote).owner = c.signer
  oracle : ∀ p, c.oracle = some p → s.g.market.oracleA ≠ 0 ∧ i64Min ≤ p ∧ p ≤ i64Max
  rem : c.ooKey ∉ c.rem

/-- An entry of a batch that is well formed.  An ask also has a limit for the quote it sells for: in native units it is a 64-bit value,
together with the fee on it. -/
structure EntryOk (s : State) (side : Side) (a : MultiArgs) : Prop where
  typed : a.typed
  price : 1 ≤ a.priceLots
  quote : 0 ≤ a.maxQuoteLots
  ask : side = .ask → a.maxQuoteLots * s.g.market.quoteLotSize ≤ i64Max ∧
    a.maxQuoteLots * s.g.market.quoteLotSize * s.g.market.takerFee + 1000000 * s.g.market.quoteLotSize + 1000000 ≤ 1000000 * i64Max

/-- All tokens a batch could possibly move: those of its wallets and those of the market. -/
def baseAround (s : State) (c : MultiCtx) : Int := tokens s c.userBase + tokens s s.g.market.marketBaseVault
def quoteAround (s : State) (c : MultiCtx) : Int := tokens s c.userQuote + tokens s s.g.market.marketQuoteVault

/-- A batch of `n` orders fits: amounts of the size of all tokens around, `n + 1` times, are 64-bit values, and the sums of lots kept in
the account have room for them; the event queue has room. -/
structure BatchFits (s : State) (c : MultiCtx) (n limit : Nat) : Prop where
  wallets : 0 ≤ tokens s c.userBase ∧ 0 ≤ tokens s c.userQuote
  lot : s.g.market.quoteLotSize ≤ i64Max
  base : (n + 1) * baseAround s c ≤ u64Max
  quote : (n + 1) * quoteAround s c ≤ u64Max
  lots : ∀ a, s.g.accts.get? c.ooKey = some a → a.position.bidsBaseLots + n * quoteAround s c ≤ i64Max ∧
    a.position.bidsQuoteLots + n * quoteAround s c ≤ i64Max ∧ a.position.asksBaseLots + n * baseAround s c ≤ i64Max ∧
    a.position.bidsBaseLots + a.position.asksBaseLots ≤ i64Max
  queue : s.g.heap.events.length + n * (limit + 7) ≤ 600

/-- The own orders on the book. -/
def ownResting (s : State) (k : Pubkey) : List (Side × Comp × LeafNode) := s.book.resting.filter (fun x => x.2.2.owner = k)

/-- The orders of one side that stay when the batch begins: with `cancel` all own orders go first. -/
def staying (s : State) (k : Pubkey) (cancel : Bool) (side : Side) : List (Side × Comp × LeafNode) :=
  (restingOn s side).filter (fun x => cancel = false ∨ x.2.2.owner ≠ k)

/-- The slots a batch can use: the free ones, and with `cancel` those of the own orders on the book. -/
def usableSlots (s : State) (k : Pubkey) (cancel : Bool) (a : OOA) : Nat :=
  (a.openOrders.filter (fun o => o.isFree)).length + (if cancel then (ownResting s k).length else 0)

/-- The reasons to refuse a batch.  Lack of money is not one of them. -/
inductive BatchRefusal (s : State) (c : MultiCtx) (cancel : Bool) (t : PlaceOrderType) (bids asks : List MultiArgs) : Err → Prop
  /-- Its orders are to be filled at once and completely. -/
  | unfilled (asked : t = .fillOrKill) : BatchRefusal s c cancel t bids asks .wouldExecutePartially
  /-- Its orders would rest, but a side of the book is crowded. -/
  | crowded (e : Err) (kind : e = .someError ∨ e = .panic) (rests : t = .limit ∨ t = .postOnly) (side : Side)
      (many : 512 < (staying s c.ooKey cancel side).length + (match side with | .bid => bids.length | .ask => asks.length)) :
      BatchRefusal s c cancel t bids asks e
  /-- Its orders would rest, but the account has too few slots. -/
  | slots (a : OOA) (acct : s.g.accts.get? c.ooKey = some a) (rests : t = .limit ∨ t = .postOnly)
      (few : usableSlots s c.ooKey cancel a < bids.length + asks.length) : BatchRefusal s c cancel t bids asks .openOrdersFull

end OB.Spec
