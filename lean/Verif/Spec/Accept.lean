import Verif.Spec.Engine
import Verif.Spec.Cancel
import Verif.Spec.Ledger
/-!
Vocabulary for stating which orders are accepted.  Used only in statements.
-/
namespace OB.Spec
open OB

/-- What the owner of an order must be able to pay: a bid its quote limit, an ask all the base it offers (native units). -/
def maxCost (s : State) (side : Side) (maxBase maxQuote : Int) : Int :=
  match side with
  | .bid => maxQuote * s.g.market.quoteLotSize
  | .ask => maxBase * s.g.market.baseLotSize

/-- The free balance an order on `side` is paid from. -/
def freeFor (s : State) (side : Side) (k : Pubkey) : Int :=
  match side with
  | .bid => freeQuote s k
  | .ask => freeBase s k

/-- The vault an order on `side` pays into. -/
def vaultFor (s : State) (side : Side) : Pubkey :=
  match side with
  | .bid => s.g.market.marketQuoteVault
  | .ask => s.g.market.marketBaseVault

/-- The resting orders of one side. -/
def restingOn (s : State) (side : Side) : List (Side × Comp × LeafNode) := s.book.resting.filter (fun x => x.1 = side)

/-- Counters are far from the end of their range (128 bits for volumes and fees, 64 bits for sequence numbers and penalties).
That they are not negative is a matter of their type in the program. -/
structure CountersFit (s : State) : Prop where
  maker : s.g.market.makerVolume < 2 ^ 127
  fees : s.g.market.feesAccrued < 2 ^ 127
  taker : 0 ≤ s.g.market.takerVolumeWoOo ∧ s.g.market.takerVolumeWoOo < 2 ^ 127
  accts : ∀ k a, s.g.accts.get? k = some a → a.position.makerVolume < 2 ^ 127 ∧
    (0 ≤ a.position.takerVolume ∧ a.position.takerVolume < 2 ^ 127) ∧
    (0 ≤ a.position.penaltyHeapCount ∧ a.position.penaltyHeapCount < 2 ^ 63)
  orders : s.g.market.seqNum < 2 ^ 63
  events : s.g.heap.seqNum < 2 ^ 63

/-- The market takes orders, and the accounts given with an order are the right ones. -/
structure MayPlace (s : State) (c : PlaceCtx) (side : Side) : Prop where
  isOpen : s.closed = false
  live : s.g.market.timeExpiry = 0 ∨ c.now ≤ s.g.market.timeExpiry
  clock : 0 ≤ c.now ∧ c.now ≤ i64Max
  signer : Controls s c.signer c.ooKey
  notVault : c.signer ≠ s.g.market.marketAuthority
  admin : s.g.market.openOrdersAdmin = c.admin
  mint : (s.tokens c.userToken).mint = (s.tokens (vaultFor s side)).mint ∧ (s.tokens c.userToken).mint ≠ 0
  wallet : (s.tokens c.userToken).owner = c.signer
  oracle : ∀ p, c.oracle = some p → s.g.market.oracleA ≠ 0 ∧ i64Min ≤ p ∧ p ≤ i64Max
  rem : c.ooKey ∉ c.rem

/-- The amounts of an order fit: in native units they are 64-bit values (for an ask together with the fee on its quote limit, rounded
up to lots), the vault has room for the cost; the event queue has room. -/
structure AmountsFit (s : State) (side : Side) (maxBase maxQuote : Int) (limit : Nat) : Prop where
  base : 0 ≤ maxBase ∧ maxBase * s.g.market.baseLotSize ≤ i64Max
  quote : 0 ≤ maxQuote ∧ maxQuote * s.g.market.quoteLotSize ≤ i64Max
  lot : s.g.market.quoteLotSize ≤ i64Max
  fee : side = .ask → maxQuote * s.g.market.quoteLotSize * s.g.market.takerFee + 1000000 * s.g.market.quoteLotSize + 1000000 ≤ 1000000 * i64Max
  vault : tokens s (vaultFor s side) + maxCost s side maxBase maxQuote ≤ u64Max
  queue : s.g.heap.events.length + limit + 7 ≤ 600

/-- The sums of lots kept in account `k` have room for the order. -/
def LotsFit (s : State) (k : Pubkey) (side : Side) (maxBase maxQuote : Int) : Prop :=
  ∀ a, s.g.accts.get? k = some a →
    (side = .bid → a.position.bidsBaseLots + min maxBase maxQuote ≤ i64Max ∧ a.position.bidsQuoteLots + maxQuote ≤ i64Max) ∧
    (side = .ask → a.position.asksBaseLots + maxBase ≤ i64Max)

/-- The market takes orders, and the accounts given with a take order are the right ones: two token accounts of the signer that is no
open orders account, and a payer for a penalty. -/
structure MayTake (s : State) (c : TakeCtx) : Prop where
  isOpen : s.closed = false
  live : s.g.market.timeExpiry = 0 ∨ c.now ≤ s.g.market.timeExpiry
  clock : 0 ≤ c.now ∧ c.now ≤ i64Max
  signer : s.g.accts.get? c.signer = none
  notVault : c.signer ≠ s.g.market.marketAuthority
  payer : c.penaltyPayer ≠ s.g.market.marketAuthority
  admin : s.g.market.openOrdersAdmin = c.admin
  baseMint : (s.tokens c.userBase).mint = (s.tokens s.g.market.marketBaseVault).mint ∧ (s.tokens c.userBase).mint ≠ 0
  quoteMint : (s.tokens c.userQuote).mint = (s.tokens s.g.market.marketQuoteVault).mint ∧ (s.tokens c.userQuote).mint ≠ 0
  baseWallet : (s.tokens c.userBase).owner = c.signer
  quoteWallet : (s.tokens c.userQuote).owner = c.signer
  oracle : ∀ p, c.oracle = some p → s.g.market.oracleA ≠ 0 ∧ i64Min ≤ p ∧ p ≤ i64Max
  lamports : 500 ≤ s.lamports c.penaltyPayer ∧ 0 ≤ s.lamports s.marketKey ∧ s.lamports s.marketKey + 500 ≤ u64Max

/-- The wallet a take order pays from, and the one it receives into. -/
def payWallet (c : TakeCtx) : Side → Pubkey
  | .bid => c.userQuote
  | .ask => c.userBase
def getWallet (c : TakeCtx) : Side → Pubkey
  | .bid => c.userBase
  | .ask => c.userQuote

/-- The reasons to refuse an order. -/
inductive Refusal (s : State) (c : PlaceCtx) (side : Side) (t : PlaceOrderType) (stb : SelfTradeBehavior) (cost : Int) : Err → Prop
  /-- It would meet an order of the same account, and the owner asked to abort then. -/
  | selfTrade (cp : Comp) (l : LeafNode) (asked : stb = .abortTransaction) (met : (side.invert, cp, l) ∈ s.book.resting)
      (own : l.owner = c.ooKey) : Refusal s c side t stb cost .wouldSelfTrade
  /-- It is to be filled at once and completely. -/
  | unfilled (asked : t = .fillOrKill) : Refusal s c side t stb cost .wouldExecutePartially
  /-- It would rest, but its side of the book is crowded. -/
  | crowded (e : Err) (kind : e = .someError ∨ e = .panic) (rests : t = .limit ∨ t = .postOnly ∨ t = .postOnlySlide)
      (many : 512 ≤ (restingOn s side).length) : Refusal s c side t stb cost e
  /-- It would rest, but all slots of the account are in use. -/
  | slots (a : OOA) (acct : s.g.accts.get? c.ooKey = some a) (rests : t = .limit ∨ t = .postOnly ∨ t = .postOnlySlide)
      (used : ∀ oo ∈ a.openOrders, oo.isFree = false) : Refusal s c side t stb cost .openOrdersFull
  /-- The wallet and the free balance may not suffice. -/
  | funds (short : tokens s c.userToken + freeFor s side c.ooKey < cost) : Refusal s c side t stb cost .insufficientFunds
  /-- It is to slide behind the best opposing price, but this is the last price there is. -/
  | slide (e : Err) (kind : (side = .bid ∧ e = .invalidPriceLots) ∨ (side = .ask ∧ e = .panic)) (asked : t = .postOnlySlide)
      (cp : Comp) (l : LeafNode) (p : Int) (opp : (side.invert, cp, l) ∈ s.book.resting)
      (can : TradableAt c.now.toNat c.oracle side.invert cp l p) (last : if side = .bid then p ≤ 1 else i64Max ≤ p) :
      Refusal s c side t stb cost e

end OB.Spec
