import Verif.Spec.Exact
import Verif.Spec.Penalty
/-!
Vocabulary for a batch of orders compared with the same orders placed one at a time.  Used only in statements.
-/
namespace OB.Spec

/-- The entries of a batch in the order in which they are placed, with their side and the client order id they get: the bids, then the
asks, numbered through. -/
def entries (bids asks : List MultiArgs) : List (Side × Nat × MultiArgs) :=
  (bids.zipIdx 0).map (fun x => (.bid, x.2, x.1)) ++ (asks.zipIdx bids.length).map (fun x => (.ask, x.2, x.1))

/-- The arguments with which the owner of the account, who reads their balances in `s`, would place an entry by itself: they are willing
to spend all they have, in the wallet and free in the account, up to what the entry says. -/
def asSingle (s : State) (c : MultiCtx) (t : PlaceOrderType) (limit : Nat) (e : Side × Nat × MultiArgs) : PlaceOrderArgs :=
  let m := s.g.market
  let mostBase := i64Max / m.baseLotSize
  let mostQuote := i64Max / m.quoteLotSize
  { side := e.1
    priceLots := e.2.2.priceLots
    maxBaseLots := match e.1 with
      | .bid => mostBase
      | .ask => min mostBase ((tokens s c.userBase + freeBase s c.ooKey) / m.baseLotSize)
    maxQuoteLots := match e.1 with
      | .bid => min e.2.2.maxQuoteLots (min mostQuote ((tokens s c.userQuote + freeQuote s c.ooKey) / m.quoteLotSize))
      | .ask => e.2.2.maxQuoteLots
    clientOrderId := e.2.1
    orderType := t
    expiry := e.2.2.expiry
    stb := .cancelProvide
    limit := limit }

/-- The accounts of a single order: the same, with the wallet of its side. -/
def singleCtx (c : MultiCtx) (side : Side) : PlaceCtx :=
  { signer := c.signer, ooKey := c.ooKey, admin := c.admin, userToken := match side with | .bid => c.userQuote | .ask => c.userBase
    now := c.now, oracle := c.oracle, rem := c.rem }

/-- The entries are placed one at a time, each with its own `place_order` and its own payment. -/
inductive OneByOne (c : MultiCtx) (t : PlaceOrderType) (limit : Nat) : State → List (Side × Nat × MultiArgs) → State → Prop
  | nil (s : State) : OneByOne c t limit s [] s
  | cons (s s1 s2 : State) (e : Side × Nat × MultiArgs) (es : List (Side × Nat × MultiArgs))
      (first : step s (.placeOrder (singleCtx c e.1) (asSingle s c t limit e)) = .ok s1)
      (rest : OneByOne c t limit s1 es s2) : OneByOne c t limit s (e :: es) s2

/-- `s''` is `s'`, except that the account has `x` more base and `y` more quote free, which have been paid from its owner's wallets, and
owes `p` more penalties. -/
structure PaidFromWallet (c : MultiCtx) (s' s'' : State) (x y p : Int) : Prop where
  book : s''.book = s'.book
  heap : s''.g.heap = s'.g.heap
  market : s''.g.market = { s'.g.market with
    baseDepositTotal := s'.g.market.baseDepositTotal + x, quoteDepositTotal := s'.g.market.quoteDepositTotal + y }
  others : ∀ k, k ≠ c.ooKey → s''.g.accts.get? k = s'.g.accts.get? k
  own : ∀ a, s'.g.accts.get? c.ooKey = some a → s''.g.accts.get? c.ooKey = some { a with position := { a.position with
    baseFreeNative := a.position.baseFreeNative + x, quoteFreeNative := a.position.quoteFreeNative + y
    penaltyHeapCount := a.position.penaltyHeapCount + p } }
  lamports : s''.lamports = s'.lamports
  marketKey : s''.marketKey = s'.marketKey
  closed : s''.closed = s'.closed
  kind : ∀ k, (s''.tokens k).owner = (s'.tokens k).owner ∧ (s''.tokens k).mint = (s'.tokens k).mint
  tokens : ∀ k, tokens s'' k = tokens s' k + moved k c.userBase s'.g.market.marketBaseVault x +
    moved k c.userQuote s'.g.market.marketQuoteVault y

end OB.Spec
