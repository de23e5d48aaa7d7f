import Verif.Model.Book
/-!
The instructions of the program (lib.rs, instructions/*.rs, accounts_ix/*.rs) as a state machine over one market.

Inputs of an instruction that do not live in the modelled accounts are arguments of the operation: the clock, the oracle price
in lots (`None` when the oracle is stale, low confidence or absent), the keys of the accounts passed and the remaining
accounts.  A failing instruction leaves the state unchanged (the transaction is rolled back), so `step` returns `R`.
-/
namespace OB

/-- The fields of an SPL token account that matter.  An absent account is the one with mint 0.  SPL delegates, freezing and
close authorities are not modelled. -/
structure TokenAcct where
  owner : Pubkey
  mint : Pubkey
  amount : Int
  deriving DecidableEq, Repr

abbrev Tokens := Pubkey → TokenAcct

def Tokens.setAmount (t : Tokens) (k : Pubkey) (x : Int) : Tokens :=
  fun i => if i = k then { t k with amount := x } else t i

/-- token_utils.rs:5-33 and 35-65 with the SPL token program's `Transfer`. -/
def tokenTransfer (t : Tokens) (amount : Int) (src dst authority : Pubkey) : R Tokens :=
  if amount > 0 then do
    req ((t src).amount ≥ amount) .insufficientFunds
    req ((t src).mint = (t dst).mint) .constraint
    req ((t src).owner = authority) .tokenAuth
    if src = dst then return t
    else do
      let x ← ckU64 ((t dst).amount + amount)
      return (t.setAmount src ((t src).amount - amount)).setAmount dst x
  else .ok t

abbrev Lamports := Pubkey → Int

/-- token_utils.rs:67-90 with the system program's `Transfer` -/
def systemTransfer (l : Lamports) (amount : Int) (src dst : Pubkey) : R Lamports :=
  if amount > 0 then do
    req (l src ≥ amount) .insufficientFunds
    if src = dst then return l
    else do
      let x ← ckU64 (l dst + amount)
      return fun i => if i = dst then x else if i = src then l src - amount else l i
  else .ok l

/-- All accounts of one market. -/
structure State where
  g : Ledger
  book : Book
  tokens : Tokens
  lamports : Lamports
  marketKey : Pubkey
  closed : Bool

/-- `AccountLoader<Market>` checks owner and discriminator: fails when the market was closed. -/
def State.open? (s : State) : R Unit := req (s.closed = false) .marketClosed

/-- accounts_ix: `token::mint = vault.mint` -/
def mintIs (t : Tokens) (k vault : Pubkey) : R Unit := req ((t k).mint = (t vault).mint ∧ (t k).mint ≠ 0) .constraint

/-- A signer has a private key, hence is not the market authority (a PDA). -/
def signerOk (s : State) (k : Pubkey) : R Unit := req (k ≠ s.g.market.marketAuthority) .constraint

/-- Clock::unix_timestamp.try_into::<u64>().unwrap() -/
def nowU64 (now : Int) : R Nat := do
  assertR (0 ≤ now ∧ now ≤ i64Max)
  return now.toNat

/-- state/market.rs:229-256: there is no price without an oracle; prices are i64. -/
def oracleOk (s : State) (o : Option Int) : R Unit :=
  match o with
  | none => .ok ()
  | some p => req (s.g.market.oracleA ≠ 0 ∧ i64Min ≤ p ∧ p ≤ i64Max) .constraint

/-- state/orderbook/order_type.rs:20-46 -/
inductive PlaceOrderType | limit | immediateOrCancel | postOnly | market | postOnlySlide | fillOrKill
  deriving DecidableEq, Repr

/-- state/orderbook/order_type.rs:49-58 -/
def PlaceOrderType.toPost : PlaceOrderType → R PostOrderType
  | .market => .error .invalidInputOrderType
  | .immediateOrCancel => .error .invalidInputOrderType
  | .fillOrKill => .error .invalidInputOrderType
  | .limit => .ok .limit
  | .postOnly => .ok .postOnly
  | .postOnlySlide => .ok .postOnlySlide

/-- state/orderbook/order.rs:50-64 -/
def tifFromExpiry (now expiry : Nat) : Option Nat :=
  if expiry ≠ 0 then
    let tif := min (expiry - now) 65535
    if tif = 0 then none else some tif
  else some 0

/-- lib.rs:627-642 -/
structure PlaceOrderArgs where
  side : Side
  priceLots : Int
  maxBaseLots : Int
  maxQuoteLots : Int
  clientOrderId : Nat
  orderType : PlaceOrderType
  expiry : Nat
  stb : SelfTradeBehavior
  limit : Nat

/-- lib.rs:654-686.  `zeroOracle` is not an argument but says what is passed as the optional account `oracle_a` on a market
without oracle: `true` for the account with the all-zero key, `false` for none.  The constraint
`market.oracle_a == oracle_a.non_zero_key()` (accounts_ix/place_order.rs:30) accepts both, and on a market with oracle it
forces that oracle. -/
structure PlaceOrderPeggedArgs where
  side : Side
  offset : Int
  pegLimit : Int
  maxBaseLots : Int
  maxQuoteLots : Int
  clientOrderId : Nat
  orderType : PlaceOrderType
  expiry : Nat
  stb : SelfTradeBehavior
  limit : Nat
  zeroOracle : Bool := false

def inI64 (x : Int) : Prop := i64Min ≤ x ∧ x ≤ i64Max
instance (x : Int) : Decidable (inI64 x) := by unfold inI64; infer_instance

/-- Argument types: what deserialisation guarantees. -/
def PlaceOrderArgs.typed (a : PlaceOrderArgs) : Prop :=
  inI64 a.priceLots ∧ inI64 a.maxBaseLots ∧ inI64 a.maxQuoteLots ∧ a.clientOrderId < two64 ∧ a.expiry < two64 ∧ a.limit < 256
instance (a : PlaceOrderArgs) : Decidable a.typed := by unfold PlaceOrderArgs.typed; infer_instance

/-- Argument types: what deserialisation guarantees. -/
def PlaceOrderPeggedArgs.typed (a : PlaceOrderPeggedArgs) : Prop :=
  inI64 a.offset ∧ inI64 a.pegLimit ∧ inI64 a.maxBaseLots ∧ inI64 a.maxQuoteLots ∧ a.clientOrderId < two64 ∧
  a.expiry < two64 ∧ a.limit < 256
instance (a : PlaceOrderPeggedArgs) : Decidable a.typed := by unfold PlaceOrderPeggedArgs.typed; infer_instance

/-- lib.rs:141-153 (same in 183-195, 301-313 and, for the first three, 432-442) -/
def orderParams (t : PlaceOrderType) (priceLots : Int) : R OrderParams :=
  match t with
  | .market => .ok .market
  | .immediateOrCancel => .ok (.immediateOrCancel priceLots)
  | .fillOrKill => .ok (.fillOrKill priceLots)
  | _ => do return .fixed priceLots (← t.toPost)

/-- lib.rs:125-155: `none` when already expired -/
def PlaceOrderArgs.order (a : PlaceOrderArgs) (now : Nat) : R (Option Order) := do
  req a.typed .constraint
  req (a.priceLots ≥ 1) .invalidInputPriceLots
  match tifFromExpiry now a.expiry with
  | none => return none
  | some tif =>
    let p ← orderParams a.orderType a.priceLots
    return some { side := a.side, maxBaseLots := a.maxBaseLots, maxQuoteLotsIncludingFees := a.maxQuoteLots,
                  clientOrderId := a.clientOrderId, timeInForce := tif, selfTradeBehavior := a.stb, params := p }

/-- lib.rs:375-405 (also 219-254 of edit_order_pegged).  `oracle_a.is_some()`: the oracle account must be the market's, which
on a market without oracle the account with the all-zero key also is. -/
def PlaceOrderPeggedArgs.order (a : PlaceOrderPeggedArgs) (m : Market) (now : Nat) : R (Option Order) := do
  req a.typed .constraint
  req (m.oracleA ≠ 0 ∨ a.zeroOracle = true) .disabledOraclePeg
  req (a.pegLimit > 0) .invalidInputPegLimit
  match tifFromExpiry now a.expiry with
  | none => return none
  | some tif =>
    let t ← a.orderType.toPost
    return some { side := a.side, maxBaseLots := a.maxBaseLots, maxQuoteLotsIncludingFees := a.maxQuoteLots,
                  clientOrderId := a.clientOrderId, timeInForce := tif, selfTradeBehavior := a.stb,
                  params := .oraclePegged a.offset t a.pegLimit }

/-- Accounts and environment of `PlaceOrder` (accounts_ix/place_order.rs:8-53).  `admin = 0` is no admin account. -/
structure PlaceCtx where
  signer : Pubkey
  ooKey : Pubkey
  admin : Pubkey
  userToken : Pubkey
  now : Int
  oracle : Option Int
  rem : List Pubkey

/-- accounts_ix/place_order.rs:10-18 and 25-34 (also cancel_all_and_place_orders.rs:9-41): authority checks. -/
def authPlace (s : State) (signer ooKey admin : Pubkey) : R Unit := do
  s.open?
  signerOk s signer
  let a ← s.g.accts.get ooKey
  req (a.isOwnerOrDelegate signer = true) .noOwnerOrDelegate
  req (s.g.market.openOrdersAdmin = admin) .invalidOpenOrdersAdmin

/-- instructions/place_order.rs:76-106: lock the free balance first, the rest is to be deposited.
Returns the updated ledger and the deposit. -/
def lockBid (g : Ledger) (ooKey : Pubkey) (amount : Int) : R (Ledger × Int) := do
  let a ← g.accts.get ooKey
  let lock := min amount a.position.quoteFreeNative
  let dep ← ckU64 (amount - lock)
  let q ← ckU64 (a.position.quoteFreeNative - lock)
  let t ← ckU64 (g.market.quoteDepositTotal + dep)
  let a' := { a with position := { a.position with quoteFreeNative := q } }
  return ({ g with market := { g.market with quoteDepositTotal := t }, accts := g.accts.set ooKey a' }, dep)

/-- instructions/place_order.rs:93-105 -/
def lockAsk (g : Ledger) (ooKey : Pubkey) (amount : Int) : R (Ledger × Int) := do
  let a ← g.accts.get ooKey
  let lock := min amount a.position.baseFreeNative
  let dep ← ckU64 (amount - lock)
  let q ← ckU64 (a.position.baseFreeNative - lock)
  let t ← ckU64 (g.market.baseDepositTotal + dep)
  let a' := { a with position := { a.position with baseFreeNative := q } }
  return ({ g with market := { g.market with baseDepositTotal := t }, accts := g.accts.set ooKey a' }, dep)

/-- instructions/place_order.rs:108-110 -/
def addPenalty (g : Ledger) (ooKey : Pubkey) (lenBefore : Nat) : R Ledger :=
  if g.heap.len > lenBefore then do
    let a ← g.accts.get ooKey
    let c ← ckU64 (a.position.penaltyHeapCount + 1)
    return { g with accts := g.accts.set ooKey { a with position := { a.position with penaltyHeapCount := c } } }
  else .ok g

/-- instructions/place_order.rs:78-81 and 93-95: what the order costs its owner -/
def orderCost (side : Side) (r : OrderResult) : R Int :=
  match side with
  | .bid => do
    let x ← ckU64 (r.totalQuoteTakenNative + r.postedQuoteNative)
    let y ← ckU64 (x + r.takerFees)
    ckU64 (y + r.makerFees)
  | .ask => ckU64 (r.totalBaseTakenNative + r.postedBaseNative)

/-- instructions/place_order.rs:11-121 -/
def placeOrder (s : State) (c : PlaceCtx) (order : Order) (limit : Nat) : R (OrderResult × State) := do
  authPlace s c.signer c.ooKey c.admin
  let m := s.g.market
  let vault := m.vaultBySide order.side
  mintIs s.tokens c.userToken vault
  req (order.maxBaseLots ≥ 0) .invalidInputLots
  req (order.maxQuoteLotsIncludingFees ≥ 0) .invalidInputLots
  req (m.isExpired c.now = false) .marketHasExpired
  let nowTs ← nowU64 c.now
  oracleOk s c.oracle
  let env : Env := { order, oracle := c.oracle, hasOO := true, owner := c.ooKey, nowTs, limit, rem := c.rem }
  let (r, book, g1) ← newOrder env s.book s.g
  let cost ← orderCost order.side r
  let (g2, dep) ← (match order.side with
    | .bid => lockBid g1 c.ooKey cost
    | .ask => lockAsk g1 c.ooKey cost : R (Ledger × Int))
  let g3 ← addPenalty g2 c.ooKey s.g.heap.len
  let tokens ← tokenTransfer s.tokens dep c.userToken vault c.signer
  return (r, { s with g := g3, book, tokens })

/-- lib.rs:121-160 -/
def placeOrderIx (s : State) (c : PlaceCtx) (a : PlaceOrderArgs) : R (Option OrderResult × State) := do
  match ← a.order (← nowU64 c.now) with
  | none => do authPlace s c.signer c.ooKey c.admin; return (none, s)
  | some o => do
    let (r, s') ← placeOrder s c o a.limit
    return (some r, s')

/-- lib.rs:371-410 -/
def placeOrderPeggedIx (s : State) (c : PlaceCtx) (a : PlaceOrderPeggedArgs) : R (Option OrderResult × State) := do
  match ← a.order s.g.market (← nowU64 c.now) with
  | none => do authPlace s c.signer c.ooKey c.admin; return (none, s)
  | some o => do
    let (r, s') ← placeOrder s c o a.limit
    return (some r, s')

/-- accounts_ix/cancel_order.rs:6-21: authority of the cancel instructions -/
def authCancel (s : State) (signer ooKey : Pubkey) : R OOA := do
  s.open?
  signerOk s signer
  let a ← s.g.accts.get ooKey
  req (a.isOwnerOrDelegate signer = true) .noOwnerOrDelegate
  return a

/-- `book.cancel_all_orders` applied to account `ooKey` -/
def cancelAllFor (s : State) (ooKey : Pubkey) (limit : Nat) (side : Option Side) (client : Option Nat) :
    R (Int × State) := do
  let a ← s.g.accts.get ooKey
  let (q, book, a') ← cancelAllOrders s.book a s.g.market limit side client
  return (q, { s with book, g := { s.g with accts := s.g.accts.set ooKey a' } })

/-- instructions/cancel_order_by_client_order_id.rs:6-19 -/
def cancelByClientId (s : State) (signer ooKey : Pubkey) (client : Nat) : R (Int × State) := do
  let _ ← authCancel s signer ooKey
  cancelAllFor s ooKey 255 none (some client)

/-- instructions/cancel_all_orders.rs:6-22 -/
def cancelAll (s : State) (signer ooKey : Pubkey) (side : Option Side) (limit : Nat) : R State := do
  let _ ← authCancel s signer ooKey
  let (_, s') ← cancelAllFor s ooKey limit side none
  return s'

/-- open_orders_account.rs:122-124 -/
def OOA.findOrder (a : OOA) (id : Nat) : Option OpenOrder :=
  a.openOrders.find? (fun o => o.isFree = false ∧ o.id = id)

/-- instructions/cancel_order.rs:7-35 -/
def cancelOrderIx (s : State) (signer ooKey : Pubkey) (orderId : Nat) : R State := do
  let a ← authCancel s signer ooKey
  req (orderId > 0) .invalidInputOrderId
  let oo ← okOr .openOrdersOrderNotFound (a.findOrder orderId)
  let (_, book, a') ← cancelOrderOnBook s.book a s.g.market oo.id oo.side oo.comp (some ooKey)
  return { s with book, g := { s.g with accts := s.g.accts.set ooKey a' } }

/-- instructions/edit_order.rs:6-37 -/
def editOrder (s : State) (c : PlaceCtx) (client : Nat) (expected : Int) (order : Order) (limit : Nat) :
    R (Option OrderResult × State) := do
  req (inI64 expected) .constraint
  authPlace s c.signer c.ooKey c.admin
  req (expected ≥ 0) .invalidInputCancelSize
  let (q, s1) ← cancelByClientId s c.signer c.ooKey client
  let filled ← ckI64 (expected - q)
  if filled > 0 ∧ order.maxBaseLots > filled then do
    let mb ← ckI64 (order.maxBaseLots - filled)
    let (r, s2) ← placeOrder s1 c { order with maxBaseLots := mb } limit
    return (some r, s2)
  else return (none, s1)

/-- lib.rs:163-214 -/
def editOrderIx (s : State) (c : PlaceCtx) (client : Nat) (expected : Int) (a : PlaceOrderArgs) :
    R (Option OrderResult × State) := do
  match ← a.order (← nowU64 c.now) with
  | none => do authPlace s c.signer c.ooKey c.admin; return (none, s)
  | some o => editOrder s c client expected o a.limit

/-- lib.rs:217-266 -/
def editOrderPeggedIx (s : State) (c : PlaceCtx) (client : Nat) (expected : Int) (a : PlaceOrderPeggedArgs) :
    R (Option OrderResult × State) := do
  match ← a.order s.g.market (← nowU64 c.now) with
  | none => do authPlace s c.signer c.ooKey c.admin; return (none, s)
  | some o => editOrder s c client expected o a.limit

/-- lib.rs:646-650 -/
structure MultiArgs where
  priceLots : Int
  maxQuoteLots : Int
  expiry : Nat

def MultiArgs.typed (a : MultiArgs) : Prop := inI64 a.priceLots ∧ inI64 a.maxQuoteLots ∧ a.expiry < two64
instance (a : MultiArgs) : Decidable a.typed := by unfold MultiArgs.typed; infer_instance

/-- lib.rs:278-311 (and 329-362): index `i` is the client order id; already expired orders are left out.
`max_base_lots` is overwritten before use, 0 stands for the placeholder. -/
def multiOrders (t : PlaceOrderType) (now : Nat) (side : Side) : Nat → List MultiArgs → R (List Order)
  | _, [] => .ok []
  | i, a :: rest => do
    req a.typed .constraint
    req (a.priceLots ≥ 1) .invalidInputPriceLots
    match tifFromExpiry now a.expiry with
    | none => multiOrders t now side (i + 1) rest
    | some tif =>
      let p ← orderParams t a.priceLots
      let o : Order := { side, maxBaseLots := 0, maxQuoteLotsIncludingFees := a.maxQuoteLots, clientOrderId := i,
                         timeInForce := tif, selfTradeBehavior := .cancelProvide, params := p }
      return o :: (← multiOrders t now side (i + 1) rest)

/-- Accounts and environment of `CancelAllAndPlaceOrders` (accounts_ix/cancel_all_and_place_orders.rs:7-60). -/
structure MultiCtx where
  signer : Pubkey
  ooKey : Pubkey
  admin : Pubkey
  userBase : Pubkey
  userQuote : Pubkey
  now : Int
  oracle : Option Int
  rem : List Pubkey

/-- instructions/cancel_all_and_place_orders.rs:51-77: the order with the available funds as its bounds.
`ub`, `uq` are the token balances read when the instruction starts. -/
def boundOrder (g : Ledger) (ooKey : Pubkey) (ub uq baseAmt quoteAmt : Int) (o : Order) : R Order := do
  let a ← g.accts.get ooKey
  let m := g.market
  req (o.maxQuoteLotsIncludingFees ≥ 0) .invalidInputLots
  match o.side with
  | .ask => do
    let x ← ckU64 (ub + a.position.baseFreeNative)
    let av ← ckU64 (x - baseAmt)
    return { o with maxBaseLots := min m.maxBaseLots (m.maxBaseLotsFromLamports av) }
  | .bid => do
    let x ← ckU64 (uq + a.position.quoteFreeNative)
    let av ← ckU64 (x - quoteAmt)
    return { o with maxBaseLots := m.maxBaseLots,
                    maxQuoteLotsIncludingFees := min o.maxQuoteLotsIncludingFees (m.maxQuoteLotsFromLamports av) }

/-- `checked_add(..).ok_or(InvalidInputOrdersAmounts)` -/
def addAmt (x y : Int) : R Int := do
  req (x + y ≤ u64Max) .invalidInputOrdersAmounts
  return x + y

/-- instructions/cancel_all_and_place_orders.rs:50-117 -/
def multiLoop (c : MultiCtx) (nowTs limit : Nat) (ub uq : Int) :
    List Order → Book → Ledger → Int → Int → R (List OrderResult × Book × Ledger × Int × Int)
  | [], book, g, b, q => .ok ([], book, g, b, q)
  | o :: rest, book, g, b, q => do
    let o' ← boundOrder g c.ooKey ub uq b q o
    let env : Env := { order := o', oracle := c.oracle, hasOO := true, owner := c.ooKey, nowTs, limit, rem := c.rem }
    let (r, book1, g1) ← newOrder env book g
    let cost ← orderCost o.side r
    let (b', q') ← (match o.side with
      | .bid => do return (b, ← addAmt q cost)
      | .ask => do return (← addAmt b cost, q) : R (Int × Int))
    let (rs, x) ← multiLoop c nowTs limit ub uq rest book1 g1 b' q'
    return (r :: rs, x)

/-- instructions/cancel_all_and_place_orders.rs:11-153 -/
def cancelAllAndPlace (s : State) (c : MultiCtx) (cancel : Bool) (orders : List Order) (limit : Nat) :
    R (List OrderResult × State) := do
  authPlace s c.signer c.ooKey c.admin
  let m := s.g.market
  mintIs s.tokens c.userQuote m.marketQuoteVault
  mintIs s.tokens c.userBase m.marketBaseVault
  req (m.isExpired c.now = false) .marketHasExpired
  let nowTs ← nowU64 c.now
  oracleOk s c.oracle
  let s1 ← (if cancel then do
      let (_, s1) ← cancelAllFor s c.ooKey 255 none none
      return s1
    else .ok s : R State)
  let (rs, book, g1, b, q) ←
    multiLoop c nowTs limit (s.tokens c.userBase).amount (s.tokens c.userQuote).amount orders s1.book s1.g 0 0
  let (g2, depB) ← lockAsk g1 c.ooKey b
  let (g3, depQ) ← lockBid g2 c.ooKey q
  let g4 ← addPenalty g3 c.ooKey s.g.heap.len
  let t1 ← tokenTransfer s.tokens depQ c.userQuote m.marketQuoteVault c.signer
  let t2 ← tokenTransfer t1 depB c.userBase m.marketBaseVault c.signer
  return (rs, { s with g := g4, book, tokens := t2 })

/-- lib.rs:269-368 -/
def placeOrdersIx (s : State) (c : MultiCtx) (cancel : Bool) (t : PlaceOrderType) (bids asks : List MultiArgs) (limit : Nat) :
    R (List OrderResult × State) := do
  req (limit < 256) .constraint
  let now ← nowU64 c.now
  let bs ← multiOrders t now .bid 0 bids
  let as ← multiOrders t now .ask bids.length asks
  cancelAllAndPlace s c cancel (bs ++ as) limit

/-- Accounts and environment of `PlaceTakeOrder` (accounts_ix/place_take_order.rs:8-58). -/
structure TakeCtx where
  signer : Pubkey
  penaltyPayer : Pubkey
  admin : Pubkey
  userBase : Pubkey
  userQuote : Pubkey
  now : Int
  oracle : Option Int
  rem : List Pubkey

/-- lib.rs:414-446: the order of a take instruction -/
def takeOrder (a : PlaceOrderArgs) : R Order := do
  req a.typed .constraint
  req (a.priceLots ≥ 1) .invalidInputPriceLots
  let p ← (match a.orderType with
    | .market => .ok .market
    | .immediateOrCancel => .ok (.immediateOrCancel a.priceLots)
    | .fillOrKill => .ok (.fillOrKill a.priceLots)
    | _ => .error .invalidInputOrderType : R OrderParams)
  return { side := a.side, maxBaseLots := a.maxBaseLots, maxQuoteLotsIncludingFees := a.maxQuoteLots, clientOrderId := 0,
           timeInForce := 0, selfTradeBehavior := .decrementTake, params := p }

/-- instructions/place_take_order.rs:67-85: deposit totals, deposit and withdrawal -/
def takeAmounts (g : Ledger) (side : Side) (r : OrderResult) : R (Ledger × Int × Int) := do
  let rebates ← ckU64 (r.takerFees - r.referrerAmount)
  let m := g.market
  match side with
  | .bid => do
    let q ← ckU64 (r.totalQuoteTakenNative + rebates)
    let bt ← ckU64 (m.baseDepositTotal - r.totalBaseTakenNative)
    let qt ← ckU64 (m.quoteDepositTotal + q)
    return ({ g with market := { m with baseDepositTotal := bt, quoteDepositTotal := qt } }, q, r.totalBaseTakenNative)
  | .ask => do
    let q ← ckU64 (r.totalQuoteTakenNative - rebates)
    let bt ← ckU64 (m.baseDepositTotal + r.totalBaseTakenNative)
    let qt ← ckU64 (m.quoteDepositTotal - q)
    return ({ g with market := { m with baseDepositTotal := bt, quoteDepositTotal := qt } }, r.totalBaseTakenNative, q)

/-- instructions/place_take_order.rs:10-132.  The signer is a key pair, hence not the address of an open orders account
(a PDA, accounts_ix/create_open_orders_account.rs:21-27); the check makes this explicit. -/
def placeTakeOrder (s : State) (c : TakeCtx) (order : Order) (limit : Nat) : R (OrderResult × State) := do
  s.open?
  signerOk s c.signer
  signerOk s c.penaltyPayer
  req (s.g.accts.get? c.signer = none) .constraint
  let m := s.g.market
  req (m.openOrdersAdmin = c.admin) .invalidOpenOrdersAdmin
  mintIs s.tokens c.userBase m.marketBaseVault
  mintIs s.tokens c.userQuote m.marketQuoteVault
  req (order.maxBaseLots ≥ 0) .invalidInputLots
  req (order.maxQuoteLotsIncludingFees ≥ 0) .invalidInputLots
  req (m.isExpired c.now = false) .marketHasExpired
  let nowTs ← nowU64 c.now
  oracleOk s c.oracle
  let env : Env := { order, oracle := c.oracle, hasOO := false, owner := c.signer, nowTs, limit, rem := c.rem }
  let (r, book, g1) ← newOrder env s.book s.g
  let (g2, dep, wd) ← takeAmounts g1 order.side r
  let lamports ← (if g2.heap.len > s.g.heap.len
    then systemTransfer s.lamports penaltyEventHeap c.penaltyPayer s.marketKey else .ok s.lamports : R Lamports)
  let (depUser, wdUser, depVault, wdVault) := (match order.side with
    | .bid => (c.userQuote, c.userBase, m.marketQuoteVault, m.marketBaseVault)
    | .ask => (c.userBase, c.userQuote, m.marketBaseVault, m.marketQuoteVault) : Pubkey × Pubkey × Pubkey × Pubkey)
  let t1 ← tokenTransfer s.tokens dep depUser depVault c.signer
  let t2 ← tokenTransfer t1 wd wdVault wdUser m.marketAuthority
  return (r, { s with g := g2, book, tokens := t2, lamports })

/-- lib.rs:414-448 -/
def placeTakeOrderIx (s : State) (c : TakeCtx) (a : PlaceOrderArgs) : R (OrderResult × State) := do
  let o ← takeOrder a
  placeTakeOrder s c o a.limit

/-- instructions/consume_events.rs:11 -/
def maxEventsConsume : Nat := 8

/-- itertools `unique()`: keep first occurrences. -/
def uniqueFrom (seen : List Nat) : List Nat → List Nat
  | [] => []
  | x :: xs => if x ∈ seen then uniqueFrom seen xs else x :: uniqueFrom (x :: seen) xs

/-- instructions/consume_events.rs:49-56 -/
def slotsToConsume (h : EventHeap) (slots : List Nat) (limit : Nat) : R (List Nat) := do
  let rest ← h.iterSlots
  return (uniqueFrom [] (slots.filter (fun i => !(h.nodes i).isFree) ++ rest)).take limit

/-- The account an event is for (consume_events.rs:64, 69). -/
def Event.target : Event → Pubkey
  | .fill f => f.maker
  | .out o => o.owner

/-- instructions/consume_events.rs:61-72: apply one event to its account -/
def applyEvent (g : Ledger) (e : Event) : R Ledger :=
  match e with
  | .fill f => do
    let a ← g.accts.get f.maker
    let (a', m') ← a.executeMaker g.market f
    return { g with market := m', accts := g.accts.set f.maker a' }
  | .out o => do
    let a ← g.accts.get o.owner
    let a' ← a.cancelOrder o.ownerSlot o.quantity g.market
    return { g with accts := g.accts.set o.owner a' }

/-- instructions/consume_events.rs:58-76: events whose account was not passed are skipped. -/
def consumeLoop (rem : List Pubkey) : List Nat → Ledger → R Ledger
  | [], g => .ok g
  | slot :: rest, g => do
    let e ← unwrapR (g.heap.atSlot slot)
    if e.target ∈ rem then do
      let g1 ← applyEvent g e
      let (_, h) ← g1.heap.deleteSlot slot
      consumeLoop rem rest { g1 with heap := h }
    else consumeLoop rem rest g

/-- instructions/consume_events.rs:38-79, accounts_ix/consume_events.rs:6-17 -/
def consumeEvents (s : State) (admin : Pubkey) (limit : Nat) (slots : List Nat) (rem : List Pubkey) : R State := do
  s.open?
  req (s.g.market.consumeEventsAdmin = admin) .invalidConsumeEventsAdmin
  let todo ← slotsToConsume s.g.heap slots (min limit maxEventsConsume)
  let g ← consumeLoop rem todo s.g
  return { s with g }

/-- lib.rs:477-490 -/
def consumeGivenEvents (s : State) (admin : Pubkey) (slots : List Nat) (rem : List Pubkey) : R State := do
  req (slots.all (fun i => i < maxNumEvents) = true) .invalidInputHeapSlots
  consumeEvents s admin slots.length slots rem

/-- instructions/deposit.rs:7-45, accounts_ix/deposit.rs:5-36.  Anybody may deposit into any account. -/
def deposit (s : State) (signer ooKey userBase userQuote : Pubkey) (now baseAmt quoteAmt : Int) : R State := do
  s.open?
  signerOk s signer
  req (0 ≤ baseAmt ∧ baseAmt ≤ u64Max ∧ 0 ≤ quoteAmt ∧ quoteAmt ≤ u64Max) .constraint
  let m := s.g.market
  mintIs s.tokens userBase m.marketBaseVault
  mintIs s.tokens userQuote m.marketQuoteVault
  let a ← s.g.accts.get ooKey
  req (m.isExpired now = false) .marketHasExpired
  let t1 ← tokenTransfer s.tokens baseAmt userBase m.marketBaseVault signer
  let b ← ckU64 (a.position.baseFreeNative + baseAmt)
  let bt ← ckU64 (m.baseDepositTotal + baseAmt)
  let t2 ← tokenTransfer t1 quoteAmt userQuote m.marketQuoteVault signer
  let q ← ckU64 (a.position.quoteFreeNative + quoteAmt)
  let qt ← ckU64 (m.quoteDepositTotal + quoteAmt)
  let a' := { a with position := { a.position with baseFreeNative := b, quoteFreeNative := q } }
  return { s with tokens := t2,
                  g := { s.g with market := { m with baseDepositTotal := bt, quoteDepositTotal := qt },
                                  accts := s.g.accts.set ooKey a' } }

/-- lib.rs:544-556 -/
def refill (s : State) (signer ooKey userBase userQuote : Pubkey) (now baseAmt quoteAmt : Int) : R State := do
  let a ← s.g.accts.get ooKey
  let q := quoteAmt - min quoteAmt a.position.quoteFreeNative
  let b := baseAmt - min baseAmt a.position.baseFreeNative
  req (0 ≤ baseAmt ∧ baseAmt ≤ u64Max ∧ 0 ≤ quoteAmt ∧ quoteAmt ≤ u64Max) .constraint
  deposit s signer ooKey userBase userQuote now b q

/-- Accounts of `SettleFunds`; `referrer` is an optional token account. -/
structure SettleCtx where
  signer : Pubkey
  penaltyPayer : Pubkey
  ooKey : Pubkey
  userBase : Pubkey
  userQuote : Pubkey
  referrer : Option Pubkey

/-- instructions/settle_funds.rs:13-32: the accounting part.  Returns the referrer rebate and the new market, and the account
with its maker fee remainder swept. -/
def settleAccounting (m : Market) (a : OOA) (hasReferrer : Bool) : R (Int × Market × OOA) := do
  let p := a.position
  let sweep : Bool := m.makerFee > 0 ∧ p.bidsBaseLots = 0
  let roundoff := if sweep then p.lockedMakerFees else 0
  let p1 := if sweep then { p with lockedMakerFees := 0 } else p
  let rebate ← ckU64 (p.referrerRebatesAvailable + roundoff)
  let m1 ← (if hasReferrer then do
      let f ← ckU128 (m.feesToReferrers + rebate)
      let q ← ckU64 (m.quoteDepositTotal - rebate)
      return { m with feesToReferrers := f, quoteDepositTotal := q }
    else do
      let f ← ckU64 (m.feesAvailable + rebate)
      return { m with feesAvailable := f } : R Market)
  let b ← ckU64 (m1.baseDepositTotal - p.baseFreeNative)
  let q ← ckU64 (m1.quoteDepositTotal - p.quoteFreeNative)
  let rr ← ckU64 (m1.referrerRebatesAccrued - p.referrerRebatesAvailable)
  return (rebate, { m1 with baseDepositTotal := b, quoteDepositTotal := q, referrerRebatesAccrued := rr },
          { a with position := p1 })

/-- instructions/settle_funds.rs:9-90 -/
def settleCore (s : State) (c : SettleCtx) : R State := do
  let m := s.g.market
  let a ← s.g.accts.get c.ooKey
  mintIs s.tokens c.userBase m.marketBaseVault
  mintIs s.tokens c.userQuote m.marketQuoteVault
  (match c.referrer with
    | some k => mintIs s.tokens k m.marketQuoteVault
    | none => .ok () : R Unit)
  let (rebate, m', a1) ← settleAccounting m a c.referrer.isSome
  let p := a.position
  let lamports ← (if p.penaltyHeapCount > 0 then do
      let x ← ckU64 (p.penaltyHeapCount * penaltyEventHeap)
      systemTransfer s.lamports x c.penaltyPayer s.marketKey
    else .ok s.lamports : R Lamports)
  let t1 ← (match c.referrer with
    | some k => tokenTransfer s.tokens rebate m.marketQuoteVault k m.marketAuthority
    | none => .ok s.tokens : R Tokens)
  let t2 ← tokenTransfer t1 p.baseFreeNative m.marketBaseVault c.userBase m.marketAuthority
  let t3 ← tokenTransfer t2 p.quoteFreeNative m.marketQuoteVault c.userQuote m.marketAuthority
  let a' := { a1 with position := { a1.position with
    baseFreeNative := 0, quoteFreeNative := 0, referrerRebatesAvailable := 0, penaltyHeapCount := 0 } }
  return { s with g := { s.g with market := m', accts := s.g.accts.set c.ooKey a' }, tokens := t3, lamports }

/-- instructions/settle_funds.rs with accounts_ix/settle_funds.rs:7-50 -/
def settleFunds (s : State) (c : SettleCtx) : R State := do
  s.open?
  signerOk s c.signer
  signerOk s c.penaltyPayer
  let a ← s.g.accts.get c.ooKey
  req (a.isOwnerOrDelegate c.signer = true) .noOwnerOrDelegate
  req (a.isSettleDestinationAllowed c.signer (s.tokens c.userBase).owner = true) .constraint
  req (a.isSettleDestinationAllowed c.signer (s.tokens c.userQuote).owner = true) .constraint
  settleCore s c

/-- instructions/settle_funds_expired.rs:5-22, accounts_ix/settle_funds_expired.rs:8-58; `admin` signs as well as
`c.signer` (any signer). -/
def settleFundsExpired (s : State) (admin : Pubkey) (c : SettleCtx) (now : Int) : R State := do
  s.open?
  signerOk s c.penaltyPayer
  req (s.g.market.closeMarketAdmin ≠ 0) .noCloseMarketAdmin
  req (s.g.market.closeMarketAdmin = admin) .invalidCloseMarketAdmin
  let a ← s.g.accts.get c.ooKey
  req ((s.tokens c.userBase).owner = a.owner) .constraint
  req ((s.tokens c.userQuote).owner = a.owner) .constraint
  req (s.g.market.isExpired now = true) .marketHasNotExpired
  settleCore s c

/-- instructions/sweep_fees.rs:8-34, accounts_ix/sweep_fees.rs:6-26 -/
def sweepFees (s : State) (admin receiver : Pubkey) : R State := do
  s.open?
  let m := s.g.market
  req (m.collectFeeAdmin = admin) .constraint
  mintIs s.tokens receiver m.marketQuoteVault
  let amount := m.feesAvailable
  let q ← ckU64 (m.quoteDepositTotal - amount)
  let t ← tokenTransfer s.tokens amount m.marketQuoteVault receiver m.marketAuthority
  return { s with tokens := t, g := { s.g with market := { m with feesAvailable := 0, quoteDepositTotal := q } } }

/-- accounts_ix/{prune_orders,close_market,set_market_expired}.rs: `close_market_admin` constraints -/
def authClose (s : State) (admin : Pubkey) : R Unit := do
  s.open?
  req (s.g.market.closeMarketAdmin ≠ 0) .noCloseMarketAdmin
  req (s.g.market.closeMarketAdmin = admin) .invalidCloseMarketAdmin

/-- instructions/prune_orders.rs:7-24 -/
def pruneOrders (s : State) (admin ooKey : Pubkey) (now : Int) (limit : Nat) : R State := do
  authClose s admin
  req (s.g.market.isExpired now = true) .marketHasNotExpired
  let (_, s') ← cancelAllFor s ooKey limit none none
  return s'

/-- instructions/set_market_expired.rs:5-15 -/
def setMarketExpired (s : State) (admin : Pubkey) (now : Int) : R State := do
  authClose s admin
  req (s.g.market.isExpired now = false) .marketHasExpired
  return { s with g := { s.g with market := { s.g.market with timeExpiry := -1 } } }

/-- instructions/close_market.rs:6-27.  The rent of the closed accounts is not modelled. -/
def closeMarket (s : State) (admin : Pubkey) (now : Int) : R State := do
  authClose s admin
  req (s.g.market.isExpired now = true) .marketHasNotExpired
  req (s.g.market.isEmpty = true) .nonEmptyMarket
  let be ← s.book.bids.isEmpty
  let ae ← s.book.asks.isEmpty
  req (be = true ∧ ae = true) .bookContainsElements
  req (s.g.heap.isEmpty = true) .eventHeapContainsElements
  return { s with closed := true }

/-- instructions/create_open_orders_account.rs:7-28: the address is a fresh PDA. The indexer is not part of the state. -/
def createOO (s : State) (ooKey owner delegate : Pubkey) : R State := do
  s.open?
  signerOk s owner
  req (s.g.accts.get? ooKey = none) .constraint
  return { s with g := { s.g with accts := s.g.accts ++ [(ooKey, OOA.fresh owner delegate)] } }

/-- instructions/close_open_orders_account.rs:5-24, accounts_ix/close_open_orders_account.rs:5-27 -/
def closeOO (s : State) (ooKey owner : Pubkey) : R State := do
  let a ← s.g.accts.get ooKey
  req (a.owner = owner) .constraint
  req (a.position.isEmpty = true) .nonEmptyOpenOrdersPosition
  return { s with g := { s.g with accts := s.g.accts.del ooKey } }

/-- instructions/set_delegate.rs:7-25, accounts_ix/set_delegate.rs:6-16 -/
def setDelegate (s : State) (ooKey owner delegate : Pubkey) : R State := do
  let a ← s.g.accts.get ooKey
  req (a.owner = owner) .constraint
  return { s with g := { s.g with accts := s.g.accts.set ooKey { a with delegate } } }

/-- What other programs can do to a token account: anything to accounts other than the vaults, and only credit the vaults
(their owner is the market authority, which signs only in the instructions above). -/
def externalToken (s : State) (k : Pubkey) (t : TokenAcct) : R State := do
  req (0 ≤ t.amount ∧ t.amount ≤ u64Max) .constraint
  req (s.g.market.isMarketVault k = true →
    t.owner = (s.tokens k).owner ∧ t.mint = (s.tokens k).mint ∧ (s.tokens k).amount ≤ t.amount) .tokenAuth
  return { s with tokens := fun i => if i = k then t else s.tokens i }

/-- Lamport transfers outside the program.  The account of a market that is not closed belongs to this program, so others only credit it. -/
def externalLamports (s : State) (k : Pubkey) (x : Int) : R State := do
  req (0 ≤ x ∧ x ≤ u64Max ∧ (k = s.marketKey ∧ s.closed = false → s.lamports k ≤ x)) .constraint
  return { s with lamports := fun i => if i = k then x else s.lamports i }

/-- instructions/create_market.rs:11-126 with accounts_ix/create_market.rs.  Admin keys, vault and mint keys are account keys
(0: not given).  The vaults are created by the instruction with balance 0, so they did not exist before. -/
structure CreateArgs where
  marketKey : Pubkey
  marketAuthority : Pubkey
  collectFeeAdmin : Pubkey
  openOrdersAdmin : Pubkey
  consumeEventsAdmin : Pubkey
  closeMarketAdmin : Pubkey
  oracleA : Pubkey
  oracleB : Pubkey
  baseMint : Pubkey
  quoteMint : Pubkey
  baseVault : Pubkey
  quoteVault : Pubkey
  quoteLotSize : Int
  baseLotSize : Int
  makerFee : Int
  takerFee : Int
  timeExpiry : Int

/-- instructions/create_market.rs:24-62 (the oracle account type check is not modelled) -/
def CreateArgs.check (a : CreateArgs) (now : Int) : R Unit := do
  req (inI64 a.quoteLotSize ∧ inI64 a.baseLotSize ∧ inI64 a.makerFee ∧ inI64 a.takerFee ∧ inI64 a.timeExpiry) .constraint
  req (a.makerFee.natAbs ≤ feesScale) .invalidInputMarketFees
  req (a.takerFee.natAbs ≤ feesScale) .invalidInputMarketFees
  req (a.takerFee ≥ 0 ∧ (a.makerFee ≥ 0 ∨ (a.makerFee.natAbs : Int) ≤ a.takerFee)) .invalidInputMarketFees
  req (a.timeExpiry = 0 ∨ a.timeExpiry > now) .invalidInputMarketExpired
  req (a.quoteLotSize > 0) .invalidInputLots
  req (a.baseLotSize > 0) .invalidInputLots
  req (¬ (a.oracleA ≠ 0 ∧ a.oracleB ≠ 0 ∧ a.oracleA = a.oracleB)) .requireViolated
  req (¬ (a.oracleA = 0 ∧ a.oracleB ≠ 0)) .invalidSecondOracle
  req (a.baseMint ≠ a.quoteMint ∧ a.baseMint ≠ 0 ∧ a.quoteMint ≠ 0 ∧ a.baseVault ≠ a.quoteVault) .constraint

/-- instructions/create_market.rs:65-103 -/
def CreateArgs.market (a : CreateArgs) : Market :=
  { marketAuthority := a.marketAuthority, timeExpiry := a.timeExpiry, collectFeeAdmin := a.collectFeeAdmin,
    openOrdersAdmin := a.openOrdersAdmin, consumeEventsAdmin := a.consumeEventsAdmin,
    closeMarketAdmin := a.closeMarketAdmin, oracleA := a.oracleA, oracleB := a.oracleB,
    quoteLotSize := a.quoteLotSize, baseLotSize := a.baseLotSize, seqNum := 0, makerFee := a.makerFee,
    takerFee := a.takerFee, feesAccrued := 0, feesToReferrers := 0, referrerRebatesAccrued := 0, feesAvailable := 0,
    makerVolume := 0, takerVolumeWoOo := 0, baseMint := a.baseMint, quoteMint := a.quoteMint,
    marketBaseVault := a.baseVault, baseDepositTotal := 0, marketQuoteVault := a.quoteVault, quoteDepositTotal := 0 }

/-- instructions/create_market.rs:11-126 applied to an environment of token accounts and lamports -/
def createMarket (a : CreateArgs) (now : Int) (tokens : Tokens) (lamports : Lamports) : R State := do
  a.check now
  let t : Tokens := fun i =>
    if i = a.baseVault then { owner := a.marketAuthority, mint := a.baseMint, amount := 0 }
    else if i = a.quoteVault then { owner := a.marketAuthority, mint := a.quoteMint, amount := 0 }
    else tokens i
  return { g := { market := a.market, heap := EventHeap.init, accts := [] },
           book := { bids := BookSide.empty .bid, asks := BookSide.empty .ask },
           tokens := t, lamports, marketKey := a.marketKey, closed := false }

/-- All operations on an existing market. -/
inductive Op
  | placeOrder (c : PlaceCtx) (a : PlaceOrderArgs)
  | placeOrderPegged (c : PlaceCtx) (a : PlaceOrderPeggedArgs)
  | editOrder (c : PlaceCtx) (client : Nat) (expected : Int) (a : PlaceOrderArgs)
  | editOrderPegged (c : PlaceCtx) (client : Nat) (expected : Int) (a : PlaceOrderPeggedArgs)
  | placeOrders (c : MultiCtx) (cancel : Bool) (t : PlaceOrderType) (bids asks : List MultiArgs) (limit : Nat)
  | placeTakeOrder (c : TakeCtx) (a : PlaceOrderArgs)
  | consumeEvents (admin : Pubkey) (limit : Nat) (rem : List Pubkey)
  | consumeGivenEvents (admin : Pubkey) (slots : List Nat) (rem : List Pubkey)
  | cancelOrder (signer ooKey : Pubkey) (orderId : Nat)
  | cancelByClientId (signer ooKey : Pubkey) (client : Nat)
  | cancelAll (signer ooKey : Pubkey) (side : Option Side) (limit : Nat)
  | deposit (signer ooKey userBase userQuote : Pubkey) (now baseAmt quoteAmt : Int)
  | refill (signer ooKey userBase userQuote : Pubkey) (now baseAmt quoteAmt : Int)
  | settleFunds (c : SettleCtx)
  | settleFundsExpired (admin : Pubkey) (c : SettleCtx) (now : Int)
  | sweepFees (admin receiver : Pubkey)
  | pruneOrders (admin ooKey : Pubkey) (now : Int) (limit : Nat)
  | setMarketExpired (admin : Pubkey) (now : Int)
  | closeMarket (admin : Pubkey) (now : Int)
  | createOO (ooKey owner delegate : Pubkey)
  | closeOO (ooKey owner : Pubkey)
  | setDelegate (ooKey owner delegate : Pubkey)
  | externalToken (k : Pubkey) (t : TokenAcct)
  | externalLamports (k : Pubkey) (x : Int)

/-- lib.rs: dispatch.  `.error` means the transaction is rolled back. -/
def step (s : State) : Op → R State
  | .placeOrder c a => do return (← placeOrderIx s c a).2
  | .placeOrderPegged c a => do return (← placeOrderPeggedIx s c a).2
  | .editOrder c client e a => do return (← editOrderIx s c client e a).2
  | .editOrderPegged c client e a => do return (← editOrderPeggedIx s c client e a).2
  | .placeOrders c cancel t bids asks limit => do return (← placeOrdersIx s c cancel t bids asks limit).2
  | .placeTakeOrder c a => do return (← placeTakeOrderIx s c a).2
  | .consumeEvents admin limit rem => consumeEvents s admin limit [] rem
  | .consumeGivenEvents admin slots rem => consumeGivenEvents s admin slots rem
  | .cancelOrder signer ooKey id => cancelOrderIx s signer ooKey id
  | .cancelByClientId signer ooKey client => do return (← cancelByClientId s signer ooKey client).2
  | .cancelAll signer ooKey side limit => cancelAll s signer ooKey side limit
  | .deposit signer ooKey ub uq now b q => deposit s signer ooKey ub uq now b q
  | .refill signer ooKey ub uq now b q => refill s signer ooKey ub uq now b q
  | .settleFunds c => settleFunds s c
  | .settleFundsExpired admin c now => settleFundsExpired s admin c now
  | .sweepFees admin receiver => sweepFees s admin receiver
  | .pruneOrders admin ooKey now limit => pruneOrders s admin ooKey now limit
  | .setMarketExpired admin now => setMarketExpired s admin now
  | .closeMarket admin now => closeMarket s admin now
  | .createOO ooKey owner delegate => createOO s ooKey owner delegate
  | .closeOO ooKey owner => closeOO s ooKey owner
  | .setDelegate ooKey owner delegate => setDelegate s ooKey owner delegate
  | .externalToken k t => externalToken s k t
  | .externalLamports k x => externalLamports s k x

/-- instructions/create_market.rs:11-126 at the address of a closed market.  accounts_ix/create_market.rs:10-22: the market account is
created by `init`, which is possible again once it was closed; the authority is derived from the address.  The open orders accounts of
the closed market still exist and name this address, so they are accounts of the new market.  (The vaults are created by `init` as
well, hence belong to other mints than before; this is not needed and not modelled.) -/
def recreateMarket (s : State) (a : CreateArgs) (now : Int) : R State := do
  req (s.closed = true) .constraint
  req (a.marketKey = s.marketKey ∧ a.marketAuthority = s.g.market.marketAuthority) .constraint
  let n ← createMarket a now s.tokens s.lamports
  return { n with g := { n.g with accts := s.g.accts } }

/-- Reachable states: some market creation followed by any finite sequence of successful operations (failing ones change
nothing) and of re-creations after the market was closed. -/
inductive Reachable : State → Prop
  | init (a : CreateArgs) (now : Int) (tokens : Tokens) (lamports : Lamports) (s : State)
      (h : createMarket a now tokens lamports = .ok s) : Reachable s
  | step (s s' : State) (op : Op) (hs : Reachable s) (h : step s op = .ok s') : Reachable s'
  | again (s s' : State) (a : CreateArgs) (now : Int) (hs : Reachable s) (h : recreateMarket s a now = .ok s') : Reachable s'

end OB
