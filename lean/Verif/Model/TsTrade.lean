import Verif.Model.ClientIx
import Verif.Model.Ui
import Verif.Model.Ts
/-!
ts/client/src/accounts/openOrders.ts: what the methods of `OpenOrders` send.  A transaction is a list of instructions; they run one after the
other and all are undone when one fails.
-/
namespace OB.TsTrade

/-- `createAssociatedTokenAccountIdempotentInstruction` of @solana/spl-token, as run by the associated token account program: it makes the
token account `k` if there is none (the model has mint 0 for this), and fails if the account there is not of `owner` and `mint`.  The rent
that the payer pays is not modelled. -/
def createAta (s : State) (k owner mint : Pubkey) : R State :=
  if (s.tokens k).mint = 0 then externalToken s k { owner := owner, mint := mint, amount := 0 }
  else do
    req ((s.tokens k).owner = owner ∧ (s.tokens k).mint = mint) .constraint
    return s

/-- The instructions that create token accounts, in order. -/
def createAtas (s : State) : List (Pubkey × Pubkey × Pubkey) → R State
  | [] => return s
  | (k, owner, mint) :: l => do createAtas (← createAta s k owner mint) l

/-- openOrders.ts:245-283: the token accounts that `cancelAllOrders` creates, with owner and mint.  `ata` is `getAssociatedTokenAddress`
with the owner first (utils/utils.ts:59-69). -/
def atasOf (ata : Pubkey → Pubkey → Pubkey) (m : Market) (wallet : Pubkey) (referrer : Option Pubkey) : List (Pubkey × Pubkey × Pubkey) :=
  [(ata wallet m.baseMint, wallet, m.baseMint), (ata wallet m.quoteMint, wallet, m.quoteMint)] ++
    (match referrer with
    | none => []
    | some r => [(ata r m.quoteMint, r, m.quoteMint)])

/-- openOrders.ts:242-303 `cancelAllOrders` for the account `oo`, loaded as `a`, with the market loaded as `m`: cancel up to 24 orders
(openOrders.ts:464-475), create the token accounts, settle.  The transaction is signed by the wallet and, if there is one, the delegate
(client.ts:120-135 and openOrders.ts:297). -/
def cancelAllOrders (s : State) (m : Market) (a : OOA) (oo wallet : Pubkey) (referrer delegate : Option Pubkey)
    (ata : Pubkey → Pubkey → Pubkey) (side : Option Side) : R State := do
  let keys := wallet :: delegate.toList
  let payer := delegate.getD wallet
  let s1 ← (Sent.tsCancelAll a oo 24 side delegate).run s keys
  let s2 ← createAtas s1 (atasOf ata m wallet referrer)
  (Sent.tsSettleFunds a oo (ata wallet m.baseMint) (ata wallet m.quoteMint) (referrer.map (fun r => ata r m.quoteMint)) payer delegate).run s2 keys

/-- openOrders.ts:30-40 `OrderToPlace`.  Fields with `?` are options. -/
structure OrderToPlace where
  side : Side
  price : F64
  size : F64
  quoteLimit : Option F64 := none
  clientOrderId : Option Nat := none
  orderType : Option PlaceOrderType := none
  expiryTimestamp : Option Nat := none
  selfTradeBehavior : Option SelfTradeBehavior := none
  matchLoopLimit : Option Nat := none

/-- `new BN(x)` of bn.js for a number: drops the fraction, throws from 2^53 on and for `NaN`. -/
def bnOfNumber : F64 → Option Int
  | .fin v => if absQ v < 2 ^ 53 then some (if v < 0 then -(-v).floor else v.floor) else none
  | _ => none

/-- Numbers that count as `true` in JavaScript. -/
def truthy : F64 → Bool
  | .fin v => v ≠ 0
  | .nan => false
  | _ => true

/-- openOrders.ts:431-433 -/
def budget : Option F64 → Option Int
  | none => some i64Max
  | some q => if truthy q then bnOfNumber q else some i64Max

/-- openOrders.ts:424-462: the arguments of the order.  `dateNow` is `Date.now()`.  `x || y` is `y` also for 0. -/
def placeArgs (m : Ui.Mkt) (o : OrderToPlace) (dateNow : Nat) : Option PlaceOrderArgs := do
  let priceLots ← m.priceUiToLots o.price
  let maxBaseLots ← m.baseUiToLots o.size
  let maxQuoteLots ← budget o.quoteLimit
  let clientOrderId := match o.clientOrderId with
    | none => dateNow
    | some c => if c = 0 then dateNow else c
  return {
    side := o.side, priceLots, maxBaseLots, maxQuoteLots, clientOrderId
    orderType := o.orderType.getD .limit
    expiry := o.expiryTimestamp.getD 0
    stb := o.selfTradeBehavior.getD .decrementTake
    limit := o.matchLoopLimit.getD 16 }

/-- openOrders.ts:195-206: the loop over the orders of the other side, given by their owners. -/
def makersLoop (found : List Pubkey) : List Pubkey → List Pubkey
  | [] => found
  | k :: l =>
    let found := if k ∈ found then found else found ++ [k]
    if found.length ≥ 3 then found else makersLoop found l

/-- openOrders.ts:195-206: the remaining accounts.  `book` is the other side of the book, if it is loaded. -/
def makers (o : OrderToPlace) (book : Option Ts.BookSide) : Ts.Js (List Pubkey) :=
  match book with
  | none => .ok []
  | some b =>
    if o.orderType = some .postOnly ∨ o.orderType = some .postOnlySlide then .ok []
    else do return makersLoop [] ((← b.items).map (fun x => x.leaf.owner))

/-- openOrders.ts:183-219 `placeOrder`: what it sends, if it does not throw.  A conversion that throws is `undefined` here. -/
def placeOrder (m : Market) (um : Ui.Mkt) (oo wallet : Pubkey) (delegate : Option Pubkey) (ata : Pubkey → Pubkey → Pubkey)
    (o : OrderToPlace) (book : Option Ts.BookSide) (dateNow : Nat) (now : Int) (oracle : Option Int) : Ts.Js Sent.Ix := do
  let rem ← makers o book
  match placeArgs um o dateNow with
  | none => .error .undefined
  | some args =>
    let mint := match o.side with
      | .bid => m.quoteMint
      | .ask => m.baseMint
    return Sent.tsPlaceOrder m wallet oo (ata wallet mint) args rem delegate now oracle

/-- The argument of `cancelOrder`: an order as the library lists them, or a client order id (a whole number). -/
inductive Cancellee
  | order (o : Ts.Order)
  | client (id : Nat)

/-- openOrders.ts:221-240 `cancelOrder`: what it sends.  `a` is the account as it was loaded.  Objects of the class `Order` have no field
`clientOrderId`. -/
def cancelOrder (a : OOA) (oo : Pubkey) (delegate : Option Pubkey) : Cancellee → Ts.Js Sent.Ix
  | .order o => .ok (Sent.tsCancelById a oo o.leaf.key delegate)
  | .client id =>
    match bnOfNumber (.fin id) with
    | none => .error .undefined
    | some n => .ok (Sent.tsCancelByClientId a oo n.toNat delegate)

end OB.TsTrade
