import Verif.Model.Program
/-!
logs.rs and the places that emit: what the instructions write to the transaction log.

The logs are computed by functions beside the model of the instructions, one for each function that emits, from the same state.  They
are the logs of a transaction that succeeds.  Left out: the address of the market in each record (there is one market), and
`MarketMetaDataLog` of `create_market`, which copies the arguments.  `OpenOrdersPositionLog` names the account by its owner and number,
the records here by its address (which is derived from the two, accounts_ix/create_open_orders_account.rs:21-27).
-/
namespace OB

/-- logs.rs:28-50 -/
structure FillLog where
  takerSide : Side
  makerSlot : Nat
  makerOut : Bool
  timestamp : Nat
  seqNum : Nat
  maker : Pubkey
  makerClientOrderId : Nat
  makerFee : Int
  makerTimestamp : Nat
  taker : Pubkey
  takerClientOrderId : Nat
  takerFeeCeil : Int
  price : Int
  quantity : Int
  deriving DecidableEq

/-- logs.rs:70-77 -/
structure TotalLog where
  side : Side
  taker : Pubkey
  paid : Int
  received : Int
  fees : Int
  deriving DecidableEq

/-- logs.rs:101-119 -/
structure PositionLog where
  account : Pubkey
  bidsBaseLots : Int
  bidsQuoteLots : Int
  asksBaseLots : Int
  baseFreeNative : Int
  quoteFreeNative : Int
  lockedMakerFees : Int
  referrerRebatesAvailable : Int
  makerVolume : Int
  takerVolume : Int
  deriving DecidableEq

/-- logs.rs:21-26, 79-83, 85-92, 94-99: the other records. -/
inductive Log
  | fill (l : FillLog)
  | takerSignature (seqNum : Nat)
  | total (l : TotalLog)
  | position (l : PositionLog)
  | deposit (account signer : Pubkey) (base quote : Int)
  | delegate (account delegate : Pubkey)
  | settle (account : Pubkey) (base quote rebate : Int) (referrer : Option Pubkey)
  | sweep (amount : Int) (receiver : Pubkey)
  deriving DecidableEq

/-- open_orders_account.rs:227-240 and 263-276 -/
def positionLog (k : Pubkey) (p : Position) : Log :=
  .position { account := k, bidsBaseLots := p.bidsBaseLots, bidsQuoteLots := p.bidsQuoteLots, asksBaseLots := p.asksBaseLots,
              baseFreeNative := p.baseFreeNative, quoteFreeNative := p.quoteFreeNative, lockedMakerFees := p.lockedMakerFees,
              referrerRebatesAvailable := p.referrerRebatesAvailable, makerVolume := p.makerVolume, takerVolume := p.takerVolume }

/-- open_orders_account.rs:134-240 (`execute_maker`): the values of lines 136-152 and 202-206 again, then the two records. -/
def makerLogs (a : OOA) (m : Market) (f : FillEvent) : R (List Log) := do
  let (a', m') ← a.executeMaker m f
  let quoteNative := asU64 (← ckI64 ((← ckI64 (f.quantity * f.price)) * m.quoteLotSize))
  let makerFee ← if f.maker = f.taker then .ok 0 else m.makerFeesFloor quoteNative
  let takerFeeCeil ← if quoteNative > 0 ∧ f.maker ≠ f.taker then m'.takerFeesCeil quoteNative else .ok 0
  return [.fill { takerSide := f.takerSide, makerSlot := f.makerSlot, makerOut := f.makerOut, timestamp := f.timestamp,
                  seqNum := f.marketSeqNum, maker := f.maker, makerClientOrderId := f.makerClientOrderId, makerFee,
                  makerTimestamp := f.makerTimestamp, taker := f.taker, takerClientOrderId := f.takerClientOrderId,
                  takerFeeCeil, price := f.price, quantity := f.quantity },
          positionLog f.maker a'.position]

/-- book.rs:606-629: a fill that goes to the queue emits nothing. -/
def processFillLogs (ev : FillEvent) (rem : List Pubkey) (g : Ledger) (processed : Nat) : R (List Log) :=
  if processed < fillEventRemainingLimit ∧ ev.maker ∈ rem then do
    makerLogs (← g.accts.get ev.maker) g.market ev
  else .ok []

/-- book.rs:126-257: an iteration emits if it creates a fill (244-247, then `process_fill_event` 249-255); the fill is the one that the
iteration adds to the ghost trace. -/
def matchStepLogs (env : Env) (priceLots : Int) (item : IterItem) (s : MatchSt) : R (List Log) := do
  let (_, s') ← matchStep env priceLots item s
  match s'.fills.drop s.fills.length with
  | [] => return []
  | f :: _ => return .takerSignature s.g.market.seqNum :: (← processFillLogs f env.rem s.g s.processed)

/-- book.rs:124-258 -/
def matchLoopLogs (env : Env) (priceLots : Int) (t : Nodes) : Nat → SideIter → MatchSt → R (List Log)
  | 0, _, _ => .error .fuel
  | n + 1, it, s => do
    match ← it.next t env.nowTs env.oracle with
    | none => return []
    | some (item, it') =>
      let (go, s') ← matchStep env priceLots item s
      let l ← matchStepLogs env priceLots item s
      if go then return l ++ (← matchLoopLogs env priceLots t n it' s') else return l

/-- book.rs:260-314: the position of the taker after `execute_taker` (263-276), then the totals (296-313). -/
def takerLogs (env : Env) (maxQuoteLots : Int) (s : MatchSt) : R (List Log) := do
  let (base, quote, fees, _, quoteTaken, g) ← takerAccounting env maxQuoteLots s
  let baseTaken ← ckI64 (env.order.maxBaseLots - s.remBase)
  if quoteTaken > 0 ∨ baseTaken > 0 then do
    let p ← (if env.hasOO then do
        let a ← g.accts.get env.owner
        return [positionLog env.owner a.position]
      else .ok [] : R (List Log))
    let (paid, received) ← (match env.order.side with
      | .bid => do return (← ckU64 (quote + fees), base)
      | .ask => do return (base, ← ckU64 (quote - fees)) : R (Int × Int))
    return p ++ [.total { side := env.order.side, taker := env.owner, paid, received, fees }]
  else return []

/-- book.rs:61-314: the first part of `new_order`; what follows emits nothing. -/
def newOrderLogs (env : Env) (book : Book) (g0 : Ledger) : R (List Log) := do
  let order := env.order
  let side := order.side
  let (priceLots, _) ← order.price env.nowTs env.oracle book
  assertR (g0.market.seqNum < 18446744073709551615)
  let market := { g0.market with seqNum := g0.market.seqNum + 1 }
  let maxQuoteLots ← if side = .bid ∧ order.isPostOnly = false
    then market.subtractTakerFees order.maxQuoteLotsIncludingFees else .ok order.maxQuoteLotsIncludingFees
  let s0 : MatchSt :=
    { remBase := order.maxBaseLots, remQuote := maxQuoteLots, decr := 0, rebates := 0, changes := [], deletes := [],
      dropped := 0, processed := 0, limit := env.limit, postTarget := order.postTarget,
      g := { g0 with market }, fills := [], outs := [] }
  let opp := book.side side.invert
  let it ← opp.iter
  let s ← matchLoop env priceLots opp.nodes (2 * Nodes.fuel) it s0
  let l ← matchLoopLogs env priceLots opp.nodes (2 * Nodes.fuel) it s0
  return l ++ (← takerLogs env maxQuoteLots s)

/-- instructions/place_order.rs:11-121 emits nothing itself. -/
def placeOrderLogs (s : State) (c : PlaceCtx) (order : Order) (limit : Nat) : R (List Log) := do
  let nowTs ← nowU64 c.now
  newOrderLogs { order, oracle := c.oracle, hasOO := true, owner := c.ooKey, nowTs, limit, rem := c.rem } s.book s.g

/-- instructions/edit_order.rs:6-37; cancelling emits nothing. -/
def editOrderLogs (s : State) (c : PlaceCtx) (client : Nat) (expected : Int) (order : Order) (limit : Nat) : R (List Log) := do
  let (q, s1) ← cancelByClientId s c.signer c.ooKey client
  let filled ← ckI64 (expected - q)
  if filled > 0 ∧ order.maxBaseLots > filled then do
    placeOrderLogs s1 c { order with maxBaseLots := ← ckI64 (order.maxBaseLots - filled) } limit
  else return []

/-- instructions/cancel_all_and_place_orders.rs:50-117 -/
def multiLogs (c : MultiCtx) (nowTs limit : Nat) (ub uq : Int) : List Order → Book → Ledger → Int → Int → R (List Log)
  | [], _, _, _, _ => .ok []
  | o :: rest, book, g, b, q => do
    let o' ← boundOrder g c.ooKey ub uq b q o
    let env : Env := { order := o', oracle := c.oracle, hasOO := true, owner := c.ooKey, nowTs, limit, rem := c.rem }
    let (r, book1, g1) ← newOrder env book g
    let l ← newOrderLogs env book g
    let cost ← orderCost o.side r
    let (b', q') ← (match o.side with
      | .bid => do return (b, ← addAmt q cost)
      | .ask => do return (← addAmt b cost, q) : R (Int × Int))
    return l ++ (← multiLogs c nowTs limit ub uq rest book1 g1 b' q')

/-- instructions/cancel_all_and_place_orders.rs:11-153 with lib.rs:269-368 -/
def placeOrdersLogs (s : State) (c : MultiCtx) (cancel : Bool) (t : PlaceOrderType) (bids asks : List MultiArgs) (limit : Nat) :
    R (List Log) := do
  let nowTs ← nowU64 c.now
  let bs ← multiOrders t nowTs .bid 0 bids
  let as ← multiOrders t nowTs .ask bids.length asks
  let s1 ← (if cancel then do
      let (_, s1) ← cancelAllFor s c.ooKey 255 none none
      return s1
    else .ok s : R State)
  multiLogs c nowTs limit (s.tokens c.userBase).amount (s.tokens c.userQuote).amount (bs ++ as) s1.book s1.g 0 0

/-- instructions/place_take_order.rs:10-132 emits nothing itself. -/
def takeOrderLogs (s : State) (c : TakeCtx) (a : PlaceOrderArgs) : R (List Log) := do
  let order ← takeOrder a
  let nowTs ← nowU64 c.now
  newOrderLogs { order, oracle := c.oracle, hasOO := false, owner := c.signer, nowTs, limit := a.limit, rem := c.rem } s.book s.g

/-- instructions/consume_events.rs:61-72; `cancel_order` for an out event emits nothing. -/
def applyEventLogs (g : Ledger) (e : Event) : R (List Log) :=
  match e with
  | .fill f => do makerLogs (← g.accts.get f.maker) g.market f
  | .out _ => .ok []

/-- instructions/consume_events.rs:58-76 -/
def consumeLoopLogs (rem : List Pubkey) : List Nat → Ledger → R (List Log)
  | [], _ => .ok []
  | slot :: rest, g => do
    let e ← unwrapR (g.heap.atSlot slot)
    if e.target ∈ rem then do
      let l ← applyEventLogs g e
      let g1 ← applyEvent g e
      let (_, h) ← g1.heap.deleteSlot slot
      return l ++ (← consumeLoopLogs rem rest { g1 with heap := h })
    else consumeLoopLogs rem rest g

/-- instructions/consume_events.rs:38-79 -/
def consumeLogs (s : State) (limit : Nat) (slots : List Nat) (rem : List Pubkey) : R (List Log) := do
  consumeLoopLogs rem (← slotsToConsume s.g.heap slots (min limit maxEventsConsume)) s.g

/-- instructions/deposit.rs:35-42 -/
def depositLogs (signer ooKey : Pubkey) (base quote : Int) : List Log :=
  if base > 0 ∨ quote > 0 then [.deposit ooKey signer base quote] else []

/-- instructions/settle_funds.rs:77-83 -/
def settleLogs (s : State) (c : SettleCtx) : R (List Log) := do
  let a ← s.g.accts.get c.ooKey
  let (rebate, _, _) ← settleAccounting s.g.market a c.referrer.isSome
  return [.settle c.ooKey a.position.baseFreeNative a.position.quoteFreeNative rebate c.referrer]

/-- What an instruction that succeeds writes to the log, in order (lib.rs: dispatch; deposit of a refill: lib.rs:544-556; sweep_fees.rs:27-31;
set_delegate.rs:19-22). -/
def logs (s : State) : Op → R (List Log)
  | .placeOrder c a => do
    match ← a.order (← nowU64 c.now) with
    | none => return []
    | some o => placeOrderLogs s c o a.limit
  | .placeOrderPegged c a => do
    match ← a.order s.g.market (← nowU64 c.now) with
    | none => return []
    | some o => placeOrderLogs s c o a.limit
  | .editOrder c client e a => do
    match ← a.order (← nowU64 c.now) with
    | none => return []
    | some o => editOrderLogs s c client e o a.limit
  | .editOrderPegged c client e a => do
    match ← a.order s.g.market (← nowU64 c.now) with
    | none => return []
    | some o => editOrderLogs s c client e o a.limit
  | .placeOrders c cancel t bids asks limit => placeOrdersLogs s c cancel t bids asks limit
  | .placeTakeOrder c a => takeOrderLogs s c a
  | .consumeEvents _ limit rem => consumeLogs s limit [] rem
  | .consumeGivenEvents _ slots rem => consumeLogs s slots.length slots rem
  | .deposit signer ooKey _ _ _ b q => return depositLogs signer ooKey b q
  | .refill signer ooKey _ _ _ b q => do
    let a ← s.g.accts.get ooKey
    return depositLogs signer ooKey (b - min b a.position.baseFreeNative) (q - min q a.position.quoteFreeNative)
  | .settleFunds c => settleLogs s c
  | .settleFundsExpired _ c _ => settleLogs s c
  | .sweepFees _ receiver => return [.sweep s.g.market.feesAvailable receiver]
  | .setDelegate ooKey _ delegate => return [.delegate ooKey delegate]
  | _ => return []

end OB
