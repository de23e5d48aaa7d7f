import Verif.Model.BookSide
import Verif.Model.OpenOrders
/-!
state/orderbook/order.rs (pricing) and state/orderbook/book.rs (matching engine).
-/
namespace OB

/-- book.rs:15 and 18 -/
def dropExpiredOrderLimit : Nat := 5
def fillEventRemainingLimit : Nat := 15

/-- book.rs:20-23 -/
structure Book where
  bids : BookSide
  asks : BookSide

/-- book.rs:46-58 -/
def Book.side (b : Book) : Side → BookSide
  | .bid => b.bids
  | .ask => b.asks

/-- assignment through `bookside_mut` -/
def Book.setSide (b : Book) (s : Side) (x : BookSide) : Book :=
  match s with
  | .bid => { b with bids := x }
  | .ask => { b with asks := x }

/-- The accounts touched by event processing: market, event heap, open orders accounts. -/
structure Ledger where
  market : Market
  heap : EventHeap
  accts : Accts

/-- Constant inputs of `new_order` (book.rs:61-73).  `hasOO` is `open_orders_account.is_some()`; that account is the one
stored at address `owner` in `Ledger.accts`, and it is mutably borrowed during the call. -/
structure Env where
  order : Order
  oracle : Option Int
  hasOO : Bool
  owner : Pubkey
  nowTs : Nat
  limit : Nat
  rem : List Pubkey

/-- order.rs:177-182 -/
def marketOrderLimitForSide : Side → Int
  | .bid => i64Max
  | .ask => 1

/-- order.rs:186-191 -/
def postOnlySlideLimit (side : Side) (bestOther limit : Int) : R Int :=
  match side with
  | .bid => do return min limit (← ckI64 (bestOther - 1))
  | .ask => do return max limit (← ckI64 (bestOther + 1))

/-- order.rs:92-112 -/
def priceForOrderType (side : Side) (nowTs : Nat) (oracle : Option Int) (priceLots : Int) (t : PostOrderType)
    (book : Book) : R Int :=
  if t = .postOnlySlide then do
    match ← (book.side side.invert).bestPrice nowTs oracle with
    | some best => postOnlySlideLimit side best priceLots
    | none => return priceLots
  else .ok priceLots

/-- order.rs:123-155 -/
def Order.priceLots (o : Order) (nowTs : Nat) (oracle : Option Int) (book : Book) : R Int :=
  match o.params with
  | .market => .ok (marketOrderLimitForSide o.side)
  | .immediateOrCancel p => .ok p
  | .fillOrKill p => .ok p
  | .fixed p t => priceForOrderType o.side nowTs oracle p t book
  | .oraclePegged off t _ =>
    match oracle with
    | none => .error .oraclePegInvalidOracleState
    | some op => do
      req (i64Min ≤ op + off ∧ op + off ≤ i64Max) .invalidPriceLots
      priceForOrderType o.side nowTs oracle (op + off) t book

/-- order.rs:157-163 -/
def Order.priceData (o : Order) (oracle : Option Int) (priceLots : Int) : R Nat :=
  match o.params with
  | .oraclePegged _ _ _ => do
    let op ← unwrapR oracle
    return oraclePeggedPriceData (← ckI64 (priceLots - op))
  | _ => fixedPriceData priceLots

/-- order.rs:117-165 -/
def Order.price (o : Order) (nowTs : Nat) (oracle : Option Int) (book : Book) : R (Int × Nat) := do
  let p ← o.priceLots nowTs oracle book
  req (p ≥ 1) .invalidPriceLots
  let d ← o.priceData oracle p
  return (p, d)

/-- book.rs:580-604.  An account equal to the borrowed one is handled by the first branch. -/
def processOutEvent (ev : OutEvent) (hasOO : Bool) (owner : Pubkey) (rem : List Pubkey) (g : Ledger) : R Ledger :=
  if hasOO ∧ owner = ev.owner then do
    let a ← g.accts.get owner
    let a' ← a.cancelOrder ev.ownerSlot ev.quantity g.market
    return { g with accts := g.accts.set owner a' }
  else if ev.owner ∈ rem then do
    let a ← g.accts.get ev.owner
    let a' ← a.cancelOrder ev.ownerSlot ev.quantity g.market
    return { g with accts := g.accts.set ev.owner a' }
  else do
    let h ← g.heap.pushBack (.out ev)
    return { g with heap := h }

/-- book.rs:606-629.  The second component is `number_of_processed_fill_events`.  Loading the taker's own account, which is
already mutably borrowed by the instruction, fails. -/
def processFillEvent (ev : FillEvent) (hasOO : Bool) (owner : Pubkey) (rem : List Pubkey) (g : Ledger)
    (processed : Nat) : R (Ledger × Nat) :=
  if processed < fillEventRemainingLimit ∧ ev.maker ∈ rem then
    if hasOO ∧ owner = ev.maker then .error .accountBorrowed
    else do
      let a ← g.accts.get ev.maker
      let (a', m') ← a.executeMaker g.market ev
      return ({ g with market := m', accts := g.accts.set ev.maker a' }, processed + 1)
  else do
    let h ← g.heap.pushBack (.fill ev)
    return ({ g with heap := h }, processed)

/-- Mutable variables of the matching loop (book.rs:81, 111-121).  `fills` is a ghost trace of the fill events created at
book.rs:228-242 (in order); `outs` of the invalid orders dropped (134-141). -/
structure MatchSt where
  remBase : Int
  remQuote : Int
  decr : Int
  rebates : Int
  changes : List (Nat × Int)
  deletes : List (Comp × Nat)
  dropped : Nat
  processed : Nat
  limit : Nat
  postTarget : Option Comp
  g : Ledger
  fills : List FillEvent
  outs : List OutEvent

/-- book.rs:228-242 -/
def mkFill (env : Env) (seqNum : Nat) (item : IterItem) (makerOut : Bool) (qty : Int) : FillEvent :=
  { takerSide := env.order.side, makerOut, makerSlot := item.leaf.ownerSlot, timestamp := env.nowTs,
    marketSeqNum := seqNum, maker := item.leaf.owner, makerClientOrderId := item.leaf.clientOrderId,
    makerTimestamp := item.leaf.timestamp, taker := env.owner, takerClientOrderId := env.order.clientOrderId,
    price := item.priceLots, pegLimit := item.leaf.pegLimit, quantity := qty }

/-- book.rs:215-257: execute a match of `matchBase` lots for `matchQuote` lots. -/
def matchFill (env : Env) (item : IterItem) (matchBase matchQuote : Int) (s : MatchSt) : R MatchSt := do
  let remBase ← ckI64 (s.remBase - matchBase)
  let remQuote ← ckI64 (s.remQuote - matchQuote)
  assertR (remQuote ≥ 0)
  let newQty ← ckI64 (item.leaf.quantity - matchBase)
  let makerOut : Bool := newQty = 0
  let deletes := if makerOut then s.deletes ++ [(item.comp, item.leaf.key)] else s.deletes
  let changes := if makerOut then s.changes else s.changes ++ [(item.handle, newQty)]
  let fill := mkFill env s.g.market.seqNum item makerOut matchBase
  let (g, processed) ← processFillEvent fill env.hasOO env.owner env.rem s.g s.processed
  assertR (s.limit ≥ 1)
  return { s with remBase, remQuote, changes, deletes, processed, limit := s.limit - 1, g,
                  fills := s.fills ++ [fill] }

/-- book.rs:126-257: one iteration.  `false` is `break`. -/
def matchStep (env : Env) (priceLots : Int) (item : IterItem) (s : MatchSt) : R (Bool × MatchSt) :=
  let side := env.order.side
  if s.remBase = 0 ∨ s.remQuote = 0 then .ok (false, s)
  else if item.state ≠ .valid then
    if s.dropped < dropExpiredOrderLimit then do
      let ev : OutEvent := { side := side.invert, ownerSlot := item.leaf.ownerSlot, timestamp := env.nowTs,
                             seqNum := s.g.heap.seqNum, owner := item.leaf.owner, quantity := item.leaf.quantity }
      let g ← processOutEvent ev env.hasOO env.owner env.rem s.g
      return (true, { s with dropped := s.dropped + 1, deletes := s.deletes ++ [(item.comp, item.leaf.key)], g,
                             outs := s.outs ++ [ev] })
    else .ok (true, s)
  else if side.isPriceWithinLimit item.priceLots priceLots = false then .ok (false, s)
  else if env.order.isPostOnly then .ok (false, { s with postTarget := none })
  else if s.limit = 0 then .ok (false, { s with postTarget := none })
  else do
    -- division by zero panics
    assertR (item.priceLots ≠ 0)
    let maxMatchByQuote := s.remQuote.tdiv item.priceLots
    if maxMatchByQuote = 0 then return (false, { s with postTarget := none })
    else
      let matchBase := min (min s.remBase item.leaf.quantity) maxMatchByQuote
      let matchQuote ← ckI64 (matchBase * item.priceLots)
      if env.hasOO ∧ env.owner = item.leaf.owner then
        match env.order.selfTradeBehavior with
        | .decrementTake => do
          let decr ← ckI64 (s.decr + matchQuote)
          return (true, ← matchFill env item matchBase matchQuote { s with decr })
        | .cancelProvide => do
          let a ← s.g.accts.get env.owner
          let a' ← a.cancelOrder item.leaf.ownerSlot item.leaf.quantity s.g.market
          return (true, { s with deletes := s.deletes ++ [(item.comp, item.leaf.key)],
                                 g := { s.g with accts := s.g.accts.set env.owner a' } })
        | .abortTransaction => .error .wouldSelfTrade
      else do
        let rb ← s.g.market.makerRebateFloor (asU64 (← ckI64 (matchQuote * s.g.market.quoteLotSize)))
        let rebates ← ckU64 (s.rebates + rb)
        return (true, ← matchFill env item matchBase matchQuote { s with rebates })

/-- book.rs:124-258: the loop over `iter_all_including_invalid` of the opposing side, which is not modified meanwhile. -/
def matchLoop (env : Env) (priceLots : Int) (t : Nodes) : Nat → SideIter → MatchSt → R MatchSt
  | 0, _, _ => .error .fuel
  | n + 1, it, s => do
    match ← it.next t env.nowTs env.oracle with
    | none => return s
    | some (item, it') =>
      let (go, s') ← matchStep env priceLots item s
      if go then matchLoop env priceLots t n it' s' else return s'

/-- book.rs:329-336 -/
def applyChanges (b : BookSide) : List (Nat × Int) → R BookSide
  | [] => .ok b
  | (h, q) :: rest => do applyChanges (← b.setQuantity h q) rest

/-- book.rs:337-339 -/
def applyDeletes (b : BookSide) : List (Comp × Nat) → R BookSide
  | [] => .ok b
  | (c, k) :: rest => do
    let (_, b') ← unwrapR (← b.removeByKey c k)
    applyDeletes b' rest

/-- book.rs:25-34 plus ghost data: the fills and dropped orders of the call. -/
structure OrderResult where
  orderId : Option Nat
  postedBaseNative : Int
  postedQuoteNative : Int
  totalBaseTakenNative : Int
  totalQuoteTakenNative : Int
  takerFees : Int
  makerFees : Int
  referrerAmount : Int
  fills : List FillEvent
  outs : List OutEvent

/-- book.rs:260-314: totals and taker accounting.  Returns base taken, quote taken, taker fees (native), referrer amount,
quote lots taken and the ledger. -/
def takerAccounting (env : Env) (maxQuoteLots : Int) (s : MatchSt) :
    R (Int × Int × Int × Int × Int × Ledger) := do
  let quoteTaken ← ckI64 (maxQuoteLots - s.remQuote)
  let baseTaken ← ckI64 (env.order.maxBaseLots - s.remBase)
  assertR (quoteTaken ≥ 0)
  assertR (baseTaken ≥ 0)
  let m := s.g.market
  let baseNative := asU64 (← ckI64 (baseTaken * m.baseLotSize))
  let quoteNative := asU64 (← ckI64 (quoteTaken * m.quoteLotSize))
  if quoteTaken > 0 ∨ baseTaken > 0 then do
    let woSelf := asU64 (← ckI64 ((← ckI64 (quoteTaken - s.decr)) * m.quoteLotSize))
    let (fees, ref, m1) ← (if woSelf > 0 then do
        let fees ← m.takerFeesCeil woSelf
        let ref ← ckU64 (fees - s.rebates)
        let fa ← ckU128 (m.feesAccrued + ref)
        return (fees, ref, { m with feesAccrued := fa })
      else .ok (0, 0, m) : R (Int × Int × Market))
    let g ← (if env.hasOO then do
        let a ← s.g.accts.get env.owner
        let (a', m2) ← a.executeTaker m1 env.order.side baseNative quoteNative fees ref
        return { s.g with market := m2, accts := s.g.accts.set env.owner a' }
      else do
        let tv ← ckU128 (m1.takerVolumeWoOo + quoteNative)
        return { s.g with market := { m1 with takerVolumeWoOo := tv } } : R Ledger)
    let _ ← (match env.order.side with
      | .bid => ckU64 (quoteNative + fees)
      | .ask => ckU64 (quoteNative - fees) : R Int)
    return (baseNative, quoteNative, fees, ref, quoteTaken, g)
  else .ok (baseNative, quoteNative, 0, 0, quoteTaken, s.g)

/-- book.rs:405-451: make room on the own side: drop one expired order, and if the side is still full the worst order.
Also returns the out events created. -/
def makeRoom (env : Env) (priceLots : Int) (target : Comp) (b : BookSide) (g : Ledger) :
    R (BookSide × Ledger × List OutEvent) := do
  let side := env.order.side
  let (b1, g1, outs) ← (match ← b.removeOneExpired target env.nowTs with
    | none => .ok (b, g, [])
    | some (l, b1) => do
      let ev : OutEvent := { side, ownerSlot := l.ownerSlot, timestamp := env.nowTs, seqNum := g.heap.seqNum,
                             owner := l.owner, quantity := l.quantity }
      let g1 ← processOutEvent ev true env.owner env.rem g
      return (b1, g1, [ev]) : R (BookSide × Ledger × List OutEvent))
  if b1.isFull then do
    let (l, worstPrice, b2) ← unwrapR (← b1.removeWorst env.nowTs env.oracle)
    req (side.isPriceBetter priceLots worstPrice = true) .someError
    let ev : OutEvent := { side, ownerSlot := l.ownerSlot, timestamp := env.nowTs, seqNum := g1.heap.seqNum,
                           owner := l.owner, quantity := l.quantity }
    let g2 ← processOutEvent ev true env.owner env.rem g1
    return (b2, g2, outs ++ [ev])
  else return (b1, g1, outs)

/-- book.rs:382-473: post `qty` lots at `price` (the price funds are locked at).
Returns own side, ledger, posted base, posted quote and maker fees in native units, out events. -/
def postOrder (env : Env) (orderId : Nat) (priceLots price qty : Int) (target : Comp) (b : BookSide) (g : Ledger) :
    R (BookSide × Ledger × Int × Int × Int × List OutEvent) := do
  let m := g.market
  let side := env.order.side
  let ql ← ckI64 (qty * price)
  req (m.maxQuoteLots ≥ ql) .invalidPostAmount
  let postedBase ← ckI64 (qty * m.baseLotSize)
  let postedQuote ← ckI64 (ql * m.quoteLotSize)
  assertR (env.hasOO = true)
  let a ← g.accts.get env.owner
  let (makerFees, a1) ← (match side with
    | .bid => do
      let f ← ckU64 (← m.makerFeesCeilI postedQuote)
      let l ← ckU64 (a.position.lockedMakerFees + f)
      return (f, { a with position := { a.position with lockedMakerFees := l } })
    | .ask => .ok (0, a) : R (Int × OOA))
  let g1 := { g with accts := g.accts.set env.owner a1 }
  let (b1, g2, outs) ← makeRoom env priceLots target b g1
  let a2 ← g2.accts.get env.owner
  let slot ← a2.nextOrderSlot
  let leaf : LeafNode :=
    { ownerSlot := slot % 256, timeInForce := env.order.timeInForce, key := orderId, owner := env.owner, quantity := qty,
      timestamp := env.nowTs, pegLimit := env.order.pegLimit, clientOrderId := env.order.clientOrderId }
  let (_, _, b2) ← b1.insertLeaf target leaf
  let a3 ← a2.addOrder side target leaf env.order.clientOrderId price
  return (b2, { g2 with accts := g2.accts.set env.owner a3 }, asU64 postedBase, asU64 postedQuote, makerFees, outs)

/-- book.rs:345-352: the price at which posted funds are locked. -/
def lockPrice (o : Order) (priceLots : Int) : Int :=
  if o.pegLimit ≠ -1 ∧ o.side = .bid then o.pegLimit else priceLots

/-- book.rs:354-376: the post target and quantity after matching.  `remQuote0` is the remaining quote after taking. -/
def postDecision (env : Env) (m : Market) (priceLots remBase remQuote0 : Int) (target : Option Comp) :
    R (Option Comp × Int) := do
  let price := lockPrice env.order priceLots
  let remQuote ← ckI64 (remQuote0 - (← m.makerFeesCeilI remQuote0))
  -- division by zero panics
  assertR (price ≠ 0)
  let qty := min remBase (remQuote.tdiv price)
  let target1 := if qty ≤ 0 then none else target
  let target2 := if env.order.pegLimit ≠ -1 ∧ env.order.side.isPriceBetter priceLots env.order.pegLimit
    then none else target1
  req (¬ (env.order.isFillOrKill ∧ remBase > 0)) .wouldExecutePartially
  return (target2, qty)

/-- book.rs:61-491 -/
def newOrder (env : Env) (book : Book) (g0 : Ledger) : R (OrderResult × Book × Ledger) := do
  let order := env.order
  let side := order.side
  let (priceLots, priceData) ← order.price env.nowTs env.oracle book
  -- market.gen_order_id (market.rs:188-191)
  assertR (g0.market.seqNum < 18446744073709551615)
  let market := { g0.market with seqNum := g0.market.seqNum + 1 }
  let orderId := newNodeKey side priceData market.seqNum
  let maxQuoteLots ← if side = .bid ∧ order.isPostOnly = false
    then market.subtractTakerFees order.maxQuoteLotsIncludingFees else .ok order.maxQuoteLotsIncludingFees
  req (market.maxBaseLots ≥ order.maxBaseLots) .invalidInputLotsSize
  req (market.maxQuoteLots ≥ maxQuoteLots) .invalidInputLotsSize
  let s0 : MatchSt :=
    { remBase := order.maxBaseLots, remQuote := maxQuoteLots, decr := 0, rebates := 0, changes := [], deletes := [],
      dropped := 0, processed := 0, limit := env.limit, postTarget := order.postTarget,
      g := { g0 with market }, fills := [], outs := [] }
  let opp := book.side side.invert
  let it ← opp.iter
  let s ← matchLoop env priceLots opp.nodes (2 * Nodes.fuel) it s0
  let (baseNative, quoteNative, fees, ref, quoteTaken, g1) ← takerAccounting env maxQuoteLots s
  -- book.rs:321-326
  let feeLots := (← ckI64 ((← ckI64 (asI64 fees + market.quoteLotSize)) - 1)).tdiv market.quoteLotSize
  let remQuote ← ckI64 ((← ckI64 (order.maxQuoteLotsIncludingFees - quoteTaken)) - feeLots)
  let opp1 ← applyChanges opp s.changes
  let opp2 ← applyDeletes opp1 s.deletes
  let book1 := book.setSide side.invert opp2
  let (target, qty) ← postDecision env g1.market priceLots s.remBase remQuote s.postTarget
  match target with
  | none =>
    return ({ orderId := none, postedBaseNative := 0, postedQuoteNative := 0, totalBaseTakenNative := baseNative,
              totalQuoteTakenNative := quoteNative, takerFees := fees, makerFees := 0, referrerAmount := ref,
              fills := s.fills, outs := s.outs }, book1, g1)
  | some c =>
    let (own, g2, pb, pq, mf, outs) ← postOrder env orderId priceLots (lockPrice order priceLots) qty c (book1.side side) g1
    return ({ orderId := some orderId, postedBaseNative := pb, postedQuoteNative := pq,
              totalBaseTakenNative := baseNative, totalQuoteTakenNative := quoteNative, takerFees := fees,
              makerFees := mf, referrerAmount := ref, fills := s.fills, outs := s.outs ++ outs },
            book1.setSide side own, g2)

/-- book.rs:556-577 -/
def cancelOrderOnBook (book : Book) (a : OOA) (m : Market) (orderId : Nat) (side : Side) (c : Comp)
    (expectedOwner : Option Pubkey) : R (LeafNode × Book × OOA) := do
  match ← (book.side side).removeByKey c orderId with
  | none => .error .orderIdNotFound
  | some (leaf, b') =>
    match expectedOwner with
    | some o => req (leaf.owner = o) .requireViolated
    | none => .ok ()
    let a' ← a.cancelOrder leaf.ownerSlot leaf.quantity m
    return (leaf, book.setSide side b', a')

/-- book.rs:505-551 loop body over slots `i ..` (`n` left). -/
def cancelAllLoop (m : Market) (sideOpt : Option Side) (clientOpt : Option Nat) :
    (n i limit : Nat) → Book → OOA → Int → R (Int × Book × OOA)
  | 0, _, _, book, a, total => .ok (total, book, a)
  | n + 1, i, limit, book, a, total => do
    let oo ← a.openOrder i
    if oo.isFree then cancelAllLoop m sideOpt clientOpt n (i + 1) limit book a total
    else if sideOpt.any (fun s => s ≠ oo.side) then cancelAllLoop m sideOpt clientOpt n (i + 1) limit book a total
    else if clientOpt.any (fun c => c ≠ oo.clientId) then cancelAllLoop m sideOpt clientOpt n (i + 1) limit book a total
    else if limit = 0 then return (total, book, a)
    else
      match cancelOrderOnBook book a m oo.id oo.side oo.comp none with
      | .error .orderIdNotFound => cancelAllLoop m sideOpt clientOpt n (i + 1) (limit - 1) book a total
      | .error e => .error e
      | .ok (leaf, book', a') => do
        let total' ← ckI64 (total + leaf.quantity)
        cancelAllLoop m sideOpt clientOpt n (i + 1) (limit - 1) book' a' total'

/-- book.rs:496-553 -/
def cancelAllOrders (book : Book) (a : OOA) (m : Market) (limit : Nat) (sideOpt : Option Side) (clientOpt : Option Nat) :
    R (Int × Book × OOA) :=
  cancelAllLoop m sideOpt clientOpt maxOpenOrders 0 limit book a 0

end OB
