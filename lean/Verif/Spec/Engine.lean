import Verif.Model.Program
import Verif.Spec.Observe
/-!
Vocabulary for stating properties of the matching engine (`new_order`).  Used only in statements.
-/
namespace OB.Spec
open OB

/-- What the instructions guarantee of the order they pass to the matching engine: amounts and prices are non-negative i64
values, a peg limit is positive. -/
structure OrderValid (o : Order) : Prop where
  base : 0 ≤ o.maxBaseLots ∧ o.maxBaseLots ≤ i64Max
  quote : 0 ≤ o.maxQuoteLotsIncludingFees ∧ o.maxQuoteLotsIncludingFees ≤ i64Max
  price : ∀ p, o.params = .immediateOrCancel p ∨ o.params = .fillOrKill p ∨ (∃ t, o.params = .fixed p t) → p ≤ i64Max
  peg : ∀ off t l, o.params = .oraclePegged off t l → 1 ≤ l ∧ l ≤ i64Max

/-- A call of the matching engine that an instruction can make: a valid order; clock and oracle price are i64 values; a taker without
open orders account signs with a key that is not the address of an open orders account. -/
structure CallValid (env : Env) (g : Ledger) : Prop where
  order : OrderValid env.order
  clock : (env.nowTs : Int) ≤ i64Max
  oracle : ∀ p, env.oracle = some p → i64Min ≤ p ∧ p ≤ i64Max
  taker : env.hasOO = false → g.accts.get? env.owner = none

/-- Book and ledger when the matching engine is called: those of a reachable state, or those left by the preceding order of the
same instruction (`place_orders` places several). -/
inductive EngineState : Book → Ledger → Prop
  | reachable (s : State) (h : Reachable s) : EngineState s.book s.g
  | next (env : Env) (book book' : Book) (g g' : Ledger) (r : OrderResult) (h : EngineState book g) (hc : CallValid env g)
      (hr : newOrder env book g = .ok (r, book', g')) : EngineState book' g'

/-- A successful call of the matching engine. -/
structure EngineCall (env : Env) (book : Book) (g : Ledger) (r : OrderResult) (book' : Book) (g' : Ledger) : Prop where
  state : EngineState book g
  valid : CallValid env g
  run : newOrder env book g = .ok (r, book', g')

/-- Calls of the matching engine one after the other. -/
inductive Calls : Book → Ledger → List (Env × OrderResult) → Book → Ledger → Prop
  | nil (book : Book) (g : Ledger) : Calls book g [] book g
  | cons (env : Env) (r : OrderResult) (cs : List (Env × OrderResult)) (book book1 book' : Book) (g g1 g' : Ledger)
      (h : EngineCall env book g r book1 g1) (hs : Calls book1 g1 cs book' g') : Calls book g ((env, r) :: cs) book' g'

/-- Base that calls charge the account that placed the orders: what its asks sold or posted. -/
def chargedBase (cs : List (Env × OrderResult)) : Int :=
  (cs.map (fun x => if x.1.order.side = .ask then x.2.totalBaseTakenNative + x.2.postedBaseNative else 0)).sum

/-- Quote that calls charge the account that placed the orders: what its bids bought or posted, and the fees. -/
def chargedQuote (cs : List (Env × OrderResult)) : Int :=
  (cs.map (fun x => if x.1.order.side = .bid then
    x.2.totalQuoteTakenNative + x.2.postedQuoteNative + x.2.takerFees + x.2.makerFees else 0)).sum

/-- The instructions that call the matching engine. -/
def placing : Op → Bool
  | .placeOrder .. | .placeOrderPegged .. | .editOrder .. | .editOrderPegged .. | .placeOrders .. | .placeTakeOrder .. => true
  | _ => false

/-- The call of the matching engine made for a take order. -/
structure TakesAs (c : TakeCtx) (a : PlaceOrderArgs) (env : Env) : Prop where
  side : env.order.side = a.side
  base : env.order.maxBaseLots = a.maxBaseLots
  quote : env.order.maxQuoteLotsIncludingFees = a.maxQuoteLots
  params : (a.orderType = .market ∧ env.order.params = .market) ∨
    (a.orderType = .immediateOrCancel ∧ env.order.params = .immediateOrCancel a.priceLots) ∨
    (a.orderType = .fillOrKill ∧ env.order.params = .fillOrKill a.priceLots)
  owner : env.owner = c.signer ∧ env.hasOO = false
  now : (env.nowTs : Int) = c.now
  oracle : env.oracle = c.oracle
  limit : env.limit = a.limit
  rem : env.rem = c.rem

/-- The call of the matching engine made for `place_order`.  The time in force is the time left until the expiry, at most 65535
seconds; an order without expiry has none. -/
structure PlacesAs (c : PlaceCtx) (a : PlaceOrderArgs) (env : Env) : Prop where
  side : env.order.side = a.side
  base : env.order.maxBaseLots = a.maxBaseLots
  quote : env.order.maxQuoteLotsIncludingFees = a.maxQuoteLots
  params : (a.orderType = .limit ∧ env.order.params = .fixed a.priceLots .limit) ∨
    (a.orderType = .postOnly ∧ env.order.params = .fixed a.priceLots .postOnly) ∨
    (a.orderType = .postOnlySlide ∧ env.order.params = .fixed a.priceLots .postOnlySlide) ∨
    (a.orderType = .market ∧ env.order.params = .market) ∨
    (a.orderType = .immediateOrCancel ∧ env.order.params = .immediateOrCancel a.priceLots) ∨
    (a.orderType = .fillOrKill ∧ env.order.params = .fillOrKill a.priceLots)
  client : env.order.clientOrderId = a.clientOrderId
  selfTrade : env.order.selfTradeBehavior = a.stb
  expiry : (a.expiry = 0 ∧ env.order.timeInForce = 0) ∨
    (env.nowTs < a.expiry ∧ env.order.timeInForce = min (a.expiry - env.nowTs) 65535)
  owner : env.owner = c.ooKey ∧ env.hasOO = true
  now : (env.nowTs : Int) = c.now
  oracle : env.oracle = c.oracle
  limit : env.limit = a.limit
  rem : env.rem = c.rem

/-- The call of the matching engine made for `place_order_pegged`. -/
structure PlacesPegAs (c : PlaceCtx) (a : PlaceOrderPeggedArgs) (env : Env) : Prop where
  side : env.order.side = a.side
  base : env.order.maxBaseLots = a.maxBaseLots
  quote : env.order.maxQuoteLotsIncludingFees = a.maxQuoteLots
  params : (a.orderType = .limit ∧ env.order.params = .oraclePegged a.offset .limit a.pegLimit) ∨
    (a.orderType = .postOnly ∧ env.order.params = .oraclePegged a.offset .postOnly a.pegLimit) ∨
    (a.orderType = .postOnlySlide ∧ env.order.params = .oraclePegged a.offset .postOnlySlide a.pegLimit)
  client : env.order.clientOrderId = a.clientOrderId
  selfTrade : env.order.selfTradeBehavior = a.stb
  expiry : (a.expiry = 0 ∧ env.order.timeInForce = 0) ∨
    (env.nowTs < a.expiry ∧ env.order.timeInForce = min (a.expiry - env.nowTs) 65535)
  owner : env.owner = c.ooKey ∧ env.hasOO = true
  now : (env.nowTs : Int) = c.now
  oracle : env.oracle = c.oracle
  limit : env.limit = a.limit
  rem : env.rem = c.rem

/-- The price of a resting order: the limit price of a fixed order; oracle price plus offset for a pegged order.  The id holds the
price, respectively the offset plus 2^63, in its upper 64 bits. -/
def priceOf (oracle : Option Int) (c : Comp) (l : LeafNode) : Option Int :=
  match c with
  | .fixed => some (l.key / 2 ^ 64 : Nat)
  | .pegged => oracle.map (fun o => o + ((l.key / 2 ^ 64 : Nat) : Int) - 2 ^ 63)

/-- Time in force is over (0: no expiry). -/
def expired (now : Nat) (l : LeafNode) : Prop := l.timeInForce ≠ 0 ∧ l.timestamp + l.timeInForce ≤ now

/-- Price `p` is beyond the peg limit of a resting order of side `s` (-1: no limit). -/
def beyondPeg (s : Side) (p : Int) (l : LeafNode) : Prop :=
  l.pegLimit ≠ -1 ∧ (match s with | .bid => l.pegLimit < p | .ask => p < l.pegLimit)

/-- The resting order can trade at price `p`. -/
structure TradableAt (now : Nat) (oracle : Option Int) (s : Side) (c : Comp) (l : LeafNode) (p : Int) : Prop where
  price : priceOf oracle c l = some p
  live : ¬ expired now l
  peg : c = .pegged → ¬ beyondPeg s p l
  range : c = .pegged → 1 ≤ p ∧ p < i64Max

instance (now : Nat) (l : LeafNode) : Decidable (expired now l) := by unfold expired; infer_instance
instance (s : Side) (p : Int) (l : LeafNode) : Decidable (beyondPeg s p l) := by unfold beyondPeg; cases s <;> infer_instance
instance (now : Nat) (oracle : Option Int) (s : Side) (c : Comp) (l : LeafNode) (p : Int) : Decidable (TradableAt now oracle s c l p) :=
  decidable_of_iff (priceOf oracle c l = some p ∧ ¬ expired now l ∧ (c = .pegged → ¬ beyondPeg s p l) ∧ (c = .pegged → 1 ≤ p ∧ p < i64Max))
    ⟨fun h => ⟨h.1, h.2.1, h.2.2.1, h.2.2.2⟩, fun h => ⟨h.price, h.live, h.peg, h.range⟩⟩

/-- Price `p` is acceptable to a taker on side `s` with limit `lim`. -/
def within (s : Side) (p lim : Int) : Prop :=
  match s with
  | .bid => p ≤ lim
  | .ask => lim ≤ p

/-- The limit price given with the order. -/
def limitOf (o : Order) (oracle : Option Int) : Option Int :=
  match o.params with
  | .market => none
  | .immediateOrCancel p => some p
  | .fillOrKill p => some p
  | .fixed p _ => some p
  | .oraclePegged off _ _ => oracle.map (· + off)

/-- How an order that may rest is posted; `none` for market, immediate-or-cancel and fill-or-kill orders. -/
def postType (o : Order) : Option PostOrderType :=
  match o.params with
  | .fixed _ t => some t
  | .oraclePegged _ t _ => some t
  | .market | .immediateOrCancel _ | .fillOrKill _ => none

/-- The order is post-only, sliding or not. -/
def PostsOnly (o : Order) : Prop := postType o = some .postOnly ∨ postType o = some .postOnlySlide

/-- The call left an order at price `p` in the book: its id is the one returned, it belongs to the taker, and it is new. -/
structure PostedAt (env : Env) (book : Book) (r : OrderResult) (book' : Book) (c : Comp) (l : LeafNode) (p : Int) : Prop where
  id : r.orderId = some l.key
  mem : (env.order.side, c, l) ∈ book'.resting
  new : ∀ c' l', (env.order.side, c', l') ∈ book.resting → l'.key ≠ l.key
  owner : l.owner = env.owner
  price : priceOf env.oracle c l = some p

/-- The price next to `q` that does not cross it, for an order of side `s`. -/
def behind (s : Side) (q : Int) : Int :=
  match s with
  | .bid => q - 1
  | .ask => q + 1

/-- No pegged order of side `s` has a price outside [1, i64Max). -/
def NoSkipped (book : Book) (s : Side) (oracle : Option Int) : Prop :=
  ∀ l p, (s, Comp.pegged, l) ∈ book.resting → priceOf oracle .pegged l = some p → 1 ≤ p ∧ p < i64Max

def sumQty (fs : List FillEvent) : Int := (fs.map (·.quantity)).sum
def sumQuote (fs : List FillEvent) : Int := (fs.map (fun f => f.quantity * f.price)).sum

/-- Value in quote lots of the fills with others. -/
def othersQuote (fs : List FillEvent) : Int := (fs.map (fun f => if f.maker = f.taker then 0 else f.quantity * f.price)).sum

/-- The sequence number in the lower 64 bits of an order id (complemented for bids): orders placed later have larger numbers. -/
def seqNo (s : Side) (l : LeafNode) : Nat :=
  match s with
  | .bid => 2 ^ 64 - 1 - l.key % 2 ^ 64
  | .ask => l.key % 2 ^ 64

/-- Price `p` is strictly better than `p'` for an order resting on side `s` (it is matched first). -/
def betterPrice (s : Side) (p p' : Int) : Prop :=
  match s with
  | .bid => p' < p
  | .ask => p < p'

/-- An order of side `s` resting at price `p` has strict price-time priority over another one resting at `p'`. -/
def Before (s : Side) (p : Int) (l : LeafNode) (p' : Int) (l' : LeafNode) : Prop :=
  betterPrice s p p' ∨ (p = p' ∧ seqNo s l < seqNo s l')

instance (s : Side) (p p' : Int) : Decidable (betterPrice s p p') := by unfold betterPrice; cases s <;> infer_instance
instance (s : Side) (p : Int) (l : LeafNode) (p' : Int) (l' : LeafNode) : Decidable (Before s p l p' l') := by
  unfold Before; infer_instance
instance (s : Side) (p lim : Int) : Decidable (within s p lim) := by unfold within; cases s <;> infer_instance

/-- `f` is a fill of the order `l` resting in `book`: same maker, slot and client id; executed at the price of `l`, while `l` can
trade; for at most its quantity; `makerOut` says whether `l` is used up. -/
structure IsFillOf (env : Env) (book : Book) (c : Comp) (l : LeafNode) (f : FillEvent) : Prop where
  resting : (env.order.side.invert, c, l) ∈ book.resting
  tradable : TradableAt env.nowTs env.oracle env.order.side.invert c l f.price
  quantity : 1 ≤ f.quantity ∧ f.quantity ≤ l.quantity
  out : f.makerOut = true ↔ f.quantity = l.quantity
  maker : f.maker = l.owner ∧ f.makerSlot = l.ownerSlot ∧ f.makerClientOrderId = l.clientOrderId ∧ f.makerTimestamp = l.timestamp ∧
    f.pegLimit = l.pegLimit
  taker : f.takerSide = env.order.side ∧ f.taker = env.owner ∧ f.takerClientOrderId = env.order.clientOrderId ∧
    f.timestamp = env.nowTs

/-- What can become of an opposing order `l` in a call of the matching engine. -/
inductive Became (env : Env) (book : Book) (r : OrderResult) (book' : Book) (c : Comp) (l : LeafNode) : Prop
  /-- unchanged -/
  | stays (h : (env.order.side.invert, c, l) ∈ book'.resting)
  /-- partly filled: smaller by the quantity of the fill, otherwise unchanged -/
  | partly (f : FillEvent) (hf : f ∈ r.fills) (fill : IsFillOf env book c l f) (out : f.makerOut = false)
      (h : (env.order.side.invert, c, { l with quantity := l.quantity - f.quantity }) ∈ book'.resting)
  /-- completely filled -/
  | filled (f : FillEvent) (hf : f ∈ r.fills) (fill : IsFillOf env book c l f) (out : f.makerOut = true)
      (gone : ∀ l', (env.order.side.invert, c, l') ∈ book'.resting → l'.key ≠ l.key)
  /-- an own order, cancelled instead of trading with itself -/
  | cancelled (p : Int) (own : l.owner = env.owner) (stb : env.order.selfTradeBehavior = .cancelProvide)
      (tradable : TradableAt env.nowTs env.oracle env.order.side.invert c l p)
      (gone : ∀ l', (env.order.side.invert, c, l') ∈ book'.resting → l'.key ≠ l.key)
  /-- removed because it is expired or beyond its peg limit -/
  | dropped (why : expired env.nowTs l ∨ ∃ p, c = .pegged ∧ priceOf env.oracle c l = some p ∧ beyondPeg env.order.side.invert p l)
      (gone : ∀ l', (env.order.side.invert, c, l') ∈ book'.resting → l'.key ≠ l.key)

end OB.Spec
