import Verif.Spec.Others
/-!
The orders that an instruction asks for, read off its arguments, and the fills of a given order.  Used only in statements.
-/
namespace OB.Spec
open OB

/-- One order asked for in the arguments of an instruction.  `price` is the limit price, or the offset from the oracle price if there
is a peg limit. -/
structure Asked where
  side : Side
  price : Int
  pegLimit : Option Int
  type : PlaceOrderType
  client : Nat
  expiry : Nat
  selfTrade : SelfTradeBehavior

/-- `place_orders` takes lists of bids and asks; the client id of each is its position, counted from the first bid.  Take orders have
no expiry, no client id, and decrement when they meet own orders. -/
def asked : Op → List Asked
  | .placeOrder _ a | .editOrder _ _ _ a => [⟨a.side, a.priceLots, none, a.orderType, a.clientOrderId, a.expiry, a.stb⟩]
  | .placeOrderPegged _ a | .editOrderPegged _ _ _ a => [⟨a.side, a.offset, some a.pegLimit, a.orderType, a.clientOrderId, a.expiry, a.stb⟩]
  | .placeOrders _ _ t bids asks _ =>
    bids.mapIdx (fun i a => ⟨.bid, a.priceLots, none, t, i, a.expiry, .cancelProvide⟩) ++
    asks.mapIdx (fun i a => ⟨.ask, a.priceLots, none, t, bids.length + i, a.expiry, .cancelProvide⟩)
  | .placeTakeOrder _ a => [⟨a.side, a.priceLots, none, a.orderType, 0, 0, .decrementTake⟩]
  | _ => []

/-- The order has no expiry, or it is still ahead. -/
def Asked.ahead (now : Int) (q : Asked) : Bool := decide (q.expiry = 0 ∨ now < q.expiry)

/-- An edit instruction, which may find that nothing is left to place. -/
def edits : Op → Bool
  | .editOrder .. | .editOrderPegged .. => true
  | _ => false

/-- The engine works on order `q`: same side, price, type, client id and self-trade behaviour; the time in force is the time left
until the expiry, at most 65535 seconds, and 0 for an order without expiry. -/
structure Follows (q : Asked) (env : Env) : Prop where
  side : env.order.side = q.side
  params : match q.pegLimit, q.type with
    | none, .limit => env.order.params = .fixed q.price .limit
    | none, .postOnly => env.order.params = .fixed q.price .postOnly
    | none, .postOnlySlide => env.order.params = .fixed q.price .postOnlySlide
    | none, .market => env.order.params = .market
    | none, .immediateOrCancel => env.order.params = .immediateOrCancel q.price
    | none, .fillOrKill => env.order.params = .fillOrKill q.price
    | some pl, .limit => env.order.params = .oraclePegged q.price .limit pl
    | some pl, .postOnly => env.order.params = .oraclePegged q.price .postOnly pl
    | some pl, .postOnlySlide => env.order.params = .oraclePegged q.price .postOnlySlide pl
    | some _, _ => False
  client : env.order.clientOrderId = q.client
  selfTrade : env.order.selfTradeBehavior = q.selfTrade
  expiry : (q.expiry = 0 ∧ env.order.timeInForce = 0) ∨
    (env.nowTs < q.expiry ∧ env.order.timeInForce = min (q.expiry - env.nowTs) 65535)

/-- One call of the matching engine for each order. -/
inductive Each : List Asked → List (Env × OrderResult) → Prop
  | nil : Each [] []
  | cons (q : Asked) (x : Env × OrderResult) (qs : List Asked) (xs : List (Env × OrderResult)) (h : Follows q x.1) (hs : Each qs xs) :
      Each (q :: qs) (x :: xs)

/-- The calls of the matching engine are, one after the other, for the orders asked for that are not yet expired.  An edit may also
place nothing. -/
def Serves (op : Op) (now : Int) (cs : List (Env × OrderResult)) : Prop :=
  Each ((asked op).filter (Asked.ahead now)) cs ∨ (edits op = true ∧ cs = [])

/-- The resting order `l` is as asked for in `q` at time `now`: by account `owner`, on this side and component (`pegged` if there is a
peg limit). -/
structure RestsAs (q : Asked) (owner : Pubkey) (now : Int) (s : Side) (c : Comp) (l : LeafNode) : Prop where
  side : s = q.side
  owner : l.owner = owner
  client : l.clientOrderId = q.client
  time : (l.timestamp : Int) = now
  expiry : (q.expiry = 0 ∧ l.timeInForce = 0) ∨ (now < q.expiry ∧ (l.timeInForce : Int) = min (q.expiry - now) 65535)
  peg : (c = .fixed ∧ q.pegLimit = none ∧ l.pegLimit = -1) ∨ (c = .pegged ∧ q.pegLimit = some l.pegLimit)

/-- The instruction `op`, which leads from `s` to `s'`, contains the fill `f` of the resting order with this side, component and id:
in one of its calls of the matching engine (`x`; those before it are `pre`, those after it `post`).  `l` is the order at that moment;
a fill names the order by account and slot, which only one resting order has. -/
def Fills (s s' : State) (op : Op) (p : Placer) (side : Side) (c : Comp) (l : LeafNode) (f : FillEvent) : Prop :=
  placer op = some p ∧ ∃ s1 pre x post g1 book g book' g', Placement s s1 s' p (pre ++ x :: post) g1 ∧ Calls s1.book s1.g pre book g ∧
    EngineCall x.1 book g x.2 book' g' ∧ Calls book' g' post s'.book g1 ∧ f ∈ x.2.fills ∧ side = x.1.order.side.invert ∧
    (side, c, l) ∈ book.resting ∧ f.maker = l.owner ∧ f.makerSlot = l.ownerSlot

end OB.Spec
