import Verif.Model.Num
/-!
Plain data types.
-/
namespace OB

/-- Account addresses; 0 is `Pubkey::default()`. -/
abbrev Pubkey := Nat

/-- state/orderbook/order_type.rs:130-133 -/
inductive Side | bid | ask deriving DecidableEq, Repr

/-- state/orderbook/order_type.rs:136-141 -/
def Side.invert : Side → Side
  | .bid => .ask
  | .ask => .bid

/-- state/orderbook/order_type.rs:152-157 -/
def Side.isPriceBetter (s : Side) (lhs rhs : Int) : Bool :=
  match s with
  | .bid => decide (lhs > rhs)
  | .ask => decide (lhs < rhs)

/-- state/orderbook/order_type.rs:160-165 -/
def Side.isPriceWithinLimit (s : Side) (price limit : Int) : Bool :=
  match s with
  | .bid => decide (price ≤ limit)
  | .ask => decide (price ≥ limit)

/-- state/orderbook/bookside.rs:19-22 -/
inductive Comp | fixed | pegged deriving DecidableEq, Repr

/-- state/orderbook/bookside.rs:137-140 -/
def Comp.other : Comp → Comp
  | .fixed => .pegged
  | .pegged => .fixed

/-- state/orderbook/order_type.rs:74-81 (PostOrderType) -/
inductive PostOrderType | limit | postOnly | postOnlySlide deriving DecidableEq, Repr

/-- state/orderbook/order_type.rs:95-118 -/
inductive SelfTradeBehavior | decrementTake | cancelProvide | abortTransaction deriving DecidableEq, Repr

/-- state/orderbook/order.rs:29-46 -/
inductive OrderParams
  | market
  | immediateOrCancel (priceLots : Int)
  | fixed (priceLots : Int) (orderType : PostOrderType)
  | oraclePegged (priceOffsetLots : Int) (orderType : PostOrderType) (pegLimit : Int)
  | fillOrKill (priceLots : Int)
  deriving DecidableEq, Repr

/-- state/orderbook/order.rs:7-27 -/
structure Order where
  side : Side
  maxBaseLots : Int
  maxQuoteLotsIncludingFees : Int
  clientOrderId : Nat
  timeInForce : Nat
  selfTradeBehavior : SelfTradeBehavior
  params : OrderParams
  deriving DecidableEq, Repr

/-- state/orderbook/order.rs:67-74 -/
def Order.isPostOnly (o : Order) : Bool :=
  match o.params with
  | .fixed _ t => t == .postOnly || t == .postOnlySlide
  | .oraclePegged _ t _ => t == .postOnly || t == .postOnlySlide
  | _ => false

/-- state/orderbook/order.rs:77-79 -/
def Order.isFillOrKill (o : Order) : Bool :=
  match o.params with
  | .fillOrKill _ => true
  | _ => false

/-- state/orderbook/order.rs:82-88 -/
def Order.postTarget (o : Order) : Option Comp :=
  match o.params with
  | .fixed _ _ => some .fixed
  | .oraclePegged _ _ _ => some .pegged
  | _ => none

/-- state/orderbook/order.rs:168-173 -/
def Order.pegLimit (o : Order) : Int :=
  match o.params with
  | .oraclePegged _ _ l => l
  | _ => -1

/-- state/orderbook/nodes.rs:146-177 (tag and padding dropped) -/
structure LeafNode where
  ownerSlot : Nat
  timeInForce : Nat
  key : Nat
  owner : Pubkey
  quantity : Int
  timestamp : Nat
  pegLimit : Int
  clientOrderId : Nat
  deriving DecidableEq, Repr

end OB
