import Verif.Model.Types
/-!
state/orderbook/nodes.rs: order keys and leaf accessors.
-/
namespace OB

/-- 2^64 -/
def two64 : Nat := 18446744073709551616

/-- state/orderbook/nodes.rs:32-37.  `!seq_num` on u64 is `2^64 - 1 - seq_num`. -/
def newNodeKey (side : Side) (priceData : Nat) (seqNum : Nat) : Nat :=
  let seq := if side = .bid then two64 - 1 - seqNum else seqNum
  (priceData <<< 64) ||| seq

/-- state/orderbook/nodes.rs:42-48 -/
def oraclePeggedPriceData (offset : Int) : Nat :=
  ((asU64 offset).toNat + 9223372036854775808) % two64

/-- state/orderbook/nodes.rs:53-55 -/
def oraclePeggedPriceOffset (priceData : Nat) : Int :=
  asI64 (((priceData : Int) - 9223372036854775808) % (two64 : Int))

/-- state/orderbook/nodes.rs:60-63 -/
def fixedPriceData (priceLots : Int) : R Nat := do
  req (priceLots ≥ 1) .requireViolated
  return (asU64 priceLots).toNat

/-- state/orderbook/nodes.rs:68-71 -/
def fixedPriceLots (priceData : Nat) : R Int := do
  assertR ((priceData : Int) ≤ i64Max)
  return asI64 priceData

/-- state/orderbook/nodes.rs:215-217 -/
def LeafNode.priceData (l : LeafNode) : Nat := (l.key >>> 64) % two64

/-- u64::MAX -/
def u64MaxN : Nat := 18446744073709551615

/-- state/orderbook/nodes.rs:223-229.  `timestamp` is a clock reading below 2^63, so the u64 addition cannot overflow. -/
def LeafNode.expiry (l : LeafNode) : Nat :=
  if l.timeInForce = 0 then u64MaxN else l.timestamp + l.timeInForce

/-- state/orderbook/nodes.rs:233-235 -/
def LeafNode.isExpired (l : LeafNode) (nowTs : Nat) : Bool :=
  l.timeInForce > 0 ∧ nowTs ≥ l.timestamp + l.timeInForce

end OB
