import Verif.Model.Layout
import Verif.Model.Program
/-!
ts/client: the TypeScript library.  Here: how it reads a book side (accounts/bookSide.ts, structs/order.ts), the event queue
(accounts/eventHeap.ts), and the balance of an account (`getBalanceNative` of accounts/openOrders.ts).  `BN` is an unbounded integer.  A generator is the list of what it yields; where
it throws, the list is lost too (the callers iterate to the end or take the first item, which is yielded after the first `next` of
both generators).  Account data comes through `decodeAccountfromBuffer`, as in `loadBids`, `loadAsks`, `reload`, `Watcher` and
`loadAllOpenOrders`.
-/
namespace OB.Ts
open Layout

/-- What the library throws: reading past the end of a buffer, use of an undefined value, `Not implemented yet`.  `loop` does not exist:
it stands for a loop that does not end. -/
inductive JsErr | range | undefined | notImplemented | loop
  deriving DecidableEq, Repr

abbrev Js (α : Type) := Except JsErr α

/-- A number from its bytes, the lowest first. -/
def unle : Bytes → Nat
  | [] => 0
  | b :: r => b.toNat + 256 * unle r

/-- `data.readUInt8(offset)`, `data.readUInt32LE(offset)` -/
def readUInt (k : Nat) (data : Bytes) (offset : Nat) : Js Nat :=
  if offset + k ≤ data.length then .ok (unle ((data.drop offset).take k)) else .error .range

/-- `data.subarray(start, end)` -/
def subarray (data : Bytes) (start stop : Nat) : Bytes := (data.drop start).take (stop - start)

/-- One field of `k` bytes of a struct, and the rest of the buffer (decoding by the layouts of anchor: field after field). -/
def field (k : Nat) (d : Bytes) : Js (Nat × Bytes) :=
  if k ≤ d.length then .ok (unle (d.take k), d.drop k) else .error .range

/-- accounts/bookSide.ts:16-20 -/
structure RootAcct where
  maybeNode : Nat
  leafCount : Nat
  deriving DecidableEq, Repr

/-- accounts/bookSide.ts:55-58: an entry of `nodes` -/
structure NodeAcct where
  tag : Nat
  nodeData : Bytes
  deriving DecidableEq, Repr

/-- The result of accounts/bookSide.ts:34-72. -/
structure SideAcct where
  roots : RootAcct × RootAcct
  orderTreeType : Nat
  bumpIndex : Nat
  freeListLen : Nat
  freeListHead : Nat
  nodes : List NodeAcct

/-- accounts/bookSide.ts:16-20 -/
def decodeRoot (data : Bytes) : Js RootAcct := do
  let n ← readUInt 4 data 0
  let c ← readUInt 4 data 4
  return { maybeNode := n, leafCount := c }

/-- accounts/bookSide.ts:53-59 -/
def decodeNodes (data : Bytes) : Nat → Nat → Js (List NodeAcct)
  | 0, _ => .ok []
  | n + 1, offset => do
    let tag ← readUInt 1 data offset
    let rest ← decodeNodes data n (offset + 88)
    return { tag := tag, nodeData := subarray data offset (offset + 88) } :: rest

/-- accounts/bookSide.ts:34-72 -/
def decodeAccountFromBuffer (data : Bytes) : Js SideAcct := do
  let r0 ← decodeRoot (data.drop 8)
  let r1 ← decodeRoot (data.drop 16)
  let offset := 56 + 256
  let ty ← readUInt 1 data offset
  let bump ← readUInt 4 data (offset + 4)
  let len ← readUInt 4 data (offset + 8)
  let head ← readUInt 4 data (offset + 12)
  let nodes ← decodeNodes data 1024 (offset + (16 + 512))
  return { roots := (r0, r1), orderTreeType := ty, bumpIndex := bump, freeListLen := len, freeListHead := head, nodes := nodes }

/-- accounts/bookSide.ts:199-211 with the layout of `InnerNode` in openbook_v2.ts:6201-6262 -/
def toInnerNode (node : NodeAcct) : Js InnerNode := do
  let (_, d) ← field 1 node.nodeData
  let (_, d) ← field 3 d
  let (prefixLen, d) ← field 4 d
  let (key, d) ← field 16 d
  let (c0, d) ← field 4 d
  let (c1, d) ← field 4 d
  let (e0, d) ← field 8 d
  let (e1, d) ← field 8 d
  let (_, _) ← field 40 d
  return { prefixLen := prefixLen, key := key, child0 := c0, child1 := c1, exp0 := e0, exp1 := e1 }

/-- accounts/bookSide.ts:213-226 with the layout of `LeafNode` in openbook_v2.ts:6264-6330 -/
def toLeafNode (node : NodeAcct) : Js LeafNode := do
  let (_, d) ← field 1 node.nodeData
  let (ownerSlot, d) ← field 1 d
  let (timeInForce, d) ← field 2 d
  let (_, d) ← field 4 d
  let (key, d) ← field 16 d
  let (owner, d) ← field 32 d
  let (quantity, d) ← field 8 d
  let (timestamp, d) ← field 8 d
  let (pegLimit, d) ← field 8 d
  let (clientOrderId, _) ← field 8 d
  return { ownerSlot := ownerSlot, timeInForce := timeInForce, key := key, owner := owner, quantity := asI64 quantity,
           timestamp := timestamp, pegLimit := asI64 pegLimit, clientOrderId := clientOrderId }

/-- structs/order.ts:4-14 without the market -/
structure Order where
  leaf : LeafNode
  isExpired : Bool
  seqNum : Int
  priceLots : Int
  deriving DecidableEq, Repr

/-- structs/order.ts:8-27 -/
def newOrder (side : Side) (leaf : LeafNode) (isExpired isOraclePegged : Bool) : Js Order :=
  let low : Int := (leaf.key % 2 ^ 64 : Nat)
  let seqNum : Int := match side with
    | .bid => u64Max - low
    | .ask => low
  if isOraclePegged then .error .notImplemented
  else .ok { leaf := leaf, isExpired := isExpired, seqNum := seqNum, priceLots := (leaf.key / 2 ^ 64 : Nat) }

/-- A `BookSide` (accounts/bookSide.ts:22-32) without the market. -/
structure BookSide where
  account : SideAcct
  side : Side
  clusterTime : Nat

/-- accounts/bookSide.ts:25-32 -/
def BookSide.new (account : SideAcct) (side : Side) : BookSide := { account := account, side := side, clusterTime := 0 }

/-- accounts/bookSide.ts:121-131 and 150-160: the expiry shown -/
def BookSide.expired (b : BookSide) (l : LeafNode) : Bool :=
  let expiryTimestamp : Int := if l.timeInForce ≠ 0 then (l.timestamp : Int) + l.timeInForce else u64Max
  decide (expiryTimestamp < (b.clusterTime : Int))

/-- accounts/bookSide.ts:112-135 and 141-165: the loop; the top of the stack is first.  At most `n` rounds. -/
def BookSide.loop (b : BookSide) (pegged : Bool) : Nat → List Nat → Js (List Order)
  | _, [] => .ok []
  | 0, _ :: _ => .error .loop
  | n + 1, index :: stack => do
    match b.account.nodes[index]? with
    | none => .error .undefined
    | some node =>
      if node.tag = 1 then
        let inner ← toInnerNode node
        let (left, right) := match b.side with
          | .bid => (inner.child1, inner.child0)
          | .ask => (inner.child0, inner.child1)
        b.loop pegged n (left :: right :: stack)
      else if node.tag = 2 then
        let leaf ← toLeafNode node
        let o ← newOrder b.side leaf (b.expired leaf) pegged
        let rest ← b.loop pegged n stack
        return o :: rest
      else b.loop pegged n stack

/-- More rounds than a tree in 1024 nodes needs. -/
def rounds : Nat := 4096

/-- accounts/bookSide.ts:108-136 -/
def BookSide.fixedItems (b : BookSide) : Js (List Order) :=
  if b.account.roots.1.leafCount = 0 then .ok [] else b.loop false rounds [b.account.roots.1.maybeNode]

/-- accounts/bookSide.ts:138-166 -/
def BookSide.oraclePeggedItems (b : BookSide) : Js (List Order) :=
  if b.account.roots.2.leafCount = 0 then .ok [] else b.loop true rounds [b.account.roots.2.maybeNode]

/-- accounts/bookSide.ts:168-174 -/
def compareOrders (side : Side) (x y : Order) : Bool :=
  if x.priceLots = y.priceLots then decide (x.seqNum < y.seqNum)
  else match side with
    | .bid => decide (x.priceLots > y.priceLots)
    | .ask => decide (y.priceLots > x.priceLots)

/-- accounts/bookSide.ts:81-97 -/
def mergeOrders (side : Side) : List Order → List Order → List Order
  | f :: fs, p :: ps => if compareOrders side f p then f :: mergeOrders side fs (p :: ps) else p :: mergeOrders side (f :: fs) ps
  | f :: fs, [] => f :: fs
  | [], p :: ps => p :: ps
  | [], [] => []

/-- accounts/bookSide.ts:74-98.  Both generators are started before the first order is yielded. -/
def BookSide.items (b : BookSide) : Js (List Order) := do
  let f ← b.fixedItems
  let p ← b.oraclePeggedItems
  return mergeOrders b.side f p

/-- accounts/bookSide.ts:176-178 -/
def BookSide.best (b : BookSide) : Js (Option Order) := do return (← b.items).head?

/-- accounts/bookSide.ts:180-190: the loop; the levels found so far are kept with the last one first. -/
def levelsLoop (depth : Nat) : List Order → List (Int × Int) → List (Int × Int)
  | [], levels => levels.reverse
  | o :: os, [] => if 0 = depth then [] else levelsLoop depth os [(o.priceLots, o.leaf.quantity)]
  | o :: os, (p, q) :: levels =>
    if p = o.priceLots then levelsLoop depth os ((p, q + o.leaf.quantity) :: levels)
    else if levels.length + 1 = depth then ((p, q) :: levels).reverse
    else levelsLoop depth os ((o.priceLots, o.leaf.quantity) :: (p, q) :: levels)

/-- accounts/bookSide.ts:180-197: price and size of the levels in lots; the conversions for display are left out. -/
def BookSide.getL2 (b : BookSide) (depth : Nat) : Js (List (Int × Int)) := do return levelsLoop depth (← b.items) []

/-! ### events and balances -/

/-- accounts/eventHeap.ts:16-23.  Reading and decoding the account by anchor is left out: the account is the heap of the model. -/
def rawEvents (h : EventHeap) : Nat → Nat → Js (List Event)
  | 0, _ => .ok []
  | n + 1, currentIndex =>
    if currentIndex < maxNumEvents then do
      let rest ← rawEvents h n (h.nodes currentIndex).next
      return (h.nodes currentIndex).event :: rest
    else .error .undefined

/-- accounts/eventHeap.ts:25-41 as meant: all events have one of the two types.  (Line 26 takes the method `decode` out of its object, which
makes the call throw with the decoder of anchor; from the bytes on and with this: `Verif.Model.TsEvents`, C84.) -/
def parsedEvents (h : EventHeap) : Js (List Event) := rawEvents h h.count h.usedHead

/-- accounts/market.ts:98-100.  `div` of BN drops the fraction. -/
def makerFeeFloor (m : Market) (quoteNative : Int) : Int := (quoteNative * m.makerFee).tdiv 1000000

/-- accounts/openOrders.ts:142-170: what an event adds to base and quote of the account with owner `owner`. -/
def balanceEvent (m : Market) (owner : Pubkey) : Int × Int → Event → Int × Int
  | (base, quote), .fill f =>
    if f.maker = owner then
      let baseNative := f.quantity * m.baseLotSize
      let quoteNative := f.quantity * f.price * m.quoteLotSize
      let fees := makerFeeFloor m quoteNative
      match f.takerSide with
      | .ask => (base + baseNative, quote - (quoteNative + fees))
      | .bid => (base - baseNative, quote + (quoteNative - fees))
    else (base, quote)
  | (base, quote), .out _ => (base, quote)

/-- accounts/openOrders.ts:124-173; `heap` is there if the queue was loaded. -/
def getBalanceNative (m : Market) (a : OOA) (heap : Option EventHeap) : Js (Int × Int) := do
  let base := a.position.asksBaseLots * m.baseLotSize + a.position.baseFreeNative
  let quote := a.position.bidsQuoteLots * m.quoteLotSize + a.position.quoteFreeNative + a.position.lockedMakerFees
  match heap with
  | none => return (base, quote)
  | some h => return (← parsedEvents h).foldl (balanceEvent m a.owner) (base, quote)

/-! ### the orders of an account -/

/-- The generator for a slot: accounts/openOrders.ts:309-323; the numbers are those of state/orderbook/order_type.rs:181-186. -/
def slotItems (bids asks : BookSide) (slot : OpenOrder) : Js (List Order) :=
  match slot.comp, slot.side with
  | .fixed, .bid => bids.fixedItems
  | .fixed, .ask => asks.fixedItems
  | .pegged, .bid => bids.oraclePeggedItems
  | .pegged, .ask => asks.oraclePeggedItems

/-- accounts/openOrders.ts:301-332 over the slots that are left.  (The generator of a slot is read only up to the order searched for; here
to the end, which could only throw where the data of the book side is broken.) -/
def accountItems (bids asks : BookSide) : List OpenOrder → Js (List Order)
  | [] => .ok []
  | slot :: slots =>
    if slot.isFree then accountItems bids asks slots
    else do
      let gen ← slotItems bids asks slot
      let rest ← accountItems bids asks slots
      match gen.find? (fun o => o.leaf.key = slot.id) with
      | some o => return o :: rest
      | none => return rest

end OB.Ts
