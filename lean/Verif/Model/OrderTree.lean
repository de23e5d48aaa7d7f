import Verif.Model.Keys
/-!
state/orderbook/ordertree.rs and ordertree_iterator.rs: the crit-bit tree in a slab.
-/
namespace OB

/-- state/orderbook/nodes.rs:80-102.  The two element arrays are split in fields. -/
structure InnerNode where
  prefixLen : Nat
  key : Nat
  child0 : Nat
  child1 : Nat
  exp0 : Nat
  exp1 : Nat
  deriving DecidableEq, Repr

/-- state/orderbook/nodes.rs:14-21 and 248-255: a node by its tag. -/
inductive AnyNode
  | uninit
  | inner (i : InnerNode)
  | leaf (l : LeafNode)
  | free (next : Nat)
  | lastFree (next : Nat)
  deriving DecidableEq, Repr

namespace InnerNode
/-- `children[b as usize]` -/
def child (i : InnerNode) (b : Bool) : Nat := if b then i.child1 else i.child0
/-- `child_earliest_expiry[b as usize]` -/
def exp (i : InnerNode) (b : Bool) : Nat := if b then i.exp1 else i.exp0
/-- assignment to `child_earliest_expiry[b as usize]` -/
def setExp (i : InnerNode) (b : Bool) (e : Nat) : InnerNode :=
  if b then { i with exp1 := e } else { i with exp0 := e }
/-- state/orderbook/nodes.rs:128-130 -/
def earliestExpiry (i : InnerNode) : Nat := min i.exp0 i.exp1
end InnerNode

/-- `(key & (1 << (127 - prefix_len))) != 0`, nodes.rs:121-122, ordertree.rs:365-366 -/
def critBit (prefixLen : Nat) (key : Nat) : Bool := key.testBit (127 - prefixLen)

/-- state/orderbook/nodes.rs:120-124.  `127 - prefix_len` panics on overflow. -/
def InnerNode.walkDown (i : InnerNode) (key : Nat) : R (Nat × Bool) := do
  assertR (i.prefixLen ≤ 127)
  let b := critBit i.prefixLen key
  return (i.child b, b)

/-- state/orderbook/nodes.rs:342-347 (panics for other tags) -/
def AnyNode.earliestExpiry : AnyNode → R Nat
  | .inner i => .ok i.earliestExpiry
  | .leaf l => .ok l.expiry
  | _ => .error .panic

/-- u128::leading_zeros -/
def leadingZeros (x : Nat) : Nat := if x = 0 then 128 else 127 - x.log2

/-- state/orderbook/ordertree.rs:39-42 -/
structure Root where
  maybeNode : Nat
  leafCount : Nat
  deriving DecidableEq, Repr

/-- state/orderbook/ordertree.rs:47-53 -/
def Root.node (r : Root) : Option Nat := if r.leafCount = 0 then none else some r.maybeNode

/-- state/orderbook/ordertree.rs:10 -/
def maxOrderTreeNodes : Nat := 1024

/-- state/orderbook/ordertree.rs:60-68; `order_tree_type` is `side`. -/
structure Nodes where
  side : Side
  bumpIndex : Nat
  freeListLen : Nat
  freeListHead : Nat
  nodes : Nat → AnyNode

namespace Nodes

/-- Fuel for pointer walks: more than the number of nodes. -/
def fuel : Nat := 1025

/-- `self.nodes[h] = n` -/
def set (t : Nodes) (h : Nat) (n : AnyNode) : Nodes :=
  { t with nodes := fun k => if k = h then n else t.nodes k }

/-- state/orderbook/ordertree.rs:89-104 (`node`, `node_mut`): index panics out of bounds, `None` for non-tree nodes. -/
def node (t : Nodes) (h : Nat) : R (Option AnyNode) := do
  assertR (h < maxOrderTreeNodes)
  match t.nodes h with
  | .inner i => return some (.inner i)
  | .leaf l => return some (.leaf l)
  | _ => return none

/-- `self.node(h).unwrap()` -/
def nodeU (t : Nodes) (h : Nat) : R AnyNode := do
  unwrapR (← t.node h)

/-- state/orderbook/ordertree.rs:254-272 -/
def remove (t : Nodes) (h : Nat) : R (Option (AnyNode × Nodes)) := do
  match ← t.node h with
  | none => return none
  | some v =>
    let fn := if t.freeListLen = 0 then AnyNode.lastFree t.freeListHead else AnyNode.free t.freeListHead
    let t' := t.set h fn
    return some (v, { t' with freeListLen := t.freeListLen + 1, freeListHead := h })

/-- state/orderbook/ordertree.rs:275-306; only called with inner and leaf nodes. -/
def insert (t : Nodes) (v : AnyNode) : R (Nat × Nodes) := do
  if t.freeListLen = 0 then
    req (t.bumpIndex < maxOrderTreeNodes ∧ t.bumpIndex < 4294967295) .someError
    let t' := t.set t.bumpIndex v
    return (t.bumpIndex, { t' with bumpIndex := t.bumpIndex + 1 })
  else
    let key := t.freeListHead
    assertR (key < maxOrderTreeNodes)
    let next ← (match t.nodes key with
      | .free n => do assertR (t.freeListLen > 1); return n
      | .lastFree n => do assertR (t.freeListLen = 1); return n
      | _ => .error .panic : R Nat)
    let t' := t.set key v
    return (key, { t' with freeListHead := next, freeListLen := t.freeListLen - 1 })

/-- state/orderbook/ordertree.rs:407-424.  The stack is kept with its top first, so this walks the list in order. -/
def updateParentEarliestExpiry (t : Nodes) : List (Nat × Bool) → Nat → Nat → R Nodes
  | [], _, _ => .ok t
  | (h, b) :: rest, outdated, new => do
    match ← t.nodeU h with
    | .inner i =>
      if i.exp b ≠ outdated then return t
      else
        let i' := i.setExp b new
        (t.set h (.inner i')).updateParentEarliestExpiry rest i.earliestExpiry i'.earliestExpiry
    | _ => .error .panic

/-- state/orderbook/ordertree.rs:173-192 loop -/
def leafMinMaxLoop (t : Nodes) (findMax : Bool) : Nat → Nat → R (Option (Nat × LeafNode))
  | 0, _ => .error .fuel
  | n + 1, h => do
    match ← t.node h with
    | some (.inner i) => t.leafMinMaxLoop findMax n (i.child findMax)
    | some (.leaf l) => return some (h, l)
    | _ => return none

/-- state/orderbook/ordertree.rs:173-192 -/
def leafMinMax (t : Nodes) (findMax : Bool) (r : Root) : R (Option (Nat × LeafNode)) :=
  match r.node with
  | none => .ok none
  | some h => t.leafMinMaxLoop findMax fuel h

/-- state/orderbook/ordertree.rs:110-115 -/
def findWorst (t : Nodes) (r : Root) : R (Option (Nat × LeafNode)) :=
  match t.side with
  | .bid => t.leafMinMax false r
  | .ask => t.leafMinMax true r

/-- state/orderbook/ordertree.rs:218-234: walk down from the inner node `parent` (whose crit bit is on the stack top)
until the leaf with `key`; returns parent, child, crit bit, stack (top first), `none` when another leaf is found. -/
def removeWalk (t : Nodes) (key : Nat) : Nat → (parent child : Nat) → Bool → List (Nat × Bool) →
    R (Option (Nat × Nat × Bool × List (Nat × Bool)))
  | 0, _, _, _, _ => .error .fuel
  | n + 1, parent, child, b, stack => do
    match ← t.nodeU child with
    | .inner i =>
      let (c', b') ← i.walkDown key
      t.removeWalk key n child c' b' ((child, b') :: stack)
    | .leaf l => if l.key ≠ key then return none else return some (parent, child, b, stack)
    | _ => .error .panic

/-- state/orderbook/ordertree.rs:236-250: unlink the found leaf. -/
def removeFound (t : Nodes) (r : Root) (parent child : Nat) (b : Bool) (stack : List (Nat × Bool)) :
    R (LeafNode × Nodes × Root) := do
  match ← t.nodeU parent with
  | .inner pi =>
    let otherH := pi.child (!b)
    let (other, t1) ← unwrapR (← t.remove otherH)
    let newExpiry ← other.earliestExpiry
    let _ ← t1.nodeU parent
    let t2 := t1.set parent other
    assertR (r.leafCount ≥ 1)
    let (removed, t3) ← unwrapR (← t2.remove child)
    match removed with
    | .leaf leaf =>
      let t4 ← t3.updateParentEarliestExpiry stack.tail leaf.expiry newExpiry
      return (leaf, t4, { r with leafCount := r.leafCount - 1 })
    | _ => .error .panic
  | _ => .error .panic

/-- state/orderbook/ordertree.rs:194-251 -/
def removeByKey (t : Nodes) (r : Root) (key : Nat) : R (Option (LeafNode × Nodes × Root)) :=
  match r.node with
  | none => .ok none
  | some rootH => do
    match ← t.nodeU rootH with
    | .leaf l =>
      if l.key = key then do
        assertR (r.leafCount = 1)
        let (_, t') ← unwrapR (← t.remove rootH)
        return some (l, t', { maybeNode := 0, leafCount := 0 })
      else return none
    | .inner i => do
      let (c, b) ← i.walkDown key
      match ← t.removeWalk key fuel rootH c b [(rootH, b)] with
      | none => return none
      | some (parent, child, b', stack) =>
        return some (← t.removeFound r parent child b' stack)
    | _ => .error .panic

/-- state/orderbook/ordertree.rs:106-108 -/
def removeWorst (t : Nodes) (r : Root) : R (Option (LeafNode × Nodes × Root)) := do
  match ← t.findWorst r with
  | none => return none
  | some (_, l) => t.removeByKey r l.key

/-- state/orderbook/ordertree.rs:433-446 loop -/
def findEarliestExpiryLoop (t : Nodes) : Nat → Nat → R (Nat × Nat)
  | 0, _ => .error .fuel
  | n + 1, h => do
    match ← t.nodeU h with
    | .inner i => t.findEarliestExpiryLoop n (i.child (i.exp0 > i.exp1))
    | .leaf l => return (h, l.expiry)
    | _ => .error .panic

/-- state/orderbook/ordertree.rs:427-447 -/
def findEarliestExpiry (t : Nodes) (r : Root) : R (Option (Nat × Nat)) :=
  match r.node with
  | none => .ok none
  | some h => do return some (← t.findEarliestExpiryLoop fuel h)

/-- state/orderbook/ordertree.rs:118-129.  (`self.node(handle)?.key()?`) -/
def removeOneExpired (t : Nodes) (r : Root) (nowTs : Nat) : R (Option (LeafNode × Nodes × Root)) := do
  match ← t.findEarliestExpiry r with
  | none => return none
  | some (h, e) =>
    if e < nowTs then
      match ← t.node h with
      | some (.leaf l) => t.removeByKey r l.key
      | some (.inner i) => t.removeByKey r i.key
      | _ => return none
    else return none

/-- state/orderbook/ordertree.rs:361-395: replace node `parentH` (contents `contents`) by an inner node with the new leaf and
the old contents as children.  On the second allocation failing the first is undone, but the error
aborts the transaction anyway, so the model only returns the error. -/
def splitAt (t : Nodes) (r : Root) (leaf : LeafNode) (parentH : Nat) (contents : AnyNode) (shared : Nat)
    (stack : List (Nat × Bool)) : R (Nat × Nodes × Root) := do
  assertR (shared ≤ 127)
  let nb := critBit shared leaf.key
  let (leafH, t1) ← t.insert (.leaf leaf)
  let (movedH, t2) ← t1.insert contents
  let _ ← t2.nodeU parentH
  let newExp := leaf.expiry
  let oldExp ← contents.earliestExpiry
  let inner : InnerNode :=
    { prefixLen := shared, key := leaf.key,
      child0 := if nb then movedH else leafH, child1 := if nb then leafH else movedH,
      exp0 := if nb then oldExp else newExp, exp1 := if nb then newExp else oldExp }
  let t3 := t2.set parentH (.inner inner)
  let t4 ← if newExp < oldExp then t3.updateParentEarliestExpiry stack oldExp newExp else .ok t3
  return (leafH, t4, { r with leafCount := r.leafCount + 1 })

/-- state/orderbook/ordertree.rs:329-396 loop -/
def insertLoop (r : Root) (leaf : LeafNode) : Nat → Nodes → Nat → List (Nat × Bool) →
    R (Nat × Option LeafNode × Nodes × Root)
  | 0, _, _, _ => .error .fuel
  | n + 1, t, parentH, stack => do
    match ← t.nodeU parentH with
    | .leaf old =>
      if old.key = leaf.key then do
        let t1 := t.set parentH (.leaf leaf)
        let t2 ← t1.updateParentEarliestExpiry stack old.expiry leaf.expiry
        return (parentH, some old, t2, r)
      else do
        let (h, t', r') ← t.splitAt r leaf parentH (.leaf old) (leadingZeros (old.key ^^^ leaf.key)) stack
        return (h, none, t', r')
    | .inner i =>
      let shared := leadingZeros (i.key ^^^ leaf.key)
      if shared ≥ i.prefixLen then do
        let (c, b) ← i.walkDown leaf.key
        insertLoop r leaf n t c ((parentH, b) :: stack)
      else do
        let (h, t', r') ← t.splitAt r leaf parentH (.inner i) shared stack
        return (h, none, t', r')
    | _ => .error .panic

/-- state/orderbook/ordertree.rs:308-397 -/
def insertLeaf (t : Nodes) (r : Root) (leaf : LeafNode) : R (Nat × Option LeafNode × Nodes × Root) :=
  match r.node with
  | none => do
    let (h, t') ← t.insert (.leaf leaf)
    return (h, none, t', { maybeNode := h, leafCount := 1 })
  | some h => insertLoop r leaf fuel t h []

/-- state/orderbook/ordertree.rs:399-401 -/
def isFull (t : Nodes) : Bool := t.freeListLen ≤ 1 ∧ t.bumpIndex ≥ maxOrderTreeNodes - 1

end Nodes

/-- state/orderbook/ordertree_iterator.rs:4-14.  `left`/`right` are determined by the side (17-22). -/
structure TreeIter where
  stack : List InnerNode
  nextLeaf : Option (Nat × LeafNode)
  deriving DecidableEq, Repr

namespace TreeIter

/-- index `left` (ordertree_iterator.rs:18-22): 1 for bids -/
def leftBit (s : Side) : Bool := s = .bid

/-- state/orderbook/ordertree_iterator.rs:50-63 -/
def findLeftmost (t : Nodes) : Nat → Nat → List InnerNode → R (List InnerNode × (Nat × LeafNode))
  | 0, _, _ => .error .fuel
  | n + 1, h, stack => do
    match ← t.nodeU h with
    | .inner i => findLeftmost t n (i.child (leftBit t.side)) (i :: stack)
    | .leaf l => return (stack, (h, l))
    | _ => .error .panic

/-- state/orderbook/ordertree_iterator.rs:17-36 -/
def new (t : Nodes) (r : Root) : R TreeIter :=
  match r.node with
  | none => .ok { stack := [], nextLeaf := none }
  | some h => do
    let (st, lf) ← findLeftmost t Nodes.fuel h []
    return { stack := st, nextLeaf := some lf }

/-- state/orderbook/ordertree_iterator.rs:46-48 -/
def peek (it : TreeIter) : Option (Nat × LeafNode) := it.nextLeaf

/-- state/orderbook/ordertree_iterator.rs:69-85 -/
def next (t : Nodes) (it : TreeIter) : R (Option (Nat × LeafNode) × TreeIter) :=
  match it.nextLeaf with
  | none => .ok (none, it)
  | some cur =>
    match it.stack with
    | [] => .ok (some cur, { stack := [], nextLeaf := none })
    | i :: rest => do
      let (st, lf) ← findLeftmost t Nodes.fuel (i.child (!leftBit t.side)) rest
      return (some cur, { stack := st, nextLeaf := some lf })

end TreeIter
end OB
