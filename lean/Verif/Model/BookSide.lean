import Verif.Model.OrderTree
/-!
state/orderbook/bookside.rs and bookside_iterator.rs
-/
namespace OB

/-- state/orderbook/bookside.rs:31-36 -/
structure BookSide where
  rootFixed : Root
  rootPegged : Root
  nodes : Nodes

/-- bookside_iterator.rs:47-51 -/
inductive OrderState | valid | invalid | skipped deriving DecidableEq, Repr

/-- bookside_iterator.rs:3-8 with bookside.rs:25-28 inlined -/
structure IterItem where
  comp : Comp
  handle : Nat
  leaf : LeafNode
  priceLots : Int
  state : OrderState
  deriving DecidableEq, Repr

/-- i64::saturating_add -/
def satAddI64 (a b : Int) : Int := max i64Min (min i64Max (a + b))

/-- bookside_iterator.rs:59-75 -/
def oraclePeggedPrice (oracle : Int) (l : LeafNode) (side : Side) : OrderState × Int :=
  let price := satAddI64 oracle (oraclePeggedPriceOffset l.priceData)
  if 1 ≤ price ∧ price < i64Max then
    if l.pegLimit ≠ -1 ∧ side.isPriceBetter price l.pegLimit then (.invalid, price) else (.valid, price)
  else (.skipped, max price 1)

/-- bookside_iterator.rs:80-87 -/
def keyForFixedPrice (key : Nat) (priceLots : Int) : R Nat := do
  assertR (priceLots ≥ 1)
  let pd ← fixedPriceData priceLots
  return (pd <<< 64) ||| (key % two64)

/-- bookside_iterator.rs:90-106 -/
def fixedToResult (f : Nat × LeafNode) (nowTs : Nat) : R IterItem := do
  let p ← fixedPriceLots f.2.priceData
  return { comp := .fixed, handle := f.1, leaf := f.2, priceLots := p,
           state := if f.2.isExpired nowTs then .invalid else .valid }

/-- bookside_iterator.rs:109-124 -/
def peggedToResult (h : Nat) (l : LeafNode) (price : Int) (st : OrderState) (nowTs : Nat) : IterItem :=
  { comp := .pegged, handle := h, leaf := l, priceLots := price,
    state := if l.isExpired nowTs then .invalid else st }

/-- bookside_iterator.rs:129-165 -/
def rankOrders (side : Side) (fixed pegged : Option (Nat × LeafNode)) (returnWorse : Bool) (nowTs : Nat)
    (oracle : Option Int) : R (Option IterItem) :=
  let pegged' : Option (Nat × LeafNode × Int × OrderState) :=
    match oracle, pegged with
    | some o, some (h, l) => let r := oraclePeggedPrice o l side; some (h, l, r.2, r.1)
    | _, _ => none
  match fixed, pegged' with
  | some f, some (h, l, p, st) => do
    let k ← keyForFixedPrice l.key p
    let better : Bool := if side = .bid then decide (f.2.key > k) else decide (f.2.key < k)
    if better ^^ returnWorse then return some (← fixedToResult f nowTs)
    else return some (peggedToResult h l p st nowTs)
  | none, some (h, l, p, st) => return some (peggedToResult h l p st nowTs)
  | some f, none => do return some (← fixedToResult f nowTs)
  | none, none => .ok none

/-- bookside_iterator.rs:24-29 -/
structure SideIter where
  fixedIter : TreeIter
  peggedIter : TreeIter
  deriving DecidableEq, Repr

namespace SideIter

/-- bookside_iterator.rs:178-183: the skip loop, including its re-read of the current leaf through `next()`. -/
def skipLoop (t : Nodes) (oracle : Int) (side : Side) : Nat → Option (Nat × LeafNode) → TreeIter →
    R (Option (Nat × LeafNode) × TreeIter)
  | 0, _, _ => .error .fuel
  | _ + 1, none, it => .ok (none, it)
  | n + 1, some (h, l), it =>
    if (oraclePeggedPrice oracle l side).1 ≠ .skipped then .ok (some (h, l), it)
    else do
      let (o, it') ← it.next t
      skipLoop t oracle side n o it'

/-- bookside_iterator.rs:170-205 -/
def next (t : Nodes) (nowTs : Nat) (oracle : Option Int) (it : SideIter) : R (Option (IterItem × SideIter)) := do
  let (oPeek, pIter) ← (match oracle with
    | some o => skipLoop t o t.side (Nodes.fuel + 1) it.peggedIter.peek it.peggedIter
    | none => .ok (none, it.peggedIter) : R _)
  match ← rankOrders t.side it.fixedIter.peek oPeek false nowTs oracle with
  | none => return none
  | some item =>
    match item.comp with
    | .fixed =>
      let (_, f) ← it.fixedIter.next t
      return some (item, { fixedIter := f, peggedIter := pIter })
    | .pegged =>
      let (_, p) ← pIter.next t
      return some (item, { fixedIter := it.fixedIter, peggedIter := p })

end SideIter

namespace BookSide

/-- bookside.rs:74-76 -/
def root (b : BookSide) : Comp → Root
  | .fixed => b.rootFixed
  | .pegged => b.rootPegged

/-- assignment through bookside.rs:78-80 -/
def setRoot (b : BookSide) (c : Comp) (r : Root) : BookSide :=
  match c with
  | .fixed => { b with rootFixed := r }
  | .pegged => { b with rootPegged := r }

/-- bookside.rs:154-156 -/
def side (b : BookSide) : Side := b.nodes.side

/-- bookside_iterator.rs:32-43 -/
def iter (b : BookSide) : R SideIter := do
  let f ← TreeIter.new b.nodes b.rootFixed
  let p ← TreeIter.new b.nodes b.rootPegged
  return { fixedIter := f, peggedIter := p }

/-- bookside.rs:82-84 -/
def isFull (b : BookSide) : Bool := b.nodes.isFull

/-- bookside.rs:86-90: both components have no first leaf. -/
def isEmpty (b : BookSide) : R Bool := do
  let f ← TreeIter.new b.nodes b.rootFixed
  let p ← TreeIter.new b.nodes b.rootPegged
  return f.nextLeaf.isNone && p.nextLeaf.isNone

/-- bookside.rs:92-99 -/
def insertLeaf (b : BookSide) (c : Comp) (leaf : LeafNode) : R (Nat × Option LeafNode × BookSide) := do
  let (h, old, t, r) ← b.nodes.insertLeaf (b.root c) leaf
  return (h, old, ({ b with nodes := t }).setRoot c r)

/-- bookside.rs:145-152 -/
def removeByKey (b : BookSide) (c : Comp) (key : Nat) : R (Option (LeafNode × BookSide)) := do
  match ← b.nodes.removeByKey (b.root c) key with
  | none => return none
  | some (l, t, r) => return some (l, ({ b with nodes := t }).setRoot c r)

/-- bookside.rs:102-123 -/
def removeWorst (b : BookSide) (nowTs : Nat) (oracle : Option Int) : R (Option (LeafNode × Int × BookSide)) := do
  let wf ← b.nodes.findWorst b.rootFixed
  let wp ← b.nodes.findWorst b.rootPegged
  match ← rankOrders b.side wf wp true nowTs oracle with
  | none => return none
  | some w =>
    match ← b.removeByKey w.comp w.leaf.key with
    | none => return none
    | some (l, b') => return some (l, w.priceLots, b')

/-- bookside.rs:132-135 and 141-142 -/
def removeOneExpiredIn (b : BookSide) (c : Comp) (nowTs : Nat) : R (Option (LeafNode × BookSide)) := do
  match ← b.nodes.removeOneExpired (b.root c) nowTs with
  | none => return none
  | some (l, t, r) => return some (l, ({ b with nodes := t }).setRoot c r)

/-- bookside.rs:127-143 -/
def removeOneExpired (b : BookSide) (c : Comp) (nowTs : Nat) : R (Option (LeafNode × BookSide)) := do
  match ← b.removeOneExpiredIn c nowTs with
  | some x => return some x
  | none => b.removeOneExpiredIn c.other nowTs

/-- bookside.rs:49-55 with `next` of the filtered iterator: first valid item. -/
def firstValid (t : Nodes) (nowTs : Nat) (oracle : Option Int) : Nat → SideIter → R (Option IterItem)
  | 0, _ => .error .fuel
  | n + 1, it => do
    match ← it.next t nowTs oracle with
    | none => return none
    | some (item, it') => if item.state = .valid then return some item else firstValid t nowTs oracle n it'

/-- bookside.rs:177-183 -/
def bestPrice (b : BookSide) (nowTs : Nat) (oracle : Option Int) : R (Option Int) := do
  let it ← b.iter
  match ← firstValid b.nodes nowTs oracle (2 * Nodes.fuel) it with
  | none => return none
  | some item => return some item.priceLots

/-- book.rs:329-336: `node_mut(h).unwrap().as_leaf_mut().unwrap().quantity = q` -/
def setQuantity (b : BookSide) (h : Nat) (q : Int) : R BookSide := do
  match ← b.nodes.nodeU h with
  | .leaf l => return { b with nodes := b.nodes.set h (.leaf { l with quantity := q }) }
  | _ => .error .panic

/-- A zeroed account after `Orderbook::init` (book.rs:37-40). -/
def empty (s : Side) : BookSide :=
  { rootFixed := ⟨0, 0⟩, rootPegged := ⟨0, 0⟩,
    nodes := { side := s, bumpIndex := 0, freeListLen := 0, freeListHead := 0, nodes := fun _ => .uninit } }

end BookSide
end OB
