import Verif.Model.Types
/-!
state/orderbook/heap.rs: the event heap (a doubly linked queue in an array with a free list).
-/
namespace OB

/-- heap.rs:9-10 -/
def maxNumEvents : Nat := 600
def noNode : Nat := 65535

/-- heap.rs:239-261 -/
structure FillEvent where
  takerSide : Side
  makerOut : Bool
  makerSlot : Nat
  timestamp : Nat
  marketSeqNum : Nat
  maker : Pubkey
  makerTimestamp : Nat
  taker : Pubkey
  takerClientOrderId : Nat
  price : Int
  pegLimit : Int
  quantity : Int
  makerClientOrderId : Nat
  deriving DecidableEq, Repr

/-- heap.rs:314-324 -/
structure OutEvent where
  side : Side
  ownerSlot : Nat
  timestamp : Nat
  seqNum : Nat
  owner : Pubkey
  quantity : Int
  deriving DecidableEq, Repr

/-- heap.rs:221-233: an event by its type tag. -/
inductive Event
  | fill (f : FillEvent)
  | out (o : OutEvent)
  deriving DecidableEq, Repr

/-- The all-zero event of a zeroed account. -/
def Event.zero : Event :=
  .fill ⟨.bid, false, 0, 0, 0, 0, 0, 0, 0, 0, 0, 0, 0⟩

/-- heap.rs:203-208 -/
structure EventNode where
  next : Nat
  prev : Nat
  event : Event
  deriving DecidableEq, Repr

/-- heap.rs:212-216 -/
def EventNode.isFree (n : EventNode) : Bool := n.prev = noNode

/-- heap.rs:18-22 with the header (165-171) inlined -/
structure EventHeap where
  freeHead : Nat
  usedHead : Nat
  count : Nat
  seqNum : Nat
  nodes : Nat → EventNode

namespace EventHeap

/-- heap.rs:32-46 -/
def init : EventHeap :=
  { freeHead := 0, usedHead := noNode, count := 0, seqNum := 0,
    nodes := fun i =>
      { next := if i = maxNumEvents - 1 then noNode else i + 1, prev := noNode, event := .zero } }

/-- heap.rs:48-58 -/
def len (h : EventHeap) : Nat := h.count
def isEmpty (h : EventHeap) : Bool := h.count = 0
def isFull (h : EventHeap) : Bool := h.count = maxNumEvents

/-- `self.nodes[i]` with bounds check -/
def get (h : EventHeap) (i : Nat) : R EventNode := do
  assertR (i < maxNumEvents)
  return h.nodes i

/-- array assignment -/
def set (h : EventHeap) (i : Nat) (n : EventNode) : EventHeap :=
  { h with nodes := fun k => if k = i then n else h.nodes k }

/-- heap.rs:60-66 -/
def front (h : EventHeap) : R (Option Event) :=
  if h.isEmpty then .ok none else do return some (← h.get h.usedHead).event

/-- heap.rs:68-74 -/
def atSlot (h : EventHeap) (slot : Nat) : Option Event :=
  if slot ≥ maxNumEvents ∨ (h.nodes slot).isFree then none else some (h.nodes slot).event

/-- heap.rs:76-103 -/
def pushBack (h : EventHeap) (e : Event) : R EventHeap := do
  assertR (h.isFull = false)
  let slot := h.freeHead
  let sn ← h.get slot
  let h1 := { h with freeHead := sn.next }
  let (newNext, newPrev, h2) ← (if h1.isEmpty then
      .ok (slot, slot, { h1 with usedHead := slot })
    else do
      let newNext := h1.usedHead
      let newPrev := (← h1.get newNext).prev
      let p ← h1.get newPrev
      let h' := h1.set newPrev { p with next := slot }
      let n ← h'.get newNext
      .ok (newNext, newPrev, h'.set newNext { n with prev := slot }) : R (Nat × Nat × EventHeap))
  assertR (h2.count < 65535)
  assertR (h2.seqNum < 18446744073709551615)
  let h3 := { h2 with count := h2.count + 1, seqNum := h2.seqNum + 1 }
  return h3.set slot { next := newNext, prev := newPrev, event := e }

/-- heap.rs:109-133 -/
def deleteSlot (h : EventHeap) (slot : Nat) : R (Event × EventHeap) := do
  if slot ≥ maxNumEvents ∨ h.isEmpty ∨ (h.nodes slot).isFree then .error .someError
  else do
    let prevSlot := (h.nodes slot).prev
    let nextSlot := (h.nodes slot).next
    let nextFree := h.freeHead
    let p ← h.get prevSlot
    let h1 := h.set prevSlot { p with next := nextSlot }
    let n ← h1.get nextSlot
    let h2 := h1.set nextSlot { n with prev := prevSlot }
    let usedHead := if h2.count = 1 then noNode else if h2.usedHead = slot then nextSlot else h2.usedHead
    assertR (h2.count ≥ 1)
    assertR (slot < 65536)
    let h3 := { h2 with usedHead := usedHead, count := h2.count - 1, freeHead := slot }
    let ev := (h3.nodes slot).event
    return (ev, h3.set slot { next := nextFree, prev := noNode, event := ev })

/-- heap.rs:105-107 -/
def popFront (h : EventHeap) : R (Event × EventHeap) := h.deleteSlot h.usedHead

/-- heap.rs:135-161: the slots visited by `iter()`, `n` more starting at `slot`. -/
def iterFrom (h : EventHeap) : Nat → Nat → R (List Nat)
  | 0, _ => .ok []
  | n + 1, slot => do
    let nd ← h.get slot
    return slot :: (← h.iterFrom n nd.next)

/-- heap.rs:135-141 -/
def iterSlots (h : EventHeap) : R (List Nat) := h.iterFrom h.count h.usedHead

end EventHeap
end OB
