import Verif.Model.Ts
/-!
The bytes of the event heap account, how the program reads an event out of them, and how the TypeScript library does.
For the layout of structs see `Verif.Model.Layout`.
-/
namespace OB.Layout

/-- `bool::into::<u8>` in heap.rs:283 -/
def boolTag : Bool → Nat
  | false => 0
  | true => 1

/-- state/orderbook/heap.rs:239-263 with `new` (265-300) -/
def fillBytes (f : FillEvent) : Bytes :=
  le 1 0 ++ (le 1 (sideTag f.takerSide) ++ (le 1 (boolTag f.makerOut) ++ (le 1 f.makerSlot ++ (zeros 4 ++ (le 8 f.timestamp ++
    (le 8 f.marketSeqNum ++ (le 32 f.maker ++ (le 8 f.makerTimestamp ++ (le 32 f.taker ++ (le 8 f.takerClientOrderId ++ (leI64 f.price ++
      (leI64 f.pegLimit ++ (leI64 f.quantity ++ (le 8 f.makerClientOrderId ++ zeros 8))))))))))))))

/-- state/orderbook/heap.rs:314-326 with `new` (328-350) -/
def outBytes (o : OutEvent) : Bytes :=
  le 1 1 ++ (le 1 (sideTag o.side) ++ (le 1 o.ownerSlot ++ (zeros 5 ++ (le 8 o.timestamp ++ (le 8 o.seqNum ++ (le 32 o.owner ++
    (leI64 o.quantity ++ zeros 80)))))))

/-- state/orderbook/book.rs:600 and 625: `cast(event)` -/
def eventBytes : Event → Bytes
  | .fill f => fillBytes f
  | .out o => outBytes o

/-- state/orderbook/heap.rs:201-210 -/
def eventNodeBytes (n : EventNode) : Bytes := le 2 n.next ++ (le 2 n.prev ++ (zeros 4 ++ eventBytes n.event))

/-- The data of the account: the 8 bytes by which anchor tells accounts apart, then state/orderbook/heap.rs:17-22 with the header
(165-172). -/
def eventHeapBytes (disc : Bytes) (h : EventHeap) : Bytes :=
  disc ++ (le 2 h.freeHead ++ (le 2 h.usedHead ++ (le 2 h.count ++ (zeros 2 ++ (le 8 h.seqNum ++
    ((List.range maxNumEvents).flatMap (fun i => eventNodeBytes (h.nodes i)) ++ zeros 64))))))

/-- A field of a struct that `cast_ref` lays over bytes: `k` bytes at an offset. -/
def at' (k offset : Nat) (b : Bytes) : Nat := Ts.unle ((b.drop offset).take k)

/-- `try_into().unwrap()` of a side (heap.rs:302-304 and 352-354). -/
def sideOf : Nat → R Side
  | 0 => .ok .bid
  | 1 => .ok .ask
  | _ => .error .panic

/-- `cast_ref::<AnyEvent, FillEvent>` with the accessors of heap.rs:302-307.  The offsets are those of the fields in heap.rs:239-263. -/
def castFill (b : Bytes) : R FillEvent := do
  let side ← sideOf (at' 1 1 b)
  return { takerSide := side, makerOut := decide (at' 1 2 b = 1), makerSlot := at' 1 3 b, timestamp := at' 8 8 b, marketSeqNum := at' 8 16 b,
           maker := at' 32 24 b, makerTimestamp := at' 8 56 b, taker := at' 32 64 b, takerClientOrderId := at' 8 96 b,
           price := asI64 (at' 8 104 b), pegLimit := asI64 (at' 8 112 b), quantity := asI64 (at' 8 120 b), makerClientOrderId := at' 8 128 b }

/-- `cast_ref::<AnyEvent, OutEvent>` with heap.rs:352-354. -/
def castOut (b : Bytes) : R OutEvent := do
  let side ← sideOf (at' 1 1 b)
  return { side := side, ownerSlot := at' 1 2 b, timestamp := at' 8 8 b, seqNum := at' 8 16 b, owner := at' 32 24 b,
           quantity := asI64 (at' 8 56 b) }

/-- instructions/consume_events.rs:61-71: the event in the bytes of an `AnyEvent`. -/
def readEvent (b : Bytes) : R Event :=
  match at' 1 0 b with
  | 0 => do return .fill (← castFill b)
  | 1 => do return .out (← castOut b)
  | _ => .error .someError

end OB.Layout

namespace OB.Ts
open Layout

/-- An entry of `nodes` of the decoded account, openbook_v2.ts:6031-6075 -/
structure EventNodeAcct where
  next : Nat
  prev : Nat
  eventType : Nat
  padding : Bytes
  deriving DecidableEq, Repr

/-- The decoded account; openbook_v2.ts:6003-6030 for the header -/
structure HeapAcct where
  freeHead : Nat
  usedHead : Nat
  count : Nat
  seqNum : Nat
  nodes : List EventNodeAcct
  deriving DecidableEq, Repr

/-- `k` bytes as an array, and the rest of the buffer -/
def bytesField (k : Nat) (d : Bytes) : Js (Bytes × Bytes) :=
  if k ≤ d.length then .ok (d.take k, d.drop k) else .error .range

/-- One node: field after field. -/
def decodeEventNode (d : Bytes) : Js (EventNodeAcct × Bytes) := do
  let (next, d) ← field 2 d
  let (prev, d) ← field 2 d
  let (_, d) ← field 4 d
  let (ty, d) ← field 1 d
  let (pad, d) ← bytesField 143 d
  return ({ next := next, prev := prev, eventType := ty, padding := pad }, d)

def decodeEventNodes : Nat → Bytes → Js (List EventNodeAcct)
  | 0, _ => .ok []
  | n + 1, d => do
    let (x, d) ← decodeEventNode d
    let rest ← decodeEventNodes n d
    return x :: rest

/-- client.ts:201-209: `program.account.eventHeap.fetch`, decoding by the layout of anchor after the 8 bytes of the discriminator
(comparing these is left out). -/
def decodeHeap (data : Bytes) : Js HeapAcct := do
  let (freeHead, d) ← field 2 (data.drop 8)
  let (usedHead, d) ← field 2 d
  let (count, d) ← field 2 d
  let (_, d) ← field 2 d
  let (seqNum, d) ← field 8 d
  let nodes ← decodeEventNodes 600 d
  return { freeHead := freeHead, usedHead := usedHead, count := count, seqNum := seqNum, nodes := nodes }

/-- The sides and flags are plain numbers in the library; here they are given back the meaning that the callers give them
(accounts/openOrders.ts:152 and 163: 0 is bid; `makerOut` is not used). -/
def tsSide (n : Nat) : Side := if n = 0 then .bid else .ask

/-- Decoding a `FillEvent`: openbook_v2.ts:6077-6152 -/
def decodeFill (d : Bytes) : Js FillEvent := do
  let (_, d) ← field 1 d
  let (side, d) ← field 1 d
  let (out, d) ← field 1 d
  let (slot, d) ← field 1 d
  let (_, d) ← field 4 d
  let (timestamp, d) ← field 8 d
  let (seqNum, d) ← field 8 d
  let (maker, d) ← field 32 d
  let (makerTimestamp, d) ← field 8 d
  let (taker, d) ← field 32 d
  let (takerClient, d) ← field 8 d
  let (price, d) ← field 8 d
  let (pegLimit, d) ← field 8 d
  let (quantity, d) ← field 8 d
  let (makerClient, d) ← field 8 d
  let (_, _) ← field 8 d
  return { takerSide := tsSide side, makerOut := decide (out = 1), makerSlot := slot, timestamp := timestamp, marketSeqNum := seqNum,
           maker := maker, makerTimestamp := makerTimestamp, taker := taker, takerClientOrderId := takerClient, price := asI64 price,
           pegLimit := asI64 pegLimit, quantity := asI64 quantity, makerClientOrderId := makerClient }

/-- Decoding an `OutEvent`: openbook_v2.ts:6153-6199 -/
def decodeOut (d : Bytes) : Js OutEvent := do
  let (_, d) ← field 1 d
  let (side, d) ← field 1 d
  let (slot, d) ← field 1 d
  let (_, d) ← field 5 d
  let (timestamp, d) ← field 8 d
  let (seqNum, d) ← field 8 d
  let (owner, d) ← field 32 d
  let (quantity, d) ← field 8 d
  let (_, _) ← field 80 d
  return { side := tsSide side, ownerSlot := slot, timestamp := timestamp, seqNum := seqNum, owner := owner, quantity := asI64 quantity }

/-- The object `program.coder.types` of anchor as the `this` of a call of its method `decode`: there, or lost. -/
inductive This | coder | lost

/-- `decode` of the class `BorshTypesCoder` of @coral-xyz/anchor, which looks up the layout of the type in a field of `this`.  (The package
is not part of the repository.) -/
def typesDecode (this : This) (isFill : Bool) (buffer : Bytes) : Js Event :=
  match this with
  | .lost => .error .undefined
  | .coder => if isFill then do return .fill (← decodeFill buffer) else do return .out (← decodeOut buffer)

/-- client.ts:1096-1110 and 1129-1140: `this.program.coder.types.decode(…, Buffer.from([0, ...node.event.padding]))` -/
def clientEvent (n : EventNodeAcct) : Js Event := typesDecode .coder (n.eventType = 0) ((0 : UInt8) :: n.padding)

/-- accounts/eventHeap.ts:16-23 on the decoded account -/
def rawNodes (a : HeapAcct) : Nat → Nat → Js (List EventNodeAcct)
  | 0, _ => .ok []
  | n + 1, currentIndex =>
    match a.nodes[currentIndex]? with
    | none => .error .undefined
    | some x => do
      let rest ← rawNodes a n x.next
      return x :: rest

/-- accounts/eventHeap.ts:27-40 for the events that are left; an event of another type is passed over. -/
def parseNodes (this : This) : List EventNodeAcct → Js (List Event)
  | [] => .ok []
  | x :: xs => do
    let buffer := UInt8.ofNat x.eventType :: x.padding
    if x.eventType = 0 ∨ x.eventType = 1 then do
      let e ← typesDecode this (x.eventType = 0) buffer
      let rest ← parseNodes this xs
      return e :: rest
    else parseNodes this xs

/-- accounts/eventHeap.ts:25-41 as it would be with `this` kept -/
def parsedEventsWith (this : This) (a : HeapAcct) : Js (List Event) := do
  let xs ← rawNodes a a.count a.usedHead
  parseNodes this xs

/-- accounts/eventHeap.ts:25-41: line 26 takes `decode` out of its object, so its `this` is lost. -/
def parsedEventsOf (a : HeapAcct) : Js (List Event) := parsedEventsWith .lost a

end OB.Ts
