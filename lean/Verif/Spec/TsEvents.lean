import Verif.Model.TsEvents
/-! What properties of the bytes of events are about. -/
namespace OB.Spec

/-- The numbers of an event fit the types of their fields.  In the program they always do. -/
def eventFits : Event → Prop
  | .fill f => f.makerSlot < 2 ^ 8 ∧ f.timestamp < 2 ^ 64 ∧ f.marketSeqNum < 2 ^ 64 ∧ f.maker < 2 ^ 256 ∧ f.makerTimestamp < 2 ^ 64 ∧
      f.taker < 2 ^ 256 ∧ f.takerClientOrderId < 2 ^ 64 ∧ (i64Min ≤ f.price ∧ f.price ≤ i64Max) ∧
      (i64Min ≤ f.pegLimit ∧ f.pegLimit ≤ i64Max) ∧ (i64Min ≤ f.quantity ∧ f.quantity ≤ i64Max) ∧ f.makerClientOrderId < 2 ^ 64
  | .out o => o.ownerSlot < 2 ^ 8 ∧ o.timestamp < 2 ^ 64 ∧ o.seqNum < 2 ^ 64 ∧ o.owner < 2 ^ 256 ∧
      (i64Min ≤ o.quantity ∧ o.quantity ≤ i64Max)

instance (e : Event) : Decidable (eventFits e) := by cases e <;> unfold eventFits <;> infer_instance

/-- The numbers of a heap fit the types of their fields. -/
structure HeapFits (h : EventHeap) : Prop where
  heads : h.freeHead < 2 ^ 16 ∧ h.usedHead < 2 ^ 16 ∧ h.count < 2 ^ 16 ∧ h.seqNum < 2 ^ 64
  nodes : ∀ i < maxNumEvents, (h.nodes i).next < 2 ^ 16 ∧ (h.nodes i).prev < 2 ^ 16 ∧ eventFits (h.nodes i).event

/-- The library holds what it decoded from the data of the account of the heap. -/
def HoldsHeap (h : EventHeap) (x : Ts.HeapAcct) : Prop :=
  ∃ disc : List UInt8, disc.length = 8 ∧ Ts.decodeHeap (Layout.eventHeapBytes disc h) = .ok x

end OB.Spec
