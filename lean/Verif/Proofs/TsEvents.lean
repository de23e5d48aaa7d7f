import Verif.Spec.TsEvents
import Verif.Proofs.Ts
/-! Reading events back from bytes. -/
namespace OB.Layout
open OB.Spec OB.Ts

theorem at_skip (k off : Nat) (A r : Bytes) (h : A.length ≤ off) : at' k off (A ++ r) = at' k (off - A.length) r := by
  unfold at'
  obtain ⟨n, rfl⟩ := Nat.exists_eq_add_of_le h
  rw [drop_past A r n _ rfl, Nat.add_sub_cancel_left]

theorem at_here (k n : Nat) (r : Bytes) (h : n < 256 ^ k) : at' k 0 (le k n ++ r) = n := by
  unfold at'
  rw [List.drop_zero, take_at _ _ _ (le_length k n), unle_le k n h]

theorem fillBytes_length (f : FillEvent) : (fillBytes f).length = 144 := by simp [fillBytes, leI64, le_length, zeros_length]
theorem outBytes_length (o : OutEvent) : (outBytes o).length = 144 := by simp [outBytes, leI64, le_length, zeros_length]

theorem eventBytes_length (e : Event) : (eventBytes e).length = 144 := by
  cases e
  · exact fillBytes_length _
  · exact outBytes_length _

theorem eventNodeBytes_length (n : EventNode) : (eventNodeBytes n).length = 152 := by
  simp [eventNodeBytes, le_length, zeros_length, eventBytes_length]

theorem sideOf_tag (s : Side) : sideOf (sideTag s) = .ok s := by cases s <;> rfl
theorem sideTag_lt (s : Side) : sideTag s < 256 ^ 1 := by cases s <;> decide
theorem boolTag_lt (b : Bool) : boolTag b < 256 ^ 1 := by cases b <;> decide
theorem boolTag_eq (b : Bool) : decide (boolTag b = 1) = b := by cases b <;> rfl

theorem castFill_bytes (f : FillEvent) (h : eventFits (.fill f)) : castFill (fillBytes f) = .ok f := by
  obtain ⟨h1, h2, h3, h4, h5, h6, h7, h8, h9, h10, h11⟩ := h
  have e1 : at' 1 1 (fillBytes f) = sideTag f.takerSide := by
    unfold fillBytes
    rw [at_skip _ _ _ _ (by rw [le_length]), le_length, at_here _ _ _ (sideTag_lt _)]
  have e2 : at' 1 2 (fillBytes f) = boolTag f.makerOut := by
    unfold fillBytes
    iterate 2 rw [at_skip _ _ _ _ (by simp [le_length]), le_length]
    exact at_here _ _ _ (boolTag_lt _)
  have e3 : at' 1 3 (fillBytes f) = f.makerSlot := by
    unfold fillBytes
    iterate 3 rw [at_skip _ _ _ _ (by simp [le_length]), le_length]
    exact at_here _ _ _ (by omega)
  have skip8 : ∀ k off, 8 ≤ off → at' k off (fillBytes f) = at' k (off - 8) (le 8 f.timestamp ++
    (le 8 f.marketSeqNum ++ (le 32 f.maker ++ (le 8 f.makerTimestamp ++ (le 32 f.taker ++ (le 8 f.takerClientOrderId ++ (leI64 f.price ++
      (leI64 f.pegLimit ++ (leI64 f.quantity ++ (le 8 f.makerClientOrderId ++ zeros 8)))))))))) := by
    intro k off ho
    unfold fillBytes
    iterate 4 rw [at_skip _ _ _ _ (by simp only [le_length]; omega), le_length]
    rw [at_skip _ _ _ _ (by rw [zeros_length]; omega), zeros_length]
    congr 1
  have e4 : at' 8 8 (fillBytes f) = f.timestamp := by
    rw [skip8 _ _ (by omega)]
    exact at_here _ _ _ (by omega)
  have e5 : at' 8 16 (fillBytes f) = f.marketSeqNum := by
    rw [skip8 _ _ (by omega), at_skip _ _ _ _ (by simp [le_length]), le_length]
    exact at_here _ _ _ (by omega)
  have e6 : at' 32 24 (fillBytes f) = f.maker := by
    rw [skip8 _ _ (by omega)]
    iterate 2 rw [at_skip _ _ _ _ (by simp [le_length]), le_length]
    exact at_here _ _ _ (by simpa using h4)
  have e7 : at' 8 56 (fillBytes f) = f.makerTimestamp := by
    rw [skip8 _ _ (by omega)]
    iterate 3 rw [at_skip _ _ _ _ (by simp [le_length]), le_length]
    exact at_here _ _ _ (by omega)
  have e8 : at' 32 64 (fillBytes f) = f.taker := by
    rw [skip8 _ _ (by omega)]
    iterate 4 rw [at_skip _ _ _ _ (by simp [le_length]), le_length]
    exact at_here _ _ _ (by simpa using h6)
  have e9 : at' 8 96 (fillBytes f) = f.takerClientOrderId := by
    rw [skip8 _ _ (by omega)]
    iterate 5 rw [at_skip _ _ _ _ (by simp [le_length]), le_length]
    exact at_here _ _ _ (by omega)
  have e10 : at' 8 104 (fillBytes f) = (asU64 f.price).toNat := by
    rw [skip8 _ _ (by omega)]
    unfold leI64
    iterate 6 rw [at_skip _ _ _ _ (by simp [le_length]), le_length]
    exact at_here _ _ _ (asU64_fits _)
  have e11 : at' 8 112 (fillBytes f) = (asU64 f.pegLimit).toNat := by
    rw [skip8 _ _ (by omega)]
    unfold leI64
    iterate 7 rw [at_skip _ _ _ _ (by simp [le_length]), le_length]
    exact at_here _ _ _ (asU64_fits _)
  have e12 : at' 8 120 (fillBytes f) = (asU64 f.quantity).toNat := by
    rw [skip8 _ _ (by omega)]
    unfold leI64
    iterate 8 rw [at_skip _ _ _ _ (by simp [le_length]), le_length]
    exact at_here _ _ _ (asU64_fits _)
  have e13 : at' 8 128 (fillBytes f) = f.makerClientOrderId := by
    rw [skip8 _ _ (by omega)]
    unfold leI64
    iterate 9 rw [at_skip _ _ _ _ (by simp [le_length]), le_length]
    exact at_here _ _ _ (by omega)
  unfold castFill
  rw [e1, e2, e3, e4, e5, e6, e7, e8, e9, e10, e11, e12, e13, sideOf_tag, boolTag_eq, asI64_asU64 h8, asI64_asU64 h9, asI64_asU64 h10]
  rfl

theorem castOut_bytes (o : OutEvent) (h : eventFits (.out o)) : castOut (outBytes o) = .ok o := by
  obtain ⟨h1, h2, h3, h4, h5⟩ := h
  have e1 : at' 1 1 (outBytes o) = sideTag o.side := by
    unfold outBytes
    rw [at_skip _ _ _ _ (by rw [le_length]), le_length, at_here _ _ _ (sideTag_lt _)]
  have e2 : at' 1 2 (outBytes o) = o.ownerSlot := by
    unfold outBytes
    iterate 2 rw [at_skip _ _ _ _ (by simp [le_length]), le_length]
    exact at_here _ _ _ (by omega)
  have skip8 : ∀ k off, 8 ≤ off → at' k off (outBytes o) = at' k (off - 8) (le 8 o.timestamp ++ (le 8 o.seqNum ++ (le 32 o.owner ++
    (leI64 o.quantity ++ zeros 80)))) := by
    intro k off ho
    unfold outBytes
    iterate 3 rw [at_skip _ _ _ _ (by simp only [le_length]; omega), le_length]
    rw [at_skip _ _ _ _ (by rw [zeros_length]; omega), zeros_length]
    congr 1
  have e3 : at' 8 8 (outBytes o) = o.timestamp := by
    rw [skip8 _ _ (by omega)]
    exact at_here _ _ _ (by omega)
  have e4 : at' 8 16 (outBytes o) = o.seqNum := by
    rw [skip8 _ _ (by omega), at_skip _ _ _ _ (by simp [le_length]), le_length]
    exact at_here _ _ _ (by omega)
  have e5 : at' 32 24 (outBytes o) = o.owner := by
    rw [skip8 _ _ (by omega)]
    iterate 2 rw [at_skip _ _ _ _ (by simp [le_length]), le_length]
    exact at_here _ _ _ (by simpa using h4)
  have e6 : at' 8 56 (outBytes o) = (asU64 o.quantity).toNat := by
    rw [skip8 _ _ (by omega)]
    unfold leI64
    iterate 3 rw [at_skip _ _ _ _ (by simp [le_length]), le_length]
    exact at_here _ _ _ (asU64_fits _)
  unfold castOut
  rw [e1, e2, e3, e4, e5, e6, sideOf_tag, asI64_asU64 h5]
  rfl

theorem readEvent_bytes (e : Event) (h : eventFits e) : readEvent (eventBytes e) = .ok e := by
  cases e with
  | fill f =>
    have e0 : at' 1 0 (fillBytes f) = 0 := by
      unfold fillBytes
      exact at_here 1 0 _ (by decide)
    simp only [eventBytes, readEvent, e0, castFill_bytes f h]
    rfl
  | out o =>
    have e0 : at' 1 0 (outBytes o) = 1 := by
      unfold outBytes
      exact at_here 1 1 _ (by decide)
    simp only [eventBytes, readEvent, e0, castOut_bytes o h]
    rfl

end OB.Layout

namespace OB.Ts
open OB.Spec OB.Layout

theorem tsSide_tag (s : Side) : tsSide (sideTag s) = s := by cases s <;> rfl

/-- The first byte does not matter to the decoders. -/
theorem decodeFill_bytes (x : UInt8) (f : FillEvent) (h : eventFits (.fill f)) : decodeFill (x :: (fillBytes f).drop 1) = .ok f := by
  obtain ⟨h1, h2, h3, h4, h5, h6, h7, h8, h9, h10, h11⟩ := h
  have e : x :: (fillBytes f).drop 1 = [x] ++ (fillBytes f).drop 1 := rfl
  rw [e]
  unfold fillBytes
  rw [drop_at _ _ 1 (le_length 1 0)]
  unfold decodeFill leI64
  rw [field_skip 1 _ _ rfl]
  simp only [bind, Except.bind]
  rw [field_le 1 _ _ (sideTag_lt _)]
  simp only
  rw [field_le 1 _ _ (boolTag_lt _)]
  simp only
  rw [field_le 1 _ _ (by omega)]
  simp only
  rw [field_skip 4 _ _ (zeros_length 4)]
  simp only
  rw [field_le 8 _ _ (by omega)]
  simp only
  rw [field_le 8 _ _ (by omega)]
  simp only
  rw [field_le 32 _ _ (by simpa using h4)]
  simp only
  rw [field_le 8 _ _ (by omega)]
  simp only
  rw [field_le 32 _ _ (by simpa using h6)]
  simp only
  rw [field_le 8 _ _ (by omega)]
  simp only
  rw [field_le 8 _ _ (asU64_fits _)]
  simp only
  rw [field_le 8 _ _ (asU64_fits _)]
  simp only
  rw [field_le 8 _ _ (asU64_fits _)]
  simp only
  rw [field_le 8 _ _ (by omega)]
  simp only
  rw [show zeros 8 = zeros 8 ++ [] from (List.append_nil _).symm, field_skip 8 _ _ (zeros_length 8)]
  simp only [asI64_asU64 h8, asI64_asU64 h9, asI64_asU64 h10, tsSide_tag, boolTag_eq]
  rfl

theorem decodeOut_bytes (x : UInt8) (o : OutEvent) (h : eventFits (.out o)) : decodeOut (x :: (outBytes o).drop 1) = .ok o := by
  obtain ⟨h1, h2, h3, h4, h5⟩ := h
  have e : x :: (outBytes o).drop 1 = [x] ++ (outBytes o).drop 1 := rfl
  rw [e]
  unfold outBytes
  rw [drop_at _ _ 1 (le_length 1 1)]
  unfold decodeOut leI64
  rw [field_skip 1 _ _ rfl]
  simp only [bind, Except.bind]
  rw [field_le 1 _ _ (sideTag_lt _)]
  simp only
  rw [field_le 1 _ _ (by omega)]
  simp only
  rw [field_skip 5 _ _ (zeros_length 5)]
  simp only
  rw [field_le 8 _ _ (by omega)]
  simp only
  rw [field_le 8 _ _ (by omega)]
  simp only
  rw [field_le 32 _ _ (by simpa using h4)]
  simp only
  rw [field_le 8 _ _ (asU64_fits _)]
  simp only
  rw [show zeros 80 = zeros 80 ++ [] from (List.append_nil _).symm, field_skip 80 _ _ (zeros_length 80)]
  simp only [asI64_asU64 h5, tsSide_tag]
  rfl

/-- The type of an event as a number. -/
def typeOf : Event → Nat
  | .fill _ => 0
  | .out _ => 1

/-- A node as the library holds it. -/
def heapEntry (n : EventNode) : EventNodeAcct :=
  { next := n.next, prev := n.prev, eventType := typeOf n.event, padding := (eventBytes n.event).drop 1 }

theorem eventBytes_split (e : Event) : eventBytes e = le 1 (typeOf e) ++ (eventBytes e).drop 1 := by
  cases e <;> rfl

theorem bytesField_append (k : Nat) (A r : Bytes) (h : A.length = k) : bytesField k (A ++ r) = .ok (A, r) := by
  unfold bytesField
  rw [if_pos (by rw [List.length_append]; omega), take_at _ _ _ h, drop_at _ _ _ h]

theorem decodeEventNode_bytes (n : EventNode) (r : Bytes) (h1 : n.next < 2 ^ 16) (h2 : n.prev < 2 ^ 16) :
    decodeEventNode (eventNodeBytes n ++ r) = .ok (heapEntry n, r) := by
  unfold decodeEventNode eventNodeBytes
  rw [eventBytes_split]
  simp only [List.append_assoc]
  rw [field_le 2 _ _ (by omega)]
  simp only [bind, Except.bind]
  rw [field_le 2 _ _ (by omega)]
  simp only
  rw [field_skip 4 _ _ (zeros_length 4)]
  simp only
  rw [field_le 1 _ _ (by cases n.event <;> simp [typeOf])]
  simp only
  rw [bytesField_append 143 _ _ (by rw [List.length_drop, eventBytes_length])]
  rfl

theorem decodeEventNodes_bytes (ns : List EventNode) (r : Bytes) (h : ∀ n ∈ ns, n.next < 2 ^ 16 ∧ n.prev < 2 ^ 16) :
    decodeEventNodes ns.length (ns.flatMap eventNodeBytes ++ r) = .ok (ns.map heapEntry) := by
  induction ns with
  | nil => rfl
  | cons n ns ih =>
    rw [List.length_cons, List.flatMap_cons, List.append_assoc]
    unfold decodeEventNodes
    rw [decodeEventNode_bytes n _ (h n (by simp)).1 (h n (by simp)).2]
    simp only [bind, Except.bind]
    rw [ih (fun x hx => h x (List.mem_cons_of_mem _ hx))]
    rfl

/-- The heap as the library holds it. -/
def heapAcct (h : EventHeap) : HeapAcct :=
  { freeHead := h.freeHead, usedHead := h.usedHead, count := h.count, seqNum := h.seqNum,
    nodes := (List.range maxNumEvents).map (fun i => heapEntry (h.nodes i)) }

theorem decodeHeap_bytes (disc : Bytes) (h : EventHeap) (hd : disc.length = 8) (hf : HeapFits h) :
    decodeHeap (eventHeapBytes disc h) = .ok (heapAcct h) := by
  obtain ⟨⟨h1, h2, h3, h4⟩, hn⟩ := hf
  unfold decodeHeap eventHeapBytes
  rw [drop_at _ _ 8 hd, field_le 2 _ _ (by omega)]
  simp only [bind, Except.bind]
  rw [field_le 2 _ _ (by omega)]
  simp only
  rw [field_le 2 _ _ (by omega)]
  simp only
  rw [field_skip 2 _ _ (zeros_length 2)]
  simp only
  rw [field_le 8 _ _ (by omega)]
  simp only
  have e : (List.range maxNumEvents).flatMap (fun i => eventNodeBytes (h.nodes i)) =
      ((List.range maxNumEvents).map h.nodes).flatMap eventNodeBytes := by rw [List.flatMap_map]
  have l : ((List.range maxNumEvents).map h.nodes).length = 600 := by simp [maxNumEvents]
  rw [e]
  have key := decodeEventNodes_bytes ((List.range maxNumEvents).map h.nodes) (zeros 64) (by
    intro n hn'
    obtain ⟨i, hi, rfl⟩ := List.mem_map.mp hn'
    have := hn i (List.mem_range.mp hi)
    exact ⟨this.1, this.2.1⟩)
  rw [l] at key
  rw [key]
  simp only [List.map_map]
  rfl

theorem clientEvent_entry (n : EventNode) (h : eventFits n.event) : clientEvent (heapEntry n) = .ok n.event := by
  unfold clientEvent typesDecode heapEntry
  cases e : n.event with
  | fill f =>
    rw [e] at h
    simp only [typeOf, eventBytes, decide_true, if_true, decodeFill_bytes 0 f h]
    rfl
  | out o =>
    rw [e] at h
    simp only [typeOf, eventBytes, decodeOut_bytes 0 o h]
    rfl

theorem heapAcct_node {h : EventHeap} {i : Nat} (hi : i < maxNumEvents) : (heapAcct h).nodes[i]? = some (heapEntry (h.nodes i)) := by
  unfold heapAcct
  simp [hi]

theorem rawNodes_path {h : EventHeap} : ∀ (n i : Nat) (slots : List Nat), h.iterFrom n i = .ok slots →
    rawNodes (heapAcct h) n i = .ok (slots.map (fun x => heapEntry (h.nodes x)))
  | 0, i, slots, hs => by
    unfold EventHeap.iterFrom at hs
    cases hs
    rfl
  | n + 1, i, slots, hs => by
    unfold EventHeap.iterFrom at hs
    rw [bind_ok] at hs
    obtain ⟨nd, hg, hs⟩ := hs
    rw [bind_ok] at hs
    obtain ⟨r, hr, hs⟩ := hs
    cases hs
    unfold EventHeap.get at hg
    simp only [bind_ok, assertR, req_ok, pure_ok] at hg
    obtain ⟨_, hi, rfl⟩ := hg
    unfold rawNodes
    rw [heapAcct_node hi]
    simp only [heapEntry]
    rw [rawNodes_path n _ r hr]
    rfl

theorem parseNodes_kept (ns : List EventNode) (h : ∀ n ∈ ns, eventFits n.event) :
    parseNodes .coder (ns.map heapEntry) = .ok (ns.map (·.event)) := by
  induction ns with
  | nil => rfl
  | cons n ns ih =>
    have hn := h n (by simp)
    rw [List.map_cons, List.map_cons]
    unfold parseNodes
    rw [ih (fun x hx => h x (List.mem_cons_of_mem _ hx))]
    unfold typesDecode heapEntry
    cases e : n.event with
    | fill f =>
      rw [e] at hn
      simp only [typeOf, eventBytes, decide_true, if_true, decodeFill_bytes _ f hn, true_or]
      rfl
    | out o =>
      rw [e] at hn
      simp only [typeOf, eventBytes, decodeOut_bytes _ o hn]
      rfl

theorem parseNodes_lost (n : EventNode) (ns : List EventNodeAcct) : parseNodes .lost (heapEntry n :: ns) = .error .undefined := by
  unfold parseNodes typesDecode heapEntry
  cases n.event <;> rfl

end OB.Ts
