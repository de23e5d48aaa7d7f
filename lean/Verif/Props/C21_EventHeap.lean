import Verif.Proofs.Heap
import Verif.Spec.Queue
/-!
C21  The event heap is a FIFO queue with random deletion.

Any sequence of pushes, pops and slot deletions on a freshly initialised heap is a run of the specification queue of
capacity 600 with the same results; the observers (`len`, `front`, `at_slot`, `iter`) show exactly the queue.  The sequence
counter is a u64, so the run is limited to fewer than 2^64 operations.
-/
namespace OB
open Spec

/-- One operation on the heap; a failing operation leaves it unchanged. -/
def heapStep (h : EventHeap) : QOp Event → QOut Event × EventHeap
  | .push e => match h.pushBack e with
    | .ok h' => (.pushed, h')
    | .error _ => (.rejected, h)
  | .pop => match h.popFront with
    | .ok (e, h') => (.event e, h')
    | .error _ => (.rejected, h)
  | .delete s => match h.deleteSlot s with
    | .ok (e, h') => (.event e, h')
    | .error _ => (.rejected, h)

def heapRun (h : EventHeap) : List (QOp Event) → List (QOut Event) × EventHeap
  | [] => ([], h)
  | op :: ops =>
    let (o, h') := heapStep h op
    let (os, h'') := heapRun h' ops
    (o :: os, h'')

theorem heapStep_spec {h : EventHeap} {q : List (Nat × Event)} (hr : HeapRep h q) (op : QOp Event)
    (hs : h.seqNum < 18446744073709551615) :
    ∃ q', QStep maxNumEvents q op (heapStep h op).1 q' ∧ HeapRep (heapStep h op).2 q' ∧
      (heapStep h op).2.seqNum ≤ h.seqNum + 1 := by
  cases op with
  | push e =>
    by_cases hl : q.length = maxNumEvents
    · refine ⟨q, ?_, ?_, ?_⟩ <;> simp only [heapStep, pushBack_full hr e hl]
      · exact .pushFull q e hl
      · exact hr
      · omega
    · obtain ⟨h', s, h1, h2, h3, h4, h5⟩ := pushBack_spec hr e (by have := hr.length_le; omega) hs
      refine ⟨q ++ [(s, e)], ?_, ?_, ?_⟩ <;> simp only [heapStep, h1]
      · exact .push q e s (by have := hr.length_le; omega) h2 h3
      · exact h4
      · omega
  | pop =>
    cases q with
    | nil =>
      refine ⟨[], ?_, ?_, ?_⟩ <;> simp only [heapStep, popFront_empty hr]
      · exact .popEmpty
      · exact hr
      · omega
    | cons x q =>
      obtain ⟨h', h1, h2, h3⟩ := popFront_spec (s := x.1) (e := x.2) hr
      refine ⟨q, ?_, ?_, ?_⟩ <;> simp only [heapStep, h1]
      · exact .pop x.1 x.2 q
      · exact h2
      · omega
  | delete s =>
    by_cases hm : s ∈ q.map (·.1)
    · obtain ⟨x, hx, rfl⟩ := List.mem_map.mp hm
      obtain ⟨A, B, rfl⟩ := List.append_of_mem hx
      obtain ⟨h', h1, h2, h3⟩ := deleteSlot_spec (s := x.1) (e := x.2) hr
      refine ⟨A ++ B, ?_, ?_, ?_⟩ <;> simp only [heapStep, h1]
      · exact .delete A B x.1 x.2
      · exact h2
      · omega
    · refine ⟨q, ?_, ?_, ?_⟩ <;> simp only [heapStep, deleteSlot_fail hr hm]
      · exact .deleteMissing q s hm
      · exact hr
      · omega

theorem heapRun_spec {h : EventHeap} {q : List (Nat × Event)} (hr : HeapRep h q) (ops : List (QOp Event))
    (hs : h.seqNum + ops.length < 18446744073709551616) :
    ∃ q', QRun maxNumEvents q ops (heapRun h ops).1 q' ∧ HeapRep (heapRun h ops).2 q' := by
  induction ops generalizing h q with
  | nil => exact ⟨q, .nil q, hr⟩
  | cons op ops ih =>
    simp only [List.length_cons] at hs
    obtain ⟨q1, h1, h2, h3⟩ := heapStep_spec hr op (by omega)
    obtain ⟨q2, h4, h5⟩ := ih h2 (by omega)
    exact ⟨q2, .cons h1 h4, h5⟩

theorem C21_event_heap_is_fifo_queue (ops : List (QOp Event)) (hn : ops.length < 2 ^ 64) :
    ∃ q : List (Nat × Event),
      -- the results of the operations are those of the specification queue, which ends in `q`
      QRun 600 [] ops (heapRun .init ops).1 q ∧
      -- and every observer shows `q`
      (heapRun .init ops).2.len = q.length ∧
      (heapRun .init ops).2.front = .ok (q.head?.map (·.2)) ∧
      (heapRun .init ops).2.iterSlots = .ok (q.map (·.1)) ∧
      ∀ s e, (heapRun .init ops).2.atSlot s = some e ↔ (s, e) ∈ q := by
  obtain ⟨q, h1, h2⟩ := heapRun_spec heapRep_init ops (by simp [EventHeap.init]; omega)
  exact ⟨q, h1, h2.count, front_spec h2, iterSlots_spec h2, fun s e => atSlot_some h2⟩

/-- A push on a heap that is not full succeeds, after any history; freed slots are reusable forever. -/
theorem C21_push_succeeds (ops : List (QOp Event)) (hn : ops.length + 1 < 2 ^ 64) (e : Event)
    (hf : (heapRun .init ops).2.len < 600) : ∃ h', (heapRun .init ops).2.pushBack e = .ok h' := by
  obtain ⟨q, h1, h2⟩ := heapRun_spec heapRep_init ops (by simp [EventHeap.init]; omega)
  have hseq : ∀ (ops : List (QOp Event)) (h : EventHeap) (q : List (Nat × Event)), HeapRep h q →
      h.seqNum + ops.length < 18446744073709551616 → (heapRun h ops).2.seqNum ≤ h.seqNum + ops.length := by
    intro ops
    induction ops with
    | nil => intro h q _ _; simp [heapRun]
    | cons op ops ih =>
      intro h q hr hs
      simp only [List.length_cons] at hs ⊢
      obtain ⟨q1, _, h2, h3⟩ := heapStep_spec hr op (by omega)
      have := ih _ _ h2 (by omega)
      simp only [heapRun]; omega
  have hle := hseq ops .init [] heapRep_init (by simp [EventHeap.init]; omega)
  simp only [EventHeap.init] at hle
  have hl : q.length < maxNumEvents := by
    have := h2.count; unfold EventHeap.len at hf; unfold maxNumEvents; omega
  obtain ⟨h', _, h3, _⟩ := pushBack_spec h2 e hl (by simp only [EventHeap.init]; omega)
  exact ⟨h', h3⟩

/-- Two events pushed, the first deleted by slot, one more pushed, then popped in order. -/
example : let f (n : Nat) : Event := .out ⟨.bid, n, 0, 0, 0, 1⟩
    (heapRun .init [.push (f 1), .push (f 2), .push (f 3), .delete 1, .push (f 4), .pop, .pop, .pop, .pop]).1 =
      [.pushed, .pushed, .pushed, .event (f 2), .pushed, .event (f 1), .event (f 3), .event (f 4), .rejected] := by decide

end OB
