import Verif.Proofs.TsEvents
import Verif.Proofs.TsBalance
import Verif.Props.C79_TsConsume
/-!
C84  Events are read back from the account data as they were recorded, by the program and by the TypeScript library.
-/
namespace OB
open Spec Layout

/-- The program reads back the event that it wrote: no field is lost, cut off or mixed up with another, and a fill is never taken for an
out or the other way round. -/
theorem C84_program (e : Event) (h : eventFits e) : readEvent (eventBytes e) = .ok e := readEvent_bytes e h

/-- All events take the same room, as the array of nodes needs. -/
theorem C84_size (e : Event) : (eventBytes e).length = 144 := eventBytes_length e

/-- Different events have different bytes. -/
theorem C84_injective (e e' : Event) (h : eventFits e) (h' : eventFits e') (hb : eventBytes e = eventBytes e') : e = e' := by
  have h1 := readEvent_bytes e h
  rw [hb, readEvent_bytes e' h'] at h1
  injection h1 with h1
  exact h1.symm

/-- The zeroed data of a new account is read as the event that the model puts into the nodes of a new heap. -/
theorem C84_zeroed : zeros 144 = eventBytes Event.zero ∧ readEvent (zeros 144) = .ok Event.zero :=
  ⟨by decide +kernel, by
    rw [show zeros 144 = eventBytes Event.zero by decide +kernel]
    exact readEvent_bytes _ (by decide)⟩

/-- Bytes of neither kind of event are refused, not misread. -/
theorem C84_refused (b : Bytes) (h : 2 ≤ at' 1 0 b) : readEvent b = .error .someError := by
  unfold readEvent
  split
  · omega
  · omega
  · rfl

/-- The library decodes each node of the account, used or free, to its links and its event. -/
theorem C84_nodes {h : EventHeap} (hf : HeapFits h) {x : Ts.HeapAcct} (hx : HoldsHeap h x) :
    x.count = h.count ∧ x.usedHead = h.usedHead ∧ x.nodes.length = 600 ∧
    ∀ i < 600, ∃ n, x.nodes[i]? = some n ∧ n.next = (h.nodes i).next ∧ n.prev = (h.nodes i).prev ∧
      Ts.clientEvent n = .ok (h.nodes i).event := by
  obtain ⟨disc, hd, hx⟩ := hx
  rw [Ts.decodeHeap_bytes disc h hd hf] at hx
  injection hx with hx
  subst hx
  refine ⟨rfl, rfl, by simp [Ts.heapAcct, maxNumEvents], fun i hi => ?_⟩
  exact ⟨_, Ts.heapAcct_node hi, rfl, rfl, Ts.clientEvent_entry _ (hf.nodes i hi).2.2⟩

/-- The account data can always be decoded. -/
theorem C84_holds {h : EventHeap} (hf : HeapFits h) : ∃ x, HoldsHeap h x :=
  ⟨_, List.replicate 8 0, by simp, Ts.decodeHeap_bytes _ h (by simp) hf⟩

theorem parse_path {s : State} (hr : Reachable s) {x : Ts.HeapAcct} (hf : HeapFits s.g.heap) (hx : HoldsHeap s.g.heap x) :
    ∃ slots : List Nat, Ts.rawNodes x x.count x.usedHead = .ok ((slots.map s.g.heap.nodes).map Ts.heapEntry) ∧
      slots.map (fun i => (s.g.heap.nodes i).event) = s.g.heap.events ∧ ∀ i ∈ slots, i < maxNumEvents := by
  obtain ⟨disc, hd, hx⟩ := hx
  rw [Ts.decodeHeap_bytes disc _ hd hf] at hx
  injection hx with hx
  subst hx
  obtain ⟨O, q, hw⟩ := (reachable_Inv hr).core.linv
  have h1 := iterSlots_spec hw.heap
  unfold EventHeap.iterSlots at h1
  have h2 := Ts.rawNodes_path _ _ _ h1
  refine ⟨q.map (·.1), ?_, ?_, ?_⟩
  · rw [List.map_map]
    exact h2
  · rw [hw.heap.events, List.map_map]
    obtain ⟨fr, hq⟩ := hw.heap
    exact List.map_congr_left (fun y hy => hq.ev y hy)
  · obtain ⟨fr, hq⟩ := hw.heap
    exact fun i hi => hq.lt i (List.mem_append_left _ hi)

/-- The full claim for the queue: `parsedEvents` gives the events of the queue, the oldest first. -/
def C84_queue_full : Prop :=
  ∀ (s : State) (x : Ts.HeapAcct), Reachable s → HeapFits s.g.heap → HoldsHeap s.g.heap x →
    Ts.parsedEventsOf x = .ok s.g.heap.events

/-- It would, if line 26 of accounts/eventHeap.ts did not take the method `decode` out of its object. -/
theorem C84_queue_partial {s : State} (hr : Reachable s) {x : Ts.HeapAcct} (hf : HeapFits s.g.heap) (hx : HoldsHeap s.g.heap x) :
    Ts.parsedEventsWith .coder x = .ok s.g.heap.events := by
  obtain ⟨slots, h1, h2, h3⟩ := parse_path hr hf hx
  unfold Ts.parsedEventsWith
  rw [h1]
  simp only [bind, Except.bind]
  rw [Ts.parseNodes_kept _ (by
    intro n hn
    obtain ⟨i, hi, rfl⟩ := List.mem_map.mp hn
    exact (hf.nodes i (h3 i hi)).2.2), List.map_map]
  exact congrArg _ h2

/-- As it is, it throws whenever an event is queued. -/
theorem C84_queue_throws {s : State} (hr : Reachable s) {x : Ts.HeapAcct} (hf : HeapFits s.g.heap) (hx : HoldsHeap s.g.heap x) :
    Ts.parsedEventsOf x = if s.g.heap.events = [] then .ok [] else .error .undefined := by
  obtain ⟨slots, h1, h2, h3⟩ := parse_path hr hf hx
  unfold Ts.parsedEventsOf Ts.parsedEventsWith
  rw [h1]
  simp only [bind, Except.bind]
  cases slots with
  | nil =>
    rw [if_pos (show s.g.heap.events = [] from h2.symm)]
    rfl
  | cons i is =>
    rw [if_neg (by rw [← h2]; simp)]
    exact Ts.parseNodes_lost _ _

/-- The keys that `getAccountsToConsume` and `getSlotsToConsume` take from a node are those of its event (what C79 starts from). -/
theorem C84_key {h : EventHeap} (hf : HeapFits h) {x : Ts.HeapAcct} (hx : HoldsHeap h x) (i : Nat) (hi : i < 600) (next : Nat) :
    ∃ n e, x.nodes[i]? = some n ∧ Ts.clientEvent n = .ok e ∧ (Ts.eventKey next e).key = eventAccount (h.nodes i).event := by
  obtain ⟨_, _, _, h4⟩ := C84_nodes hf hx
  obtain ⟨n, h5, _, _, h6⟩ := h4 i hi
  refine ⟨n, _, h5, h6, ?_⟩
  cases (h.nodes i).event <;> rfl

namespace EventBytesCase
open Scenario

/-- Enough to see that a heap fits. -/
def fitsB (h : EventHeap) : Bool :=
  decide (h.freeHead < 2 ^ 16 ∧ h.usedHead < 2 ^ 16 ∧ h.count < 2 ^ 16 ∧ h.seqNum < 2 ^ 64) &&
  (List.range maxNumEvents).all (fun i => decide ((h.nodes i).next < 2 ^ 16 ∧ (h.nodes i).prev < 2 ^ 16 ∧ eventFits (h.nodes i).event))

theorem fitsB_spec {h : EventHeap} (hb : fitsB h = true) : HeapFits h := by
  unfold fitsB at hb
  rw [Bool.and_eq_true] at hb
  exact ⟨of_decide_eq_true hb.1, fun i hi => of_decide_eq_true (List.all_eq_true.mp hb.2 i (List.mem_range.mpr hi))⟩

theorem state : ∃ s, Reachable s ∧ HeapFits s.g.heap ∧ s.g.heap.events.length = 2 := by
  obtain ⟨s, h1, h2⟩ := exec_spec (a := args) (ops := ops1) (p := fun s => fitsB s.g.heap && decide (s.g.heap.events.length = 2)) (by decide +kernel)
  rw [Bool.and_eq_true] at h2
  exact ⟨s, h1, fitsB_spec h2.1, of_decide_eq_true h2.2⟩

end EventBytesCase

theorem C84_queue_false : ¬ C84_queue_full := by
  intro H
  obtain ⟨s, h1, h2, h3⟩ := EventBytesCase.state
  obtain ⟨x, hx⟩ := C84_holds h2
  have h4 := H s x h1 h2 hx
  rw [C84_queue_throws h1 h2 hx, if_neg (by intro h; rw [h] at h3; cases h3)] at h4
  cases h4

/-- A market with two queued events: they are read as they are, once `decode` is left in its object. -/
example : ∃ s x, Reachable s ∧ HeapFits s.g.heap ∧ HoldsHeap s.g.heap x ∧ s.g.heap.events.length = 2 ∧
    Ts.parsedEventsWith .coder x = .ok s.g.heap.events ∧ Ts.parsedEventsOf x = .error .undefined := by
  obtain ⟨s, h1, h2, h3⟩ := EventBytesCase.state
  obtain ⟨x, hx⟩ := C84_holds h2
  refine ⟨s, x, h1, h2, hx, h3, C84_queue_partial h1 h2 hx, ?_⟩
  rw [C84_queue_throws h1 h2 hx, if_neg (by intro h; rw [h] at h3; cases h3)]

/-- Events with all fields used. -/
example : eventFits (.fill ⟨.ask, true, 17, 1700000000, 2 ^ 60, 2 ^ 255 + 1, 1600000000, 2 ^ 254 + 3, 2 ^ 64 - 1, 123456, -1, 77, 42⟩) ∧
    eventFits (.out ⟨.ask, 255, 1700000000, 5, 2 ^ 255 + 1, 1⟩) := by decide

end OB
