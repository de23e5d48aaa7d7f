import Verif.Proofs.ConsumeIx
import Verif.Props.Scenario
/-!
C22  Consuming events delivers each fill exactly once.
-/
namespace OB
open Spec

/-- `consume_events`: of the first min(limit, 8) events exactly those whose account was supplied are delivered, once each, and
removed; all other events stay in the queue, in order.  Delivery changes neither deposit totals nor any token account
(`Delivered`). -/
theorem C22_consume_events (s s' : State) (hr : Reachable s) (admin : Pubkey) (limit : Nat) (rem : List Pubkey)
    (h : step s (.consumeEvents admin limit rem) = .ok s') :
    s'.g.heap.events = (s.g.heap.events.take (min limit 8)).filter (fun e => eventAccount e ∉ rem) ++ s.g.heap.events.drop (min limit 8) ∧
    Delivered s s' ((s.g.heap.events.take (min limit 8)).filter (fun e => eventAccount e ∈ rem)) :=
  consumeEvents_front (reachable_Inv hr) h

/-- `consume_given_events`: at most min(number of slots given, 8) distinct slots are processed, all of them in use; they are exactly
the given ones if these are at most 8, different and in use (otherwise the front of the queue fills the list up).  The events in
these slots whose account was supplied are delivered, once each, and removed; every other event stays in its slot and in order. -/
theorem C22_consume_given_events (s s' : State) (hr : Reachable s) (admin : Pubkey) (slots : List Nat) (rem : List Pubkey)
    (h : step s (.consumeGivenEvents admin slots rem) = .ok s') :
    ∃ sel : List Nat, sel.Nodup ∧ sel.length ≤ min slots.length 8 ∧ (∀ i ∈ sel, (s.g.heap.atSlot i).isSome) ∧
      (slots.Nodup → (∀ i ∈ slots, (s.g.heap.atSlot i).isSome) → slots.length ≤ 8 → sel = slots) ∧
      (∀ i e, s'.g.heap.atSlot i = some e ↔ s.g.heap.atSlot i = some e ∧ ¬ (i ∈ sel ∧ eventAccount e ∈ rem)) ∧
      s'.g.heap.events.Sublist s.g.heap.events ∧
      s.g.heap.events.Perm ((sel.filterMap s.g.heap.atSlot).filter (fun e => eventAccount e ∈ rem) ++ s'.g.heap.events) ∧
      Delivered s s' ((sel.filterMap s.g.heap.atSlot).filter (fun e => eventAccount e ∈ rem)) := by
  simp only [step, consumeGivenEvents, bind_ok, req_ok] at h
  obtain ⟨_, hall, h⟩ := h
  obtain ⟨sel, h1, h2, h3, h4, h5, h6, h7, h8⟩ := consumeEvents_given (reachable_Inv hr)
    (fun i hi => by simpa using List.all_eq_true.mp hall i hi) h
  exact ⟨sel, h1, h2, h3, fun a b c => h4 a b rfl c, h5, h6, h7, h8⟩

/-- Two fills are queued, for the accounts 42 and 41; the one for 41 is consumed, the other one stays. -/
example : ∃ s s' : State, Reachable s ∧ step s (.consumeEvents 0 8 [41]) = .ok s' ∧
    s.g.heap.events.map eventAccount = [42, 41] ∧ s'.g.heap.events.map eventAccount = [42] ∧
    freeQuote s 41 < freeQuote s' 41 ∧ freeQuote s 42 = freeQuote s' 42 := by
  obtain ⟨s, s', h1, h2, h3⟩ := Scenario.step_spec (a := Scenario.args) (ops := Scenario.ops1) (op := .consumeEvents 0 8 [41])
    (p := fun s s' => decide (s.g.heap.events.map eventAccount = [42, 41] ∧ s'.g.heap.events.map eventAccount = [42] ∧
    freeQuote s 41 < freeQuote s' 41 ∧ freeQuote s 42 = freeQuote s' 42)) (by decide +kernel)
  exact ⟨s, s', h1, h2, of_decide_eq_true h3⟩

/-- The second slot alone is consumed. -/
example : ∃ s s' : State, Reachable s ∧ step s (.consumeGivenEvents 0 [1] [41, 42]) = .ok s' ∧
    s.g.heap.events.map eventAccount = [42, 41] ∧ s'.g.heap.events.map eventAccount = [42] := by
  obtain ⟨s, s', h1, h2, h3⟩ := Scenario.step_spec (a := Scenario.args) (ops := Scenario.ops1) (op := .consumeGivenEvents 0 [1] [41, 42])
    (p := fun s s' => decide (s.g.heap.events.map eventAccount = [42, 41] ∧ s'.g.heap.events.map eventAccount = [42])) (by decide +kernel)
  exact ⟨s, s', h1, h2, of_decide_eq_true h3⟩

end OB
