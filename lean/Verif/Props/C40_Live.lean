import Verif.Proofs.Live
import Verif.Props.Scenario
/-!
C40  Consuming and cancelling never get stuck.
-/
namespace OB
open Spec

/-- No counter of traded volume or fees has reached half of its range of 128 bits.  (A single fill adds less than 2^63.) -/
def CountersLow (s : State) : Prop :=
  s.g.market.makerVolume < 2 ^ 127 ∧ s.g.market.feesAccrued < 2 ^ 127 ∧
  ∀ k a, s.g.accts.get? k = some a → a.position.makerVolume < 2 ^ 127

theorem queued_open {s : State} (hr : Reachable s) (h : s.g.heap.events ≠ []) : s.closed = false := by
  by_contra hc
  exact h ((reachable_Extra hr).closed (by simpa using hc)).2

/-- `consume_events` succeeds, whatever limit and accounts are given. -/
theorem C40_consume_events (s : State) (hr : Reachable s) (hc : CountersLow s) (hq : s.g.heap.events ≠ []) (limit : Nat) (rem : List Pubkey) :
    ∃ s', step s (.consumeEvents s.g.market.consumeEventsAdmin limit rem) = .ok s' :=
  consumeEvents_ok (reachable_Inv hr) (reachable_Extra hr) (queued_open hr hq) (fun _ h => by cases h) hc.2.2 hc.1 hc.2.1

/-- The head event is delivered when its account is supplied. -/
theorem C40_consume_head (s : State) (hr : Reachable s) (hc : CountersLow s) (e : Event) (es : List Event)
    (hq : s.g.heap.events = e :: es) (rem : List Pubkey) (hrem : eventAccount e ∈ rem) :
    ∃ s', step s (.consumeEvents s.g.market.consumeEventsAdmin 1 rem) = .ok s' ∧ s'.g.heap.events = es ∧ Delivered s s' [e] := by
  obtain ⟨s', h⟩ := C40_consume_events s hr hc (by rw [hq]; simp) 1 rem
  obtain ⟨h1, h2⟩ := consumeEvents_front (reachable_Inv hr) h
  rw [hq] at h1 h2
  refine ⟨s', h, ?_, ?_⟩
  · simpa [hrem] using h1
  · simpa [hrem] using h2

/-- `consume_given_events` succeeds for every list of slot numbers in range, used or not. -/
theorem C40_consume_given (s : State) (hr : Reachable s) (hc : CountersLow s) (hq : s.g.heap.events ≠ []) (slots : List Nat)
    (hs : ∀ i ∈ slots, i < 600) (rem : List Pubkey) :
    ∃ s', step s (.consumeGivenEvents s.g.market.consumeEventsAdmin slots rem) = .ok s' := by
  obtain ⟨s', h⟩ := consumeEvents_ok (slots := slots) (limit := slots.length) (rem := rem) (reachable_Inv hr) (reachable_Extra hr)
    (queued_open hr hq) hs hc.2.2 hc.1 hc.2.1
  refine ⟨s', ?_⟩
  simp only [step, consumeGivenEvents, bind_ok, req_ok]
  exact ⟨(), List.all_eq_true.mpr (fun i hi => decide_eq_true (hs i hi)), h⟩

/-- Every resting order can be cancelled by the owner or delegate of its account (who cannot be the address derived for the
market's vaults, for which nobody can sign), as long as less than 2^63 orders were posted. -/
theorem C40_cancel_order (s : State) (hr : Reachable s) (hn : s.g.market.seqNum < 2 ^ 63) (x : Side × Comp × LeafNode)
    (hx : x ∈ s.book.resting) (signer : Pubkey) (hs : Controls s signer x.2.2.owner) (hna : signer ≠ s.g.market.marketAuthority) :
    ∃ s', step s (.cancelOrder signer x.2.2.owner x.2.2.key) = .ok s' ∧ Cancels s s' x.2.2.owner [x] := by
  obtain ⟨s', h, hp⟩ := cancelOrderIx_ok (reachable_Inv hr) (reachable_Extra hr) hx hs hna hn
  refine ⟨s', h, ?_⟩
  obtain ⟨y, _, hc, _⟩ := cancelOrderIx_full (reachable_Inv hr) h
  have hyx : y = x := by
    classical
    have := (hc.book.symm.trans hp).count_eq y
    by_contra hne
    rw [List.singleton_append, List.count_cons_self, List.count_cons_of_ne (Ne.symm hne)] at this
    omega
  rw [hyx] at hc
  exact hc

/-- The same by client order id; this also works beyond 2^63 orders.  The instruction adds up the cancelled lots in 64 bits, hence
the bound on what the account has in the book. -/
theorem C40_cancel_by_client_id (s : State) (hr : Reachable s) (x : Side × Comp × LeafNode) (hx : x ∈ s.book.resting) (signer : Pubkey)
    (hs : Controls s signer x.2.2.owner) (hna : signer ≠ s.g.market.marketAuthority)
    (hl : ∀ a, s.g.accts.get? x.2.2.owner = some a → a.position.bidsBaseLots + a.position.asksBaseLots < 2 ^ 63) :
    ∃ s' ls, step s (.cancelByClientId signer x.2.2.owner x.2.2.clientOrderId) = .ok s' ∧ Cancels s s' x.2.2.owner ls ∧ x ∈ ls := by
  have hcl : s.closed = false := by
    by_contra hc
    rw [((reachable_Extra hr).closed (by simpa using hc)).1] at hx; cases hx
  have hs' := hs
  obtain ⟨a, ha, _⟩ := hs
  have hla := hl a ha
  obtain ⟨q, s', h⟩ := cancelAllFor_ok (limit := 255) (so := none) (co := some x.2.2.clientOrderId) (reachable_Inv hr) (reachable_Extra hr) ha
    (by have : i64Max = 2 ^ 63 - 1 := by decide
        omega)
  obtain ⟨ls, c1, c2, c3, c4, _⟩ := cancelAllFor_full (reachable_Inv hr) (reachable_Extra hr) h
  refine ⟨s', ls, ?_, c1, ?_⟩
  · simp only [step, cancelByClientId, authCancel, State.open?, signerOk, bind_ok, req_ok, pure_ok, Accts.get_ok]
    exact ⟨_, ⟨a, ⟨(), hcl, (), hna, a, ha, (), controls_owner ha hs', rfl⟩, h⟩, rfl⟩
  · rcases List.mem_append.mp (c1.book.mem_iff.mp hx) with hm | hm
    · exact hm
    · exact absurd ⟨rfl, fun _ h => (by cases h), fun _ h => (by injection h)⟩ (c4 (by omega) x hm)

/-- A state with two fills queued, and four orders resting, in which the counters are low. -/
example : ∃ s : State, Reachable s ∧ CountersLow s ∧ s.g.heap.events.length = 2 ∧ s.g.market.seqNum < 2 ^ 63 ∧ s.book.resting.length = 4 ∧
    Controls s 31 41 ∧ (31 : Pubkey) ≠ s.g.market.marketAuthority := by
  obtain ⟨s, h1, h2⟩ := Scenario.exec_spec (a := Scenario.args) (ops := Scenario.ops1) (p := fun s =>
    decide (s.g.market.makerVolume < 2 ^ 127 ∧ s.g.market.feesAccrued < 2 ^ 127 ∧ (∀ x ∈ s.g.accts, x.2.position.makerVolume < 2 ^ 127) ∧
      s.g.heap.events.length = 2 ∧ s.g.market.seqNum < 2 ^ 63 ∧ s.book.resting.length = 4 ∧
      ((s.g.accts.get? 41).map (fun a => a.owner) = some 31) ∧ 31 ≠ s.g.market.marketAuthority)) (by decide +kernel)
  obtain ⟨a1, a2, a3, a4, a5, a6, a7, a8⟩ := of_decide_eq_true h2
  refine ⟨s, h1, ⟨a1, a2, fun k a ha => a3 (k, a) (by obtain ⟨_, _, h, _⟩ := Accts.split ha; rw [h]; simp)⟩, a4, a5, a6, ?_, a8⟩
  cases ha : s.g.accts.get? 41 with
  | none => rw [ha] at a7; cases a7
  | some a => rw [ha] at a7; injection a7 with a7; exact ⟨a, ha, .inl a7.symm⟩

end OB
