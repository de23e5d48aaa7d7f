import Verif.Proofs.TsBalance
import Verif.Props.Scenario
/-!
C76  The TypeScript library reports the balance of an account.

`getBalanceNative` (Model/Ts) adds what the account shows as free and as locked and means to correct it by the fills that wait in the
queue.  It looks for fills whose maker is the owner of the account; but the maker named in a fill is the open orders account.  So the
queue never makes a difference (C76_ignores_queue), and the balance is right only if no fill of the account is waiting
(C76_balance_partial); otherwise it is off by exactly these fills (C76_error, C76_wrong).
-/
namespace OB
open Spec

/-- The library reads the events of the queue, oldest first. -/
theorem C76_queue {s : State} (hr : Reachable s) : Ts.parsedEvents s.g.heap = .ok s.g.heap.events := by
  obtain ⟨O, q, hw⟩ := (reachable_Inv hr).core.linv
  exact Ts.parsedEvents_spec hw.heap

/-- The balance with the queue loaded: free and locked, and the fills whose maker is the owner. -/
theorem C76_formula {s : State} (hr : Reachable s) (a : OOA) :
    Ts.getBalanceNative s.g.market a (some s.g.heap) = .ok
      (a.position.asksBaseLots * s.g.market.baseLotSize + a.position.baseFreeNative +
          total (s.g.heap.events.filter (madeBy a.owner)) (queuedBase s.g.market),
       a.position.bidsQuoteLots * s.g.market.quoteLotSize + a.position.quoteFreeNative + a.position.lockedMakerFees +
          total (s.g.heap.events.filter (madeBy a.owner))
            (fun e => match e with
              | .fill f => (if f.takerSide = .ask then -fillQuote s.g.market f else fillQuote s.g.market f) -
                  (fillQuote s.g.market f * s.g.market.makerFee).tdiv 1000000
              | .out _ => 0)) := by
  unfold Ts.getBalanceNative
  simp only [C76_queue hr, bind, Except.bind, pure, Except.pure]
  rw [Ts.foldl_balance]
  congr 2
  · congr 1
    unfold total
    induction s.g.heap.events with
    | nil => rfl
    | cons e es ih =>
      rw [List.map_cons, List.sum_cons, ih, List.filter_cons]
      cases e with
      | out o => simp [Ts.addBase, madeBy]
      | fill f => by_cases h : f.maker = a.owner <;> simp [Ts.addBase, madeBy, h, queuedBase]
  · congr 1
    unfold total
    induction s.g.heap.events with
    | nil => rfl
    | cons e es ih =>
      rw [List.map_cons, List.sum_cons, ih, List.filter_cons]
      cases e with
      | out o => simp [Ts.addQuote, madeBy]
      | fill f => by_cases h : f.maker = a.owner <;> simp [Ts.addQuote, madeBy, h, Ts.makerFeeFloor]

/-- The queue makes no difference, unless the owner is itself an open orders account of the market. -/
theorem C76_ignores_queue {s : State} (hr : Reachable s) {k : Pubkey} {a : OOA} (_ha : s.g.accts.get? k = some a)
    (ho : s.g.accts.get? a.owner = none) :
    Ts.getBalanceNative s.g.market a (some s.g.heap) = Ts.getBalanceNative s.g.market a none := by
  rw [C76_formula hr]
  have : s.g.heap.events.filter (madeBy a.owner) = [] := by
    rw [List.filter_eq_nil_iff]
    intro e he hm
    cases e with
    | out o => cases hm
    | fill f =>
      obtain ⟨b, hb⟩ := Ts.maker_acct (reachable_Inv hr) he
      rw [of_decide_eq_true hm, ho] at hb
      cases hb
  rw [this]
  simp [total, Ts.getBalanceNative, pure, Except.pure]

/-- By how much the balance is off: by the trades of the account not yet delivered.  In quote the account may also have referrer
rebates, which are not its own. -/
theorem C76_error {s : State} (hr : Reachable s) {k : Pubkey} {a : OOA} (ha : s.g.accts.get? k = some a)
    (ho : s.g.accts.get? a.owner = none) :
    ∃ base quote, Ts.getBalanceNative s.g.market a (some s.g.heap) = .ok (base, quote) ∧
      dueBase s k a = base + total (eventsOf s k) (queuedBase s.g.market) ∧
      stakeQuote s k a = quote + a.position.referrerRebatesAvailable + total (eventsOf s k) (queuedWorth s.g.market) ∧
      dueQuote s k a ≤ quote + a.position.referrerRebatesAvailable + total (eventsOf s k) (queuedWorth s.g.market) := by
  rw [C76_ignores_queue hr ha ho]
  have hs : stakeQuote s k a = (a.position.bidsQuoteLots * s.g.market.quoteLotSize + a.position.quoteFreeNative + a.position.lockedMakerFees) +
      a.position.referrerRebatesAvailable + total (eventsOf s k) (queuedWorth s.g.market) := by
    unfold stakeQuote; omega
  refine ⟨_, _, rfl, Ts.dueBase_position (reachable_Inv hr) ha, hs, ?_⟩
  rw [← hs]
  exact (worth_bounds (reachable_Inv hr) ha).2.2

/-- The full claim would be: the base reported is the base due to the account.  It holds if no fill of the account waits in the queue.
Quote: what it has on the books without referrer rebates. -/
theorem C76_balance_partial {s : State} (hr : Reachable s) {k : Pubkey} {a : OOA} (ha : s.g.accts.get? k = some a)
    (ho : s.g.accts.get? a.owner = none) (hq : ∀ f, Event.fill f ∈ s.g.heap.events → f.maker ≠ k) :
    ∃ quote, Ts.getBalanceNative s.g.market a (some s.g.heap) = .ok (dueBase s k a, quote) ∧
      quote = stakeQuote s k a - a.position.referrerRebatesAvailable := by
  obtain ⟨base, quote, h1, h2, h3, _⟩ := C76_error hr ha ho
  have hz : ∀ v : Event → Int, (∀ o, v (.out o) = 0) → total (eventsOf s k) v = 0 := by
    intro v hv
    have : ∀ e ∈ eventsOf s k, v e = 0 := by
      intro e he
      unfold eventsOf at he
      obtain ⟨he, hk⟩ := List.mem_filter.mp he
      cases e with
      | out o => exact hv o
      | fill f => exact absurd (of_decide_eq_true hk) (hq f he)
    unfold total
    generalize eventsOf s k = es at this
    induction es with
    | nil => rfl
    | cons e es ih => rw [List.map_cons, List.sum_cons, this e (by simp), ih (fun x hx => this x (by simp [hx]))]; rfl
  rw [hz _ (fun _ => rfl)] at h2 h3
  rw [Int.add_zero] at h2 h3
  exact ⟨quote, by rw [h1, h2], by omega⟩

/-! ### cases -/

/-- Account 43 has traded as taker, has nothing in the queue, and its owner 33 is not an account: the hypotheses of
`C76_balance_partial`. -/
example : ∃ s a, Reachable s ∧ s.g.accts.get? 43 = some a ∧ s.g.accts.get? a.owner = none ∧
    (∀ f, Event.fill f ∈ s.g.heap.events → f.maker ≠ 43) ∧ s.g.heap.events.length = 2 ∧ 0 < dueBase s 43 a := by
  obtain ⟨s, h1, h2⟩ := Scenario.exec_spec (a := Scenario.args) (ops := Scenario.ops1)
    (p := fun s => match s.g.accts.get? 43 with
      | some a => decide (s.g.accts.get? a.owner = none ∧ (∀ e ∈ s.g.heap.events, eventAccount e ≠ 43) ∧ s.g.heap.events.length = 2 ∧
          0 < dueBase s 43 a)
      | none => false) (by decide +kernel)
  split at h2
  · next a ha =>
    obtain ⟨k1, k2, k3⟩ := of_decide_eq_true h2
    exact ⟨s, a, h1, ha, k1, fun f hf => k2 _ hf, k3⟩
  · cases h2

/-- Account 41 has sold, and the fill is not delivered yet: the base reported, with the queue at hand, still has what was sold, and the quote
reported lacks the proceeds: it is less than what is due. -/
theorem C76_wrong : ∃ s a base quote, Reachable s ∧ s.g.accts.get? 41 = some a ∧ s.g.accts.get? a.owner = none ∧
    Ts.getBalanceNative s.g.market a (some s.g.heap) = .ok (base, quote) ∧ dueBase s 41 a < base ∧ quote < dueQuote s 41 a := by
  obtain ⟨s, h1, h2⟩ := Scenario.exec_spec (a := Scenario.args) (ops := Scenario.ops1)
    (p := fun s => match s.g.accts.get? 41 with
      | some a => decide (s.g.accts.get? a.owner = none ∧
          dueBase s 41 a < a.position.asksBaseLots * s.g.market.baseLotSize + a.position.baseFreeNative ∧
          a.position.bidsQuoteLots * s.g.market.quoteLotSize + a.position.quoteFreeNative + a.position.lockedMakerFees < dueQuote s 41 a)
      | none => false) (by decide +kernel)
  split at h2
  · next a ha =>
    obtain ⟨k1, k2, k3⟩ := of_decide_eq_true h2
    exact ⟨s, a, _, _, h1, ha, k1, C76_ignores_queue h1 ha k1, k2, k3⟩
  · cases h2

end OB
