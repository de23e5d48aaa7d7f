import Verif.Proofs.LiveMultiIx
import Verif.Props.Scenario
import Verif.Props.C60_Accept
/-!
C61  A batch of orders is sized to the funds of its owner: it is never refused for lack of money, and the other reasons to refuse it
can be known beforehand.
-/
namespace OB
open Spec

/-- `place_orders` and `cancel_all_and_place_orders` (`cancel`) succeed, or fail for one of the listed reasons. -/
theorem C61_place_orders (s : State) (hr : Reachable s) (c : MultiCtx) (cancel : Bool) (t : PlaceOrderType) (bids asks : List MultiArgs)
    (limit : Nat) (hl : limit < 256) (ht : t ≠ .postOnlySlide) (hm : MayPlaceAll s c) (hc : CountersFit s)
    (hf : BatchFits s c (bids.length + asks.length) limit) (hb : ∀ a ∈ bids, EntryOk s .bid a) (ha : ∀ a ∈ asks, EntryOk s .ask a) :
    (∃ s', step s (.placeOrders c cancel t bids asks limit) = .ok s') ∨
    (∃ e, BatchRefusal s c cancel t bids asks e ∧ step s (.placeOrders c cancel t bids asks limit) = .error e) := by
  show (∃ s', (do return (← placeOrdersIx s c cancel t bids asks limit).2) = .ok s') ∨
    (∃ e, _ ∧ (do return (← placeOrdersIx s c cancel t bids asks limit).2) = .error e)
  rcases placeOrdersIx_ok hr hl ht hm hc hf hb ha with ⟨r, h⟩ | ⟨e, he, h⟩
  · rw [h]; exact .inl ⟨_, rfl⟩
  · rw [h]; exact .inr ⟨e, he, rfl⟩

/-- Whatever the entries ask for, the batch does not fail because the owner cannot pay. -/
theorem C61_never_short (s : State) (hr : Reachable s) (c : MultiCtx) (cancel : Bool) (t : PlaceOrderType) (bids asks : List MultiArgs)
    (limit : Nat) (hl : limit < 256) (ht : t ≠ .postOnlySlide) (hm : MayPlaceAll s c) (hc : CountersFit s)
    (hf : BatchFits s c (bids.length + asks.length) limit) (hb : ∀ a ∈ bids, EntryOk s .bid a) (ha : ∀ a ∈ asks, EntryOk s .ask a)
    (e : Err) (h : step s (.placeOrders c cancel t bids asks limit) = .error e) :
    e ≠ .insufficientFunds ∧ e ≠ .invalidInputOrdersAmounts := by
  rcases C61_place_orders s hr c cancel t bids asks limit hl ht hm hc hf hb ha with ⟨s', h'⟩ | ⟨e', hr', h'⟩
  · rw [h'] at h; cases h
  · rw [h'] at h; injection h with h; subst h
    cases hr' with
    | unfilled => decide
    | crowded _ kind => rcases kind with h | h <;> rw [h] <;> decide
    | slots => decide

/-- A batch of orders that are to trade at once always succeeds. -/
theorem C61_take_batch_accepted (s : State) (hr : Reachable s) (c : MultiCtx) (cancel : Bool) (t : PlaceOrderType)
    (bids asks : List MultiArgs) (limit : Nat) (hl : limit < 256) (ht : t = .market ∨ t = .immediateOrCancel) (hm : MayPlaceAll s c)
    (hc : CountersFit s) (hf : BatchFits s c (bids.length + asks.length) limit) (hb : ∀ a ∈ bids, EntryOk s .bid a)
    (ha : ∀ a ∈ asks, EntryOk s .ask a) : ∃ s', step s (.placeOrders c cancel t bids asks limit) = .ok s' := by
  rcases C61_place_orders s hr c cancel t bids asks limit hl (by rcases ht with h | h <;> rw [h] <;> decide) hm hc hf hb ha with h | ⟨e, hr', _⟩
  · exact h
  · exfalso
    cases hr' with
    | unfilled h => rcases ht with h' | h' <;> rw [h'] at h <;> cases h
    | crowded _ _ rests => rcases ht with h' | h' <;> rw [h'] at rests <;> simp at rests
    | slots _ _ rests => rcases ht with h' | h' <;> rw [h'] at rests <;> simp at rests

/-- A batch of limit or post-only orders succeeds when both sides of the book have room for it and the account has the slots; with
`cancel` the owner's orders on the book do not count. -/
theorem C61_quotes_accepted (s : State) (hr : Reachable s) (c : MultiCtx) (cancel : Bool) (t : PlaceOrderType) (bids asks : List MultiArgs)
    (limit : Nat) (hl : limit < 256) (ht : t = .limit ∨ t = .postOnly) (hm : MayPlaceAll s c) (hc : CountersFit s)
    (hf : BatchFits s c (bids.length + asks.length) limit) (hb : ∀ a ∈ bids, EntryOk s .bid a) (ha : ∀ a ∈ asks, EntryOk s .ask a)
    (hbid : (staying s c.ooKey cancel .bid).length + bids.length ≤ 512) (hask : (staying s c.ooKey cancel .ask).length + asks.length ≤ 512)
    (a : OOA) (hacct : s.g.accts.get? c.ooKey = some a) (hslots : bids.length + asks.length ≤ usableSlots s c.ooKey cancel a) :
    ∃ s', step s (.placeOrders c cancel t bids asks limit) = .ok s' := by
  rcases C61_place_orders s hr c cancel t bids asks limit hl (by rcases ht with h | h <;> rw [h] <;> decide) hm hc hf hb ha with h | ⟨e, hr', _⟩
  · exact h
  · exfalso
    cases hr' with
    | unfilled h => rcases ht with h' | h' <;> rw [h'] at h <;> cases h
    | crowded _ _ _ side many => cases side <;> simp only at many <;> omega
    | slots a' ha' _ few => rw [hacct] at ha'; injection ha' with ha'; subst ha'; omega

/-! The hypotheses are met. -/

def C61_ctx : MultiCtx := { signer := 31, ooKey := 41, admin := 0, userBase := 51, userQuote := 61, now := 1000, oracle := some 1000, rem := [] }
/-- The second bid and the second ask ask for far more than the trader can pay. -/
def C61_bids : List MultiArgs := [{ priceLots := 995, maxQuoteLots := 5000000, expiry := 0 }, { priceLots := 980, maxQuoteLots := 1000000000, expiry := 0 }]
def C61_asks : List MultiArgs := [{ priceLots := 1015, maxQuoteLots := 50000, expiry := 0 }, { priceLots := 1030, maxQuoteLots := 1000000000, expiry := 0 }]

def C61_fits (s : State) (c : MultiCtx) (n limit : Nat) : Bool :=
  decide (s.closed = false ∧ s.g.market.timeExpiry = 0 ∧ c.signer ≠ s.g.market.marketAuthority ∧ s.g.market.openOrdersAdmin = c.admin ∧
    s.g.market.oracleA ≠ 0) &&
  decide ((s.tokens c.userBase).mint = (s.tokens s.g.market.marketBaseVault).mint ∧ (s.tokens c.userBase).mint ≠ 0 ∧
    (s.tokens c.userQuote).mint = (s.tokens s.g.market.marketQuoteVault).mint ∧ (s.tokens c.userQuote).mint ≠ 0 ∧
    (s.tokens c.userBase).owner = c.signer ∧ (s.tokens c.userQuote).owner = c.signer) &&
  decide (0 ≤ tokens s c.userBase ∧ 0 ≤ tokens s c.userQuote ∧ s.g.market.quoteLotSize ≤ i64Max ∧
    (n + 1) * baseAround s c ≤ u64Max ∧ (n + 1) * quoteAround s c ≤ u64Max ∧ s.g.heap.events.length + n * (limit + 7) ≤ 600) &&
  (match s.g.accts.get? c.ooKey with
  | some b => decide (b.owner = c.signer ∧ b.position.bidsBaseLots + n * quoteAround s c ≤ i64Max ∧
    b.position.bidsQuoteLots + n * quoteAround s c ≤ i64Max ∧ b.position.asksBaseLots + n * baseAround s c ≤ i64Max ∧
    b.position.bidsBaseLots + b.position.asksBaseLots ≤ i64Max)
  | none => false)

theorem C61_fits_spec {s : State} {c : MultiCtx} {n limit : Nat} (h : C61_fits s c n limit = true) (hnow : 0 ≤ c.now ∧ c.now ≤ i64Max)
    (ho : ∀ p, c.oracle = some p → i64Min ≤ p ∧ p ≤ i64Max) (hrem : c.ooKey ∉ c.rem) : MayPlaceAll s c ∧ BatchFits s c n limit := by
  unfold C61_fits at h
  simp only [Bool.and_eq_true, decide_eq_true_eq] at h
  obtain ⟨⟨⟨⟨a1, a2, a3, a4, a5⟩, b1, b2, b3, b4, b5, b6⟩, c1, c2, c3, c4, c5, c6⟩, h5⟩ := h
  cases hb : s.g.accts.get? c.ooKey with
  | none => rw [hb] at h5; cases h5
  | some b =>
    rw [hb] at h5
    simp only [decide_eq_true_eq] at h5
    obtain ⟨o1, o2⟩ := h5
    refine ⟨⟨a1, .inl a2, hnow, ⟨b, hb, .inl o1.symm⟩, a3, a4, ⟨b1, b2⟩, ⟨b3, b4⟩, b5, b6, fun p hp => ⟨a5, ho p hp⟩, hrem⟩,
      ⟨⟨c1, c2⟩, c3, c4, c5, fun x hx => ?_, c6⟩⟩
    rw [hb] at hx; injection hx with hx; subst hx
    exact o2

def C61_entries (s : State) (side : Side) (as : List MultiArgs) : Bool :=
  as.all (fun a => decide (a.typed ∧ 1 ≤ a.priceLots ∧ 0 ≤ a.maxQuoteLots ∧ (side = .ask → a.maxQuoteLots * s.g.market.quoteLotSize ≤ i64Max ∧
    a.maxQuoteLots * s.g.market.quoteLotSize * s.g.market.takerFee + 1000000 * s.g.market.quoteLotSize + 1000000 ≤ 1000000 * i64Max)))

theorem C61_entries_spec {s : State} {side : Side} {as : List MultiArgs} (h : C61_entries s side as = true) : ∀ a ∈ as, EntryOk s side a := by
  intro a ha
  have := List.all_eq_true.mp h a ha
  simp only [decide_eq_true_eq] at this
  exact ⟨this.1, this.2.1, this.2.2.1, this.2.2.2⟩

/-- Trader 31 replaces all their quotes with four new ones.  The second bid takes what is left of their quote tokens, the second ask
what is left of their base tokens, up to less than a lot. -/
example : ∃ s : State, Reachable s ∧ MayPlaceAll s C61_ctx ∧ CountersFit s ∧ BatchFits s C61_ctx 4 10 ∧
    (∀ a ∈ C61_bids, EntryOk s .bid a) ∧ (∀ a ∈ C61_asks, EntryOk s .ask a) ∧ (ownResting s 41).length = 3 ∧
    tokens s 61 + freeQuote s 41 < (C61_bids.map (fun a => a.maxQuoteLots * s.g.market.quoteLotSize)).sum ∧
    ∃ s', step s (.placeOrders C61_ctx true .limit C61_bids C61_asks 10) = .ok s' ∧ (ownResting s' 41).length = 4 ∧ tokens s' 61 < 10000 ∧
      tokens s' 51 < 100 := by
  obtain ⟨s, s', h1, h2, h3⟩ := Scenario.step_spec (a := Scenario.args) (ops := Scenario.ops1)
    (op := .placeOrders C61_ctx true .limit C61_bids C61_asks 10)
    (p := fun s s' => C60_fits s (Scenario.ctx 1 .bid []) (Scenario.limitOrder .bid 1030 8 9) && C61_fits s C61_ctx 4 10 &&
      C61_entries s .bid C61_bids && C61_entries s .ask C61_asks &&
      decide ((ownResting s 41).length = 3 ∧
        tokens s 61 + freeQuote s 41 < (C61_bids.map (fun a => a.maxQuoteLots * s.g.market.quoteLotSize)).sum ∧
        (ownResting s' 41).length = 4 ∧ tokens s' 61 < 10000 ∧ tokens s' 51 < 100))
    (by decide +kernel)
  simp only [Bool.and_eq_true, decide_eq_true_eq] at h3
  obtain ⟨⟨⟨⟨h3, h4⟩, h5⟩, h6⟩, e1, e2, e3, e4, e5⟩ := h3
  obtain ⟨_, m2, _, _⟩ := C60_fits_spec h3 (by decide) (fun p hp => by injection hp with hp; subst hp; decide) (by decide)
  obtain ⟨k1, k2⟩ := C61_fits_spec h4 (by decide) (fun p hp => by injection hp with hp; subst hp; decide) (by decide)
  exact ⟨s, h1, k1, m2, k2, C61_entries_spec h5, C61_entries_spec h6, e1, e2, s', h2, e3, e4, e5⟩

/-- Reasons to refuse occur: fill-or-kill orders that cannot be filled, -/
example : ∃ s : State, Reachable s ∧ step s (.placeOrders C61_ctx true .fillOrKill C61_bids C61_asks 10) = .error .wouldExecutePartially := by
  obtain ⟨s, h1, h2⟩ := Scenario.exec_spec (a := Scenario.args) (ops := Scenario.ops1)
    (p := fun s => C60_fails s (.placeOrders C61_ctx true .fillOrKill C61_bids C61_asks 10) .wouldExecutePartially) (by decide +kernel)
  exact ⟨s, h1, C60_fails_spec h2⟩

/-- and more orders than slots. -/
example : ∃ s : State, Reachable s ∧
    step s (.placeOrders C61_ctx true .limit (List.replicate 25 { priceLots := 900, maxQuoteLots := 1000, expiry := 0 }) [] 10) = .error .openOrdersFull := by
  obtain ⟨s, h1, h2⟩ := Scenario.exec_spec (a := Scenario.args) (ops := Scenario.ops1)
    (p := fun s => C60_fails s (.placeOrders C61_ctx true .limit (List.replicate 25 { priceLots := 900, maxQuoteLots := 1000, expiry := 0 }) [] 10)
      .openOrdersFull) (by decide +kernel)
  exact ⟨s, h1, C60_fails_spec h2⟩

end OB
