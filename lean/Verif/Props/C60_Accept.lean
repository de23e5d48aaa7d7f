import Verif.Proofs.LiveTake
import Verif.Props.Scenario
import Verif.Props.C31_Take
/-!
C60  A valid order is accepted: the only reasons to refuse one are those its owner can know beforehand.
-/
namespace OB
open Spec

/-- `place_order` succeeds, or fails for one of the listed reasons. -/
theorem C60_place_order (s : State) (hr : Reachable s) (c : PlaceCtx) (a : PlaceOrderArgs) (ht : a.typed) (hp : 1 ≤ a.priceLots)
    (hm : MayPlace s c a.side) (hc : CountersFit s) (hf : AmountsFit s a.side a.maxBaseLots a.maxQuoteLots a.limit)
    (hlf : LotsFit s c.ooKey a.side a.maxBaseLots a.maxQuoteLots) :
    (∃ s', step s (.placeOrder c a) = .ok s') ∨
    (∃ e, Refusal s c a.side a.orderType a.stb (maxCost s a.side a.maxBaseLots a.maxQuoteLots) e ∧
      step s (.placeOrder c a) = .error e) := by
  show (∃ s', (do return (← placeOrderIx s c a).2) = .ok s') ∨ (∃ e, _ ∧ (do return (← placeOrderIx s c a).2) = .error e)
  rcases placeOrderIx_ok hr ht hp hm hc hf hlf with ⟨r, h⟩ | ⟨e, he, h⟩
  · rw [h]; exact .inl ⟨_, rfl⟩
  · rw [h]; exact .inr ⟨e, he, rfl⟩

/-- The same for `place_order_pegged`, with an oracle price and an offset that give a price. -/
theorem C60_place_order_pegged (s : State) (hr : Reachable s) (c : PlaceCtx) (a : PlaceOrderPeggedArgs) (ht : a.typed)
    (hk : a.orderType = .limit ∨ a.orderType = .postOnly ∨ a.orderType = .postOnlySlide) (hl : 1 ≤ a.pegLimit)
    (op : Int) (ho : c.oracle = some op) (ho0 : 0 ≤ op) (hp : 1 ≤ op + a.offset ∧ op + a.offset ≤ i64Max)
    (hm : MayPlace s c a.side) (hc : CountersFit s) (hf : AmountsFit s a.side a.maxBaseLots a.maxQuoteLots a.limit)
    (hlf : LotsFit s c.ooKey a.side a.maxBaseLots a.maxQuoteLots) :
    (∃ s', step s (.placeOrderPegged c a) = .ok s') ∨
    (∃ e, Refusal s c a.side a.orderType a.stb (maxCost s a.side a.maxBaseLots a.maxQuoteLots) e ∧
      step s (.placeOrderPegged c a) = .error e) := by
  show (∃ s', (do return (← placeOrderPeggedIx s c a).2) = .ok s') ∨ (∃ e, _ ∧ (do return (← placeOrderPeggedIx s c a).2) = .error e)
  rcases placeOrderPeggedIx_ok hr ht hk hl ho ho0 hp.1 hp.2 hm hc hf hlf with ⟨r, h⟩ | ⟨e, he, h⟩
  · rw [h]; exact .inl ⟨_, rfl⟩
  · rw [h]; exact .inr ⟨e, he, rfl⟩

theorem none_refused {s : State} {c : PlaceCtx} {side : Side} {t : PlaceOrderType} {stb : SelfTradeBehavior} {cost : Int} {e : Err}
    (h : Refusal s c side t stb cost e) (h1 : stb ≠ .abortTransaction) (h2 : t ≠ .fillOrKill) (h3 : t ≠ .postOnlySlide)
    (h4 : cost ≤ tokens s c.userToken + freeFor s side c.ooKey)
    (h5 : t = .market ∨ t = .immediateOrCancel ∨ ((restingOn s side).length < 512 ∧
      ∃ a oo, s.g.accts.get? c.ooKey = some a ∧ oo ∈ a.openOrders ∧ oo.isFree = true)) : False := by
  cases h with
  | selfTrade _ _ asked _ _ => exact h1 asked
  | unfilled asked => exact h2 asked
  | crowded _ kind rests many =>
    rcases h5 with h | h | h
    · rw [h] at rests; simp at rests
    · rw [h] at rests; simp at rests
    · omega
  | slots a acct rests used =>
    rcases h5 with h | h | ⟨_, b, oo, hb, ho, hf⟩
    · rw [h] at rests; simp at rests
    · rw [h] at rests; simp at rests
    · rw [acct] at hb; injection hb with hb; subst hb
      rw [used oo ho] at hf; cases hf
  | funds short => omega
  | slide _ _ asked => exact h3 asked

/-- An order that is to trade at once, with funds for its limit, is always accepted: whatever the book holds. -/
theorem C60_take_accepted (s : State) (hr : Reachable s) (c : PlaceCtx) (a : PlaceOrderArgs) (ht : a.typed) (hp : 1 ≤ a.priceLots)
    (hm : MayPlace s c a.side) (hc : CountersFit s) (hf : AmountsFit s a.side a.maxBaseLots a.maxQuoteLots a.limit)
    (hlf : LotsFit s c.ooKey a.side a.maxBaseLots a.maxQuoteLots)
    (hk : a.orderType = .market ∨ a.orderType = .immediateOrCancel) (hself : a.stb ≠ .abortTransaction)
    (hfunds : maxCost s a.side a.maxBaseLots a.maxQuoteLots ≤ tokens s c.userToken + freeFor s a.side c.ooKey) :
    ∃ s', step s (.placeOrder c a) = .ok s' := by
  rcases C60_place_order s hr c a ht hp hm hc hf hlf with h | ⟨e, h, _⟩
  · exact h
  · exact (none_refused h hself (by rcases hk with h | h <;> rw [h] <;> decide) (by rcases hk with h | h <;> rw [h] <;> decide) hfunds
      (by rcases hk with h | h; exact .inl h; exact .inr (.inl h))).elim

/-- A limit or post-only order with funds for its limit is always accepted, when fewer than 512 orders rest on its side and its
account has a free slot. -/
theorem C60_limit_accepted (s : State) (hr : Reachable s) (c : PlaceCtx) (a : PlaceOrderArgs) (ht : a.typed) (hp : 1 ≤ a.priceLots)
    (hm : MayPlace s c a.side) (hc : CountersFit s) (hf : AmountsFit s a.side a.maxBaseLots a.maxQuoteLots a.limit)
    (hlf : LotsFit s c.ooKey a.side a.maxBaseLots a.maxQuoteLots)
    (hk : a.orderType = .limit ∨ a.orderType = .postOnly) (hself : a.stb ≠ .abortTransaction)
    (hfunds : maxCost s a.side a.maxBaseLots a.maxQuoteLots ≤ tokens s c.userToken + freeFor s a.side c.ooKey)
    (hroom : (restingOn s a.side).length < 512)
    (acct : OOA) (slot : OpenOrder) (ha : s.g.accts.get? c.ooKey = some acct) (hslot : slot ∈ acct.openOrders) (hfree : slot.isFree = true) :
    ∃ s', step s (.placeOrder c a) = .ok s' := by
  rcases C60_place_order s hr c a ht hp hm hc hf hlf with h | ⟨e, h, _⟩
  · exact h
  · exact (none_refused h hself (by rcases hk with h | h <;> rw [h] <;> decide) (by rcases hk with h | h <;> rw [h] <;> decide) hfunds
      (.inr (.inr ⟨hroom, acct, slot, ha, hslot, hfree⟩))).elim

/-- `place_take_order` succeeds, unless the order is fill-or-kill and cannot be filled, or the wallet does not hold its limit. -/
theorem C60_place_take_order (s : State) (hr : Reachable s) (c : TakeCtx) (a : PlaceOrderArgs) (ht : a.typed) (hp : 1 ≤ a.priceLots)
    (hk : a.orderType = .market ∨ a.orderType = .immediateOrCancel ∨ a.orderType = .fillOrKill)
    (hm : MayTake s c) (hc : CountersFit s) (hf : AmountsFit s a.side a.maxBaseLots a.maxQuoteLots a.limit)
    (hget : 0 ≤ tokens s (getWallet c a.side) ∧
      tokens s (getWallet c a.side) + maxCost s a.side.invert a.maxBaseLots a.maxQuoteLots ≤ u64Max) :
    (∃ s', step s (.placeTakeOrder c a) = .ok s') ∨
    (a.orderType = .fillOrKill ∧ step s (.placeTakeOrder c a) = .error .wouldExecutePartially) ∨
    (tokens s (payWallet c a.side) < maxCost s a.side a.maxBaseLots a.maxQuoteLots ∧
      step s (.placeTakeOrder c a) = .error .insufficientFunds) := by
  show (∃ s', (do return (← placeTakeOrderIx s c a).2) = .ok s') ∨ (_ ∧ (do return (← placeTakeOrderIx s c a).2) = .error _) ∨
    (_ ∧ (do return (← placeTakeOrderIx s c a).2) = .error _)
  rcases placeTakeOrderIx_ok hr ht hp hk hm hc hf hget with ⟨r, h⟩ | ⟨h1, h⟩ | ⟨h1, h⟩
  · rw [h]; exact .inl ⟨_, rfl⟩
  · rw [h]; exact .inr (.inl ⟨h1, rfl⟩)
  · rw [h]; exact .inr (.inr ⟨h1, rfl⟩)

/-! The hypotheses are met. -/

/-- Whether the hypotheses hold, for an order of trader 32. -/
def C60_fits (s : State) (c : PlaceCtx) (a : PlaceOrderArgs) : Bool :=
  decide (s.closed = false ∧ s.g.market.timeExpiry = 0 ∧ c.signer ≠ s.g.market.marketAuthority ∧
    s.g.market.openOrdersAdmin = c.admin ∧ (s.tokens c.userToken).mint = (s.tokens (vaultFor s a.side)).mint ∧
    (s.tokens c.userToken).mint ≠ 0 ∧ (s.tokens c.userToken).owner = c.signer ∧ s.g.market.oracleA ≠ 0) &&
  decide (s.g.market.makerVolume < 2 ^ 127 ∧ s.g.market.feesAccrued < 2 ^ 127 ∧ 0 ≤ s.g.market.takerVolumeWoOo ∧
    s.g.market.takerVolumeWoOo < 2 ^ 127 ∧ s.g.market.seqNum < 2 ^ 63 ∧ s.g.heap.seqNum < 2 ^ 63) &&
  decide (0 ≤ a.maxBaseLots ∧ a.maxBaseLots * s.g.market.baseLotSize ≤ i64Max ∧ 0 ≤ a.maxQuoteLots ∧
    a.maxQuoteLots * s.g.market.quoteLotSize ≤ i64Max ∧ s.g.market.quoteLotSize ≤ i64Max ∧
    a.maxQuoteLots * s.g.market.quoteLotSize * s.g.market.takerFee + 1000000 * s.g.market.quoteLotSize + 1000000 ≤ 1000000 * i64Max ∧
    tokens s (vaultFor s a.side) + maxCost s a.side a.maxBaseLots a.maxQuoteLots ≤ u64Max ∧ s.g.heap.events.length + a.limit + 7 ≤ 600) &&
  s.g.accts.all (fun x => decide (x.2.position.makerVolume < 2 ^ 127 ∧ 0 ≤ x.2.position.takerVolume ∧ x.2.position.takerVolume < 2 ^ 127 ∧
    0 ≤ x.2.position.penaltyHeapCount ∧ x.2.position.penaltyHeapCount < 2 ^ 63)) &&
  (match s.g.accts.get? c.ooKey with
  | some b => decide (b.owner = c.signer ∧ b.position.bidsBaseLots + a.maxBaseLots ≤ i64Max ∧
      b.position.bidsQuoteLots + a.maxQuoteLots ≤ i64Max ∧ b.position.asksBaseLots + a.maxBaseLots ≤ i64Max)
  | none => false)

theorem C60_get?_mem {A : Accts} {k : Pubkey} {x : OOA} (h : A.get? k = some x) : (k, x) ∈ A := by
  unfold Accts.get? at h
  obtain ⟨y, hy, rfl⟩ := Option.map_eq_some_iff.mp h
  have h1 := List.mem_of_find?_eq_some hy
  have h2 := List.find?_some hy
  simp only [decide_eq_true_eq] at h2
  rw [← h2]; exact h1

theorem C60_fits_spec {s : State} {c : PlaceCtx} {a : PlaceOrderArgs} (h : C60_fits s c a = true) (hnow : 0 ≤ c.now ∧ c.now ≤ i64Max)
    (ho : ∀ p, c.oracle = some p → i64Min ≤ p ∧ p ≤ i64Max) (hrem : c.ooKey ∉ c.rem) :
    MayPlace s c a.side ∧ CountersFit s ∧ AmountsFit s a.side a.maxBaseLots a.maxQuoteLots a.limit ∧
    LotsFit s c.ooKey a.side a.maxBaseLots a.maxQuoteLots := by
  unfold C60_fits at h
  simp only [Bool.and_eq_true, decide_eq_true_eq] at h
  obtain ⟨⟨⟨⟨h1, h2⟩, h3⟩, h4⟩, h5⟩ := h
  cases hb : s.g.accts.get? c.ooKey with
  | none => rw [hb] at h5; cases h5
  | some b =>
    rw [hb] at h5
    simp only [decide_eq_true_eq] at h5
    obtain ⟨o1, o2, o3, o4⟩ := h5
    obtain ⟨a1, a2, a3, a4, a5, a6, a7, a8⟩ := h1
    obtain ⟨b1, b2, b3, b4, b5, b6⟩ := h2
    obtain ⟨c1, c2, c3, c4, c5, c6, c7, c8⟩ := h3
    refine ⟨⟨a1, .inl a2, hnow, ⟨b, hb, .inl o1.symm⟩, a3, a4, ⟨a5, a6⟩, a7, fun p hp => ⟨a8, ho p hp⟩, hrem⟩,
      ⟨b1, b2, ⟨b3, b4⟩, fun k x hx => ?_, b5, b6⟩,
      ⟨⟨c1, c2⟩, ⟨c3, c4⟩, c5, fun _ => c6, c7, c8⟩, fun x hx => ?_⟩
    · have := List.all_eq_true.mp h4 _ (C60_get?_mem hx)
      simp only [decide_eq_true_eq] at this
      obtain ⟨d1, d2, d3, d4, d5⟩ := this
      exact ⟨d1, ⟨d2, d3⟩, d4, d5⟩
    · rw [hb] at hx; injection hx with hx; subst hx
      exact ⟨fun _ => ⟨by omega, o3⟩, fun _ => o4⟩

/-- In the scenario trader 32 can place a bid for 50 lots, which takes an ask and rests with what is left. -/
example : ∃ s : State, Reachable s ∧ MayPlace s (Scenario.ctx 1 .bid []) .bid ∧ CountersFit s ∧
    AmountsFit s .bid 50 100000 10 ∧ LotsFit s (Scenario.ctx 1 .bid []).ooKey .bid 50 100000 ∧ (restingOn s .bid).length < 512 ∧ (restingOn s .bid) ≠ [] ∧
    (∃ s', step s (Scenario.place 1 .bid 1010 50 9) = .ok s' ∧ (restingOn s' .bid).length = (restingOn s .bid).length + 1) := by
  obtain ⟨s, s', h1, h2, h3⟩ := Scenario.step_spec (a := Scenario.args) (ops := Scenario.ops1) (op := Scenario.place 1 .bid 1010 50 9)
    (p := fun s s' => C60_fits s (Scenario.ctx 1 .bid []) (Scenario.limitOrder .bid 1010 50 9) &&
      decide ((restingOn s .bid).length < 512 ∧ (restingOn s .bid).length ≠ 0 ∧ (restingOn s' .bid).length = (restingOn s .bid).length + 1))
    (by decide +kernel)
  rw [Bool.and_eq_true, decide_eq_true_eq] at h3
  obtain ⟨h3, h4, h5, h6⟩ := h3
  obtain ⟨m1, m2, m3, m4⟩ := C60_fits_spec h3 (by decide) (fun p hp => by injection hp with hp; subst hp; decide) (by decide)
  exact ⟨s, h1, m1, m2, m3, m4, h4, fun h => h5 (by rw [h]; rfl), s', h2, h6⟩

/-- And a pegged bid three lots below the oracle price. -/
example : ∃ s : State, Reachable s ∧ MayPlace s (Scenario.ctx 1 .bid []) .bid ∧ CountersFit s ∧
    AmountsFit s .bid 5 100000 10 ∧ LotsFit s (Scenario.ctx 1 .bid []).ooKey .bid 5 100000 ∧ (Scenario.ctx 1 .bid []).oracle = some 1000 ∧
    (∃ s', step s (Scenario.placePegged 1 .bid (-3) 1005 5 9) = .ok s' ∧ (restingOn s' .bid).length = (restingOn s .bid).length + 1) := by
  obtain ⟨s, s', h1, h2, h3⟩ := Scenario.step_spec (a := Scenario.args) (ops := Scenario.ops1)
    (op := Scenario.placePegged 1 .bid (-3) 1005 5 9)
    (p := fun s s' => C60_fits s (Scenario.ctx 1 .bid []) (Scenario.limitOrder .bid 1 5 9) &&
      decide ((restingOn s' .bid).length = (restingOn s .bid).length + 1))
    (by decide +kernel)
  rw [Bool.and_eq_true, decide_eq_true_eq] at h3
  obtain ⟨m1, m2, m3, m4⟩ := C60_fits_spec h3.1 (by decide) (fun p hp => by injection hp with hp; subst hp; decide) (by decide)
  exact ⟨s, h1, m1, m2, m3, m4, rfl, s', h2, h3.2⟩

/-- Whether the hypotheses hold for a take order. -/
def C60_takes (s : State) (c : TakeCtx) (a : PlaceOrderArgs) : Bool :=
  decide (s.closed = false ∧ s.g.market.timeExpiry = 0 ∧ c.signer ≠ s.g.market.marketAuthority ∧ c.penaltyPayer ≠ s.g.market.marketAuthority ∧
    s.g.market.openOrdersAdmin = c.admin ∧ (s.g.accts.get? c.signer).isNone = true) &&
  decide ((s.tokens c.userBase).mint = (s.tokens s.g.market.marketBaseVault).mint ∧ (s.tokens c.userBase).mint ≠ 0 ∧
    (s.tokens c.userQuote).mint = (s.tokens s.g.market.marketQuoteVault).mint ∧ (s.tokens c.userQuote).mint ≠ 0 ∧
    (s.tokens c.userBase).owner = c.signer ∧ (s.tokens c.userQuote).owner = c.signer ∧ s.g.market.oracleA ≠ 0) &&
  decide (500 ≤ s.lamports c.penaltyPayer ∧ 0 ≤ s.lamports s.marketKey ∧ s.lamports s.marketKey + 500 ≤ u64Max ∧
    0 ≤ tokens s (getWallet c a.side) ∧ tokens s (getWallet c a.side) + maxCost s a.side.invert a.maxBaseLots a.maxQuoteLots ≤ u64Max)

theorem C60_takes_spec {s : State} {c : TakeCtx} {a : PlaceOrderArgs} (h : C60_takes s c a = true) (hnow : 0 ≤ c.now ∧ c.now ≤ i64Max)
    (ho : ∀ p, c.oracle = some p → i64Min ≤ p ∧ p ≤ i64Max) :
    MayTake s c ∧ 0 ≤ tokens s (getWallet c a.side) ∧
      tokens s (getWallet c a.side) + maxCost s a.side.invert a.maxBaseLots a.maxQuoteLots ≤ u64Max := by
  unfold C60_takes at h
  simp only [Bool.and_eq_true, decide_eq_true_eq] at h
  obtain ⟨⟨⟨a1, a2, a3, a4, a5, a6⟩, b1, b2, b3, b4, b5, b6, b7⟩, c1, c2, c3, c4, c5⟩ := h
  exact ⟨⟨a1, .inl a2, hnow, Option.isNone_iff_eq_none.mp a6, a3, a4, a5, ⟨b1, b2⟩, ⟨b3, b4⟩, b5, b6, fun p hp => ⟨b7, ho p hp⟩, c1, c2, c3⟩, c4, c5⟩

/-- A take bid that buys eight lots. -/
example : ∃ s : State, Reachable s ∧ MayTake s (Scenario.takeCtx 2) ∧ CountersFit s ∧ AmountsFit s .bid 8 100000 10 ∧
    (∃ s', step s (.placeTakeOrder (Scenario.takeCtx 2) { Scenario.limitOrder .bid 1030 8 9 with orderType := .immediateOrCancel }) = .ok s' ∧
      tokens s' (Scenario.takeCtx 2).userBase = tokens s (Scenario.takeCtx 2).userBase + 800) := by
  obtain ⟨s, s', h1, h2, h3⟩ := Scenario.step_spec (a := Scenario.args) (ops := Scenario.ops0)
    (op := .placeTakeOrder (Scenario.takeCtx 2) { Scenario.limitOrder .bid 1030 8 9 with orderType := .immediateOrCancel })
    (p := fun s s' => C60_fits s (Scenario.ctx 1 .bid []) (Scenario.limitOrder .bid 1030 8 9) &&
      C60_takes s (Scenario.takeCtx 2) (Scenario.limitOrder .bid 1030 8 9) &&
      decide (tokens s' (Scenario.takeCtx 2).userBase = tokens s (Scenario.takeCtx 2).userBase + 800))
    (by decide +kernel)
  rw [Bool.and_eq_true, Bool.and_eq_true, decide_eq_true_eq] at h3
  obtain ⟨m1, m2, m3, m4⟩ := C60_fits_spec h3.1.1 (by decide) (fun p hp => by injection hp with hp; subst hp; decide) (by decide)
  obtain ⟨k1, _⟩ := C60_takes_spec h3.1.2 (by decide) (fun p hp => by injection hp with hp; subst hp; decide)
  exact ⟨s, h1, k1, m2, m3, s', h2, h3.2⟩

/-- Whether `op` fails with error `e`. -/
def C60_fails (s : State) (op : Op) (e : Err) : Bool :=
  match step s op with
  | .ok _ => false
  | .error e' => e' == e

theorem C60_fails_spec {s : State} {op : Op} {e : Err} (h : C60_fails s op e = true) : step s op = .error e := by
  unfold C60_fails at h
  split at h
  · cases h
  · rename_i e' he; rw [he, eq_of_beq h]

/-- Every reason occurs.  A fill-or-kill bid for more than is offered: -/
example : ∃ s : State, Reachable s ∧ step s (.placeOrder (Scenario.ctx 1 .bid [])
    { Scenario.limitOrder .bid 1010 50 9 with orderType := .fillOrKill }) = .error .wouldExecutePartially := by
  obtain ⟨s, h1, h2⟩ := Scenario.exec_spec (a := Scenario.args) (ops := Scenario.ops1)
    (p := fun s => C60_fails s (.placeOrder (Scenario.ctx 1 .bid []) { Scenario.limitOrder .bid 1010 50 9 with orderType := .fillOrKill })
      .wouldExecutePartially) (by decide +kernel)
  exact ⟨s, h1, C60_fails_spec h2⟩

/-- A bid of trader 31 that meets their own ask: -/
example : ∃ s : State, Reachable s ∧ step s (.placeOrder (Scenario.ctx 0 .bid [])
    { Scenario.limitOrder .bid 1010 50 9 with stb := .abortTransaction }) = .error .wouldSelfTrade := by
  obtain ⟨s, h1, h2⟩ := Scenario.exec_spec (a := Scenario.args) (ops := Scenario.ops1)
    (p := fun s => C60_fails s (.placeOrder (Scenario.ctx 0 .bid []) { Scenario.limitOrder .bid 1010 50 9 with stb := .abortTransaction })
      .wouldSelfTrade) (by decide +kernel)
  exact ⟨s, h1, C60_fails_spec h2⟩

/-- An ask for more than the trader has: -/
example : ∃ s : State, Reachable s ∧ step s (.placeOrder (Scenario.ctx 0 .ask []) { Scenario.limitOrder .ask 1010 50000 9 with maxQuoteLots := 100000000 }) =
    .error .insufficientFunds := by
  obtain ⟨s, h1, h2⟩ := Scenario.exec_spec (a := Scenario.args) (ops := Scenario.ops1)
    (p := fun s => C60_fails s (.placeOrder (Scenario.ctx 0 .ask []) { Scenario.limitOrder .ask 1010 50000 9 with maxQuoteLots := 100000000 }) .insufficientFunds)
    (by decide +kernel)
  exact ⟨s, h1, C60_fails_spec h2⟩

/-- A bid that is to slide behind an ask at price 1: -/
example : ∃ s : State, Reachable s ∧ step s (.placeOrder (Scenario.ctx 1 .bid [])
    { Scenario.limitOrder .bid 5 1 9 with orderType := .postOnlySlide }) = .error .invalidPriceLots := by
  obtain ⟨s, h1, h2⟩ := Scenario.exec_spec (a := Scenario.args) (ops := [.createOO 41 31 0, .createOO 42 32 0, Scenario.place 0 .ask 1 5 1])
    (p := fun s => C60_fails s (.placeOrder (Scenario.ctx 1 .bid []) { Scenario.limitOrder .bid 5 1 9 with orderType := .postOnlySlide })
      .invalidPriceLots) (by decide +kernel)
  exact ⟨s, h1, C60_fails_spec h2⟩

end OB
