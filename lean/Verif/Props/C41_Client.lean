import Verif.Props.C31_Take
import Verif.Proofs.Client
/-!
C41  Client-side quotes equal on-chain execution.
C45  The quote given to the swap router equals what the swap moves.
-/
namespace OB
open Spec

/-- A market order executed by the matching engine, with the limit on the number of orders taken that the client assumes, takes
exactly what the client computes from the book before it.  The client knows nothing of the taker; so the taker must have no orders of
its own on the side taken from. -/
theorem C41_engine {env : Env} {book book' : Book} {g g' : Ledger} {r : OrderResult} (h : EngineCall env book g r book' g')
    (hm : env.order.params = .market) (hlim : env.limit = 45)
    (hself : ∀ c l, (env.order.side.invert, c, l) ∈ book.resting → env.hasOO = true → l.owner ≠ env.owner) :
    ∃ a, Client.amountsFromBook book env.order.side env.order.maxBaseLots env.order.maxQuoteLotsIncludingFees g.market env.oracle env.nowTs
        = .ok a ∧
      a.base = r.totalBaseTakenNative ∧ a.quote = r.totalQuoteTakenNative ∧ a.fee = r.takerFees - r.referrerAmount ∧
      (env.order.side = .ask → (a.notEnough = true ↔ sumQty r.fills < env.order.maxBaseLots)) ∧
      (env.order.side = .bid → (a.notEnough = true ↔
        sumQuote r.fills < env.order.maxQuoteLotsIncludingFees * 1000000 / (1000000 + g.market.takerFee))) := by
  obtain ⟨C⟩ := callRun h
  have hpo : env.order.isPostOnly = false := by unfold Order.isPostOnly; rw [hm]
  obtain ⟨f1, _, _⟩ := C.fee_split
  have hb := C.sumBase
  have hq := C.sumQuote
  have b0 := C.P.loop.base0
  have q0 := C.P.loop.quote0
  refine ⟨_, Client.amounts_eq C hm hlim hself, C.takenBase.symm, C.takenQuote.symm, ?_, ?_, ?_⟩
  · show (r.fills.map (fillRebate g.market)).sum = _
    omega
  · intro hs
    simp only [hs, Side.pick, decide_eq_true_eq]
    omega
  · intro hs
    rw [← C.maxQ_bid hs hpo]
    simp only [hs, Side.pick, decide_eq_true_eq]
    omega

/-- The tokens moved by the instruction `place_take_order` are those the client computes from the book it has before: a buyer pays
the value and the fee, a seller receives the value less the fee. -/
theorem C41_take {s s' : State} {c : TakeCtx} {a : PlaceOrderArgs} (hr : Reachable s) (h : step s (.placeTakeOrder c a) = .ok s')
    (hm : a.orderType = .market) (hlim : a.limit = 45) :
    ∃ (now : Nat) (q : Client.Amounts), (now : Int) = c.now ∧
      Client.amountsFromBook s.book a.side a.maxBaseLots a.maxQuoteLots s.g.market c.oracle now = .ok q ∧
      ∀ k, tokens s' k = tokens s k + match a.side with
        | .bid => moved k c.userQuote s.g.market.marketQuoteVault (q.quote + q.fee) + moved k s.g.market.marketBaseVault c.userBase q.base
        | .ask => moved k c.userBase s.g.market.marketBaseVault q.base + moved k s.g.market.marketQuoteVault c.userQuote (q.quote - q.fee) := by
  cases hs : a.side with
  | bid =>
    obtain ⟨env, r, g1, has, hcall, _, base, pay, fee, hb, hp, _, _, _, _, ht⟩ := C31_take_bid hr h hs
    obtain ⟨C⟩ := callRun hcall
    have hpm : env.order.params = .market := by
      rcases has.params with ⟨_, h⟩ | ⟨h, _⟩ | ⟨h, _⟩
      · exact h
      · rw [hm] at h; cases h
      · rw [hm] at h; cases h
    have he := Client.amounts_eq C hpm (has.limit.trans hlim) (fun _ _ _ h => by rw [has.owner.2] at h; cases h)
    rw [has.side, hs, has.base, has.quote, has.oracle] at he
    refine ⟨env.nowTs, _, has.now, he, fun k => ?_⟩
    rw [ht k, hb, hp]
    simp only
    omega
  | ask =>
    obtain ⟨env, r, g1, has, hcall, _, base, get, fee, hb, hp, _, _, _, _, ht⟩ := C31_take_ask hr h hs
    obtain ⟨C⟩ := callRun hcall
    have hpm : env.order.params = .market := by
      rcases has.params with ⟨_, h⟩ | ⟨h, _⟩ | ⟨h, _⟩
      · exact h
      · rw [hm] at h; cases h
      · rw [hm] at h; cases h
    have he := Client.amounts_eq C hpm (has.limit.trans hlim) (fun _ _ _ h => by rw [has.owner.2] at h; cases h)
    rw [has.side, hs, has.base, has.quote, has.oracle] at he
    refine ⟨env.nowTs, _, has.now, he, fun k => ?_⟩
    rw [ht k, hb, hp]
    simp only
    omega

/-! The orders of C31 taken by a market order: 8 lots are bought for 80 840 and a fee of 16. -/
namespace ClientCase
open Scenario

def market (side : Side) (qty : Int) : PlaceOrderArgs := { limitOrder side 1 qty 9 with orderType := .market, limit := 45 }

example : ∃ (s s' : State), Reachable s ∧ step s (.placeTakeOrder (takeCtx 2) (market .bid 8)) = .ok s' ∧
    (match Client.amountsFromBook s.book .bid 8 100000 s.g.market (some 1000) 1000 with
      | .ok q => decide (q.base = 800 ∧ q.quote = 80840 ∧ q.fee = 16 ∧ tokens s 63 - tokens s' 63 = 80840 + 16)
      | .error _ => false) = true :=
  step_spec (a := argsRebate) (ops := ops0)
    (p := fun s s' => match Client.amountsFromBook s.book .bid 8 100000 s.g.market (some 1000) 1000 with
      | .ok q => decide (q.base = 800 ∧ q.quote = 80840 ∧ q.fee = 16 ∧ tokens s 63 - tokens s' 63 = 80840 + 16)
      | .error _ => false) (by decide +kernel)

example : ∃ (s s' : State), Reachable s ∧ step s (.placeTakeOrder (takeCtx 2) (market .ask 4)) = .ok s' ∧
    (match Client.amountsFromBook s.book .ask 4 100000 s.g.market (some 1000) 1000 with
      | .ok q => decide (q.base = 400 ∧ q.quote = 39700 ∧ q.fee = 6 ∧ tokens s' 63 - tokens s 63 = 39700 - 6)
      | .error _ => false) = true :=
  step_spec (a := argsRebate) (ops := ops0)
    (p := fun s s' => match Client.amountsFromBook s.book .ask 4 100000 s.g.market (some 1000) 1000 with
      | .ok q => decide (q.base = 400 ∧ q.quote = 39700 ∧ q.fee = 6 ∧ tokens s' 63 - tokens s 63 = 39700 - 6)
      | .error _ => false) (by decide +kernel)

end ClientCase

/-! ### The quote of the router (C45) -/

/-- Spent and received by the taker, if the swap moves `i` of the token given and `o` of the token bought. -/
def Swaps (s s' : State) (c : TakeCtx) (side : Side) (i o : Int) : Prop :=
  ∀ k, tokens s' k = tokens s k + match side with
    | .bid => moved k c.userQuote s.g.market.marketQuoteVault i + moved k s.g.market.marketBaseVault c.userBase o
    | .ask => moved k c.userBase s.g.market.marketBaseVault i + moved k s.g.market.marketQuoteVault c.userQuote o

/-- The order swapped: a market order for the lots that the quote is computed with. -/
def SwapOrder (m : Market) (inAmount : Nat) (a : PlaceOrderArgs) : Prop :=
  a.orderType = .market ∧ a.limit = 45 ∧ Client.quoteLots m a.side inAmount = .ok (a.maxBaseLots, a.maxQuoteLots)

/-- C45 in full: what the quote says is spent and received is what the swap moves. -/
def QuoteExact : Prop :=
  ∀ (s s' : State) (c : TakeCtx) (a : PlaceOrderArgs) (n : Nat) (q : Client.Quote), Reachable s → SwapOrder s.g.market n a →
    Client.quote s.book s.g.market c.oracle a.side n = .ok q → step s (.placeTakeOrder c a) = .ok s' →
    s.g.market.openOrdersAdmin = 0 → Swaps s s' c a.side q.inAmount q.outAmount

/-- What holds: if no order on the side taken from has expired, the quote is off by twice the rebates of the makers.  A buyer pays more
than quoted, a seller receives less. -/
theorem C45_quote_partial {s s' : State} {c : TakeCtx} {a : PlaceOrderArgs} {n : Nat} {q : Client.Quote} (hr : Reachable s)
    (ha : SwapOrder s.g.market n a) (hq : Client.quote s.book s.g.market c.oracle a.side n = .ok q)
    (h : step s (.placeTakeOrder c a) = .ok s') (hadm : s.g.market.openOrdersAdmin = 0)
    (hexp : ∀ cp l, (a.side.invert, cp, l) ∈ s.book.resting → l.timeInForce = 0 ∨ c.now < l.timestamp + l.timeInForce) :
    match a.side with
    | .bid => Swaps s s' c .bid (q.inAmount + 2 * q.feeAmount) q.outAmount
    | .ask => Swaps s s' c .ask q.inAmount (q.outAmount - 2 * q.feeAmount) := by
  obtain ⟨now, x, hnow, hx, ht⟩ := C41_take hr h ha.1 ha.2.1
  have hcore := (reachable_Inv hr).core
  have hex : ∀ cp l, (a.side.invert, cp, l) ∈ s.book.resting → l.isExpired now = l.isExpired 0 := by
    intro cp l hm
    unfold LeafNode.isExpired
    rcases hexp _ _ hm with h0 | h0
    · simp [h0]
    · rw [← hnow] at h0
      rw [decide_eq_decide]
      constructor
      · rintro ⟨_, h1⟩; omega
      · rintro ⟨h1, h2⟩; omega
  rw [Client.amounts_now hcore hex] at hx
  unfold Client.quote at hq
  rw [if_neg (by simp [hadm])] at hq
  simp only [bind_ok, req_ok, ha.2.2] at hq
  obtain ⟨_, _, p, hp, y, hy, hq⟩ := hq
  cases hp
  rw [hx] at hy
  cases hy
  cases hs : a.side with
  | bid =>
    rw [hs] at hq ht
    simp only [bind_ok, ckU64_ok, pure_ok] at hq
    obtain ⟨i, ⟨_, rfl⟩, rfl⟩ := hq
    intro k
    have := ht k
    simp only at this ⊢
    rw [this, show x.quote - x.fee + 2 * x.fee = x.quote + x.fee by omega]
  | ask =>
    rw [hs] at hq ht
    simp only [bind_ok, ckU64_ok, pure_ok] at hq
    obtain ⟨i, ⟨_, rfl⟩, rfl⟩ := hq
    intro k
    have := ht k
    simp only at this ⊢
    rw [this, show x.quote + x.fee - 2 * x.fee = x.quote - x.fee by omega]

/-! Selling 4 lots: the quote says 39 706, the swap yields 39 694. -/
namespace ClientCase
open Scenario

def swap : PlaceOrderArgs := { market .ask 4 with maxQuoteLots := i64Max / 10 }

def swapCheck (s s' : State) : Bool :=
  decide (s.g.market.openOrdersAdmin = 0 ∧ tokens s' 63 - tokens s 63 = 39694 ∧ s.g.market.marketQuoteVault ≠ 63 ∧
    s.g.market.marketBaseVault ≠ 63 ∧ (s.book.resting.all fun x => decide (x.2.2.timeInForce = 0)) = true) &&
  (match Client.quoteLots s.g.market .ask 4 with
    | .ok x => decide (x = (4, i64Max / 10))
    | .error _ => false) &&
  (match Client.quote s.book s.g.market (some 1000) .ask 4 with
    | .ok q => decide (q.inAmount = 400 ∧ q.outAmount = 39706 ∧ q.feeAmount = 6)
    | .error _ => false)

theorem swap_runs : ∃ (s s' : State), Reachable s ∧ step s (.placeTakeOrder (takeCtx 2) swap) = .ok s' ∧ swapCheck s s' = true :=
  step_spec (a := argsRebate) (ops := ops0) (p := swapCheck) (by decide +kernel)

end ClientCase

open Scenario ClientCase in
/-- The claim fails: with a maker rebate a quote for a sale promises more than the swap pays out. -/
theorem C45_not_QuoteExact : ¬ QuoteExact := by
  intro H
  obtain ⟨s, s', hr, h, hc⟩ := swap_runs
  unfold swapCheck at hc
  simp only [Bool.and_eq_true, decide_eq_true_eq] at hc
  obtain ⟨⟨⟨h1, h2, h3, h4, _⟩, hl⟩, hq⟩ := hc
  cases hl' : Client.quoteLots s.g.market .ask 4 with
  | error e => rw [hl'] at hl; cases hl
  | ok x =>
    rw [hl'] at hl
    have hx : x = (4, i64Max / 10) := of_decide_eq_true hl
    cases hq' : Client.quote s.book s.g.market (some 1000) .ask 4 with
    | error e => rw [hq'] at hq; cases hq
    | ok q =>
      rw [hq'] at hq
      obtain ⟨q1, q2, q3⟩ := of_decide_eq_true hq
      have hs := H s s' (takeCtx 2) swap 4 q hr ⟨rfl, rfl, by rw [hx] at hl'; exact hl'⟩ hq' h h1 63
      have e : moved 63 (takeCtx 2).userBase s.g.market.marketBaseVault q.inAmount = 0 := by
        unfold moved; rw [if_neg (Ne.symm h4), if_neg (by decide)]; rfl
      have e2 : moved 63 s.g.market.marketQuoteVault (takeCtx 2).userQuote q.outAmount = q.outAmount := by
        unfold moved; rw [if_pos (by decide), if_neg (Ne.symm h3)]; omega
      change tokens s' 63 = tokens s 63 + (moved 63 (takeCtx 2).userBase s.g.market.marketBaseVault q.inAmount +
        moved 63 s.g.market.marketQuoteVault (takeCtx 2).userQuote q.outAmount) at hs
      rw [e, e2] at hs
      omega

open Scenario ClientCase in
/-- The amount to spend is taken for a number of lots: asked for a quote to spend 4 native units, the quote spends 400. -/
theorem C45_spends_more_than_given : ∃ (s : State) (oracle : Option Int) (q : Client.Quote), Reachable s ∧
    Client.quote s.book s.g.market oracle .ask 4 = .ok q ∧ q.inAmount = 400 := by
  obtain ⟨s, s', hr, h, hc⟩ := swap_runs
  unfold swapCheck at hc
  simp only [Bool.and_eq_true, decide_eq_true_eq] at hc
  obtain ⟨_, hq⟩ := hc
  cases hq' : Client.quote s.book s.g.market (some 1000) .ask 4 with
  | error e => rw [hq'] at hq; cases hq
  | ok q =>
    rw [hq'] at hq
    exact ⟨s, _, q, hr, hq', (of_decide_eq_true hq).1⟩

/-! The best ask expires at 1005.  At 1010 a quote for buying still counts it, as if the time were 0; the swap does not take it. -/
namespace ClientCase
open Scenario

def expiring : List Op :=
  [.createOO 41 31 0, .createOO 42 32 0,
   .placeOrder (ctx 0 .ask []) { limitOrder .ask 1000 5 1 with expiry := 1005 }, place 1 .ask 1100 5 2]

def lateCtx : TakeCtx := { takeCtx 2 with now := 1010 }

def lateSwap : PlaceOrderArgs := { market .bid 0 with maxBaseLots := i64Max / 100, maxQuoteLots := 2000 }

def lateCheck (s s' : State) : Bool :=
  decide (s.g.market.openOrdersAdmin = 0 ∧ tokens s' 53 - tokens s 53 = 100 ∧ s.g.market.makerFee = 200 ∧
    tokens s 63 - tokens s' 63 = 11000) &&
  (match Client.quoteLots s.g.market .bid 2000 with
    | .ok x => decide (x = (i64Max / 100, 2000))
    | .error _ => false) &&
  (match Client.quote s.book s.g.market (some 1000) .bid 2000 with
    | .ok q => decide (q.outAmount = 100 ∧ q.inAmount = 10000 ∧ q.feeAmount = 0)
    | .error _ => false)

theorem late_runs : ∃ (s s' : State), Reachable s ∧ step s (.placeTakeOrder lateCtx lateSwap) = .ok s' ∧ lateCheck s s' = true :=
  step_spec (a := args) (ops := expiring) (p := lateCheck) (by decide +kernel)

end ClientCase

open Scenario ClientCase in
/-- The claim also fails without any rebate to makers: the quote counts expired orders.  It offers a lot for 10 000, the swap takes
11 000. -/
theorem C45_expired_false : ∃ (s s' : State) (c : TakeCtx) (a : PlaceOrderArgs) (q : Client.Quote), Reachable s ∧
    SwapOrder s.g.market 2000 a ∧ a.side = .bid ∧ Client.quote s.book s.g.market c.oracle .bid 2000 = .ok q ∧
    step s (.placeTakeOrder c a) = .ok s' ∧ s.g.market.openOrdersAdmin = 0 ∧ q.feeAmount = 0 ∧
    tokens s' c.userBase - tokens s c.userBase = q.outAmount ∧ q.inAmount = 10000 ∧ tokens s c.userQuote - tokens s' c.userQuote = 11000 := by
  obtain ⟨s, s', hr, h, hc⟩ := late_runs
  unfold lateCheck at hc
  simp only [Bool.and_eq_true, decide_eq_true_eq] at hc
  obtain ⟨⟨⟨h1, h2, h3, h4⟩, hl⟩, hq⟩ := hc
  cases hl' : Client.quoteLots s.g.market .bid 2000 with
  | error e => rw [hl'] at hl; cases hl
  | ok x =>
    rw [hl'] at hl
    have hx : x = (i64Max / 100, 2000) := of_decide_eq_true hl
    cases hq' : Client.quote s.book s.g.market (some 1000) .bid 2000 with
    | error e => rw [hq'] at hq; cases hq
    | ok q =>
      rw [hq'] at hq
      obtain ⟨q1, q2, q3⟩ := of_decide_eq_true hq
      exact ⟨s, s', lateCtx, lateSwap, q, hr, ⟨rfl, rfl, by rw [hx] at hl'; exact hl'⟩, rfl, hq', h, h1, q3, by rw [q1]; exact h2, q2, h4⟩

end OB
