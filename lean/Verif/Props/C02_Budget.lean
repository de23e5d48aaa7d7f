import Verif.Proofs.Bridge
import Verif.Props.Scenario
/-!
C02  A bid never spends more than its quote budget including fees.
C03  An order never trades or posts more than its base budget.

First for each call of the matching engine, then for the instructions, in terms of the balances of token accounts and open orders
accounts only.
-/
namespace OB
open Spec

section
variable {env : Env} {book book' : Book} {g g' : Ledger} {r : OrderResult}

/-- Quote taken, taker fee, quote locked for the posted part and the maker fee locked for it. -/
theorem C02_bid_budget (h : EngineCall env book g r book' g') (hs : env.order.side = .bid) :
    r.totalQuoteTakenNative + r.takerFees + r.postedQuoteNative + r.makerFees ≤
      env.order.maxQuoteLotsIncludingFees * g.market.quoteLotSize := by
  obtain ⟨C⟩ := callRun h
  exact C.bid_budget hs

/-- Base and quote traded are those of the fills; traded plus posted base is within the size of the order; the quote traded is
within its budget. -/
theorem C03_base_budget (h : EngineCall env book g r book' g') :
    r.totalBaseTakenNative = sumQty r.fills * g.market.baseLotSize ∧
    r.totalQuoteTakenNative = sumQuote r.fills * g.market.quoteLotSize ∧
    r.totalBaseTakenNative + r.postedBaseNative ≤ env.order.maxBaseLots * g.market.baseLotSize ∧
    sumQuote r.fills ≤ env.order.maxQuoteLotsIncludingFees := by
  obtain ⟨C⟩ := callRun h
  refine ⟨C.takenBase, C.takenQuote, C.base_budget, ?_⟩
  have := C.sumQuote; have := C.P.maxQle; have := C.P.loop.quote0; omega

/-- The order left on the book has at most the size that was not traded. -/
theorem C03_posted_size (h : EngineCall env book g r book' g') (id : Nat) (hid : r.orderId = some id) :
    ∃ c l, (env.order.side, c, l) ∈ book'.resting ∧ l.key = id ∧ l.owner = env.owner ∧ 1 ≤ l.quantity ∧
      sumQty r.fills + l.quantity ≤ env.order.maxBaseLots ∧ l.quantity * g.market.baseLotSize = r.postedBaseNative := by
  obtain ⟨C⟩ := callRun h
  obtain ⟨c, hc, rfl⟩ := C.target_some hid
  obtain ⟨own, outs, _, hq, hbk, _, hP⟩ := C.P.posted c hc
  obtain ⟨leaf, l1, l2, l3, _, _, _, _, hm, _⟩ := hP.new
  obtain ⟨_, hqty, _⟩ := C.posted_qty hc
  have := C.sumBase
  refine ⟨c, leaf, ?_, l1, l2, by omega, by omega, ?_⟩
  · rw [mem_resting, congrArg (fun b => (Book.side b env.order.side).orders c) hbk]
    cases env.order.side <;> exact hm
  · rw [hP.pbEq, l3, C.g1_market.2.2]

end

/-- A bid placed alone (`place_order`, `place_order_pegged`, `edit_order`, `edit_order_pegged`), from the balances: the owner's token
account and free balance together pay at most the budget, nobody else pays. -/
theorem C02_instruction {s s' : State} {op : Op} (hr : Reachable s) (h : step s op = .ok s') (k tok : Pubkey) (lots : Int)
    (hb : bidBudget op = some (k, tok, lots)) : PaysQuote s s' k tok (lots * s.g.market.quoteLotSize) :=
  step_paysQuote hr h hb

/-- `place_orders` and `cancel_all_and_place_orders` pay at most the sum of the budgets of the bids. -/
theorem C02_place_orders {s s' : State} {c : MultiCtx} {cancel : Bool} {t : PlaceOrderType} {bids asks : List MultiArgs} {limit : Nat}
    (hr : Reachable s) (h : step s (.placeOrders c cancel t bids asks limit) = .ok s') :
    (tokens s c.userQuote - tokens s' c.userQuote) + (freeQuote s c.ooKey - freeQuote s' c.ooKey) ≤
      (bids.map (fun a => max a.maxQuoteLots 0)).sum * s.g.market.quoteLotSize ∧
    (∀ j, j ≠ c.userQuote → j ≠ c.userBase → tokens s j ≤ tokens s' j) ∧
    (∀ j, j ≠ c.ooKey → freeQuote s j ≤ freeQuote s' j) ∧ (∀ j, j ≠ c.ooKey → freeBase s j ≤ freeBase s' j) := by
  cases step_run h with
  | multi _ _ _ _ _ _ now bs as rs hn hb ha P => exact P.pays hr hb ha
  | idle _ _ h => cases h
  | place _ _ _ _ _ h => cases h
  | edit _ _ _ _ _ _ _ h => cases h
  | consume _ _ _ _ _ h => rcases h with ⟨h, _⟩ | ⟨h, _⟩ <;> cases h
  | cancel _ _ _ _ _ _ _ _ h => rcases h with ⟨h, _⟩ | ⟨h, _⟩ <;> cases h
  | deposit _ _ _ _ _ _ _ _ _ _ h => rcases h with h | h <;> cases h

/-- The same for an ask: its owner pays at most the size of the order in base. -/
theorem C03_instruction {s s' : State} {op : Op} (hr : Reachable s) (h : step s op = .ok s') (k tok : Pubkey) (lots : Int)
    (hb : askBudget op = some (k, tok, lots)) : PaysBase s s' k tok (lots * s.g.market.baseLotSize) :=
  step_paysBase hr h hb

/-! A bid takes three orders for 101 240 and a fee of 41, and posts a lot at 1030 for 10 300 and a fee of 3. -/
open Scenario in
example : ∃ (s s' : State), Reachable s ∧
    step s (.placeOrder (ctx 2 .bid []) { limitOrder .bid 1030 11 9 with maxQuoteLots := 12000 }) = .ok s' ∧
    decide (tokens s 63 - tokens s' 63 = 101240 + 41 + 10300 + 3 ∧ freeQuote s 43 = 0 ∧ freeQuote s' 43 = 0) = true :=
  step_spec (a := args) (ops := ops0)
    (p := fun s s' => decide (tokens s 63 - tokens s' 63 = 101240 + 41 + 10300 + 3 ∧ freeQuote s 43 = 0 ∧ freeQuote s' 43 = 0)) (by decide +kernel)

/-! An ask sells two lots at 995 and four at 990; part of the base comes from the free balance. -/
open Scenario in
example : ∃ (s s' : State), Reachable s ∧ step s (.placeOrder (ctx 2 .ask []) (limitOrder .ask 990 6 9)) = .ok s' ∧
    decide (tokens s 53 - tokens s' 53 = 500 ∧ freeBase s 43 = 100 ∧ freeBase s' 43 = 0) = true :=
  step_spec (a := args) (ops := ops0 ++ [.deposit 33 43 53 63 1000 100 0])
    (p := fun s s' => decide (tokens s 53 - tokens s' 53 = 500 ∧ freeBase s 43 = 100 ∧ freeBase s' 43 = 0)) (by decide +kernel)

/-! Two bids and an ask placed together, after cancelling. -/
open Scenario in
example : ∃ (s s' : State), Reachable s ∧
    step s (.placeOrders { signer := 31, ooKey := 41, admin := 0, userBase := 51, userQuote := 61, now := 1000, oracle := some 1000, rem := [] }
      true .limit [{ priceLots := 1008, maxQuoteLots := 3500, expiry := 0 }, { priceLots := 900, maxQuoteLots := 2000, expiry := 0 }]
      [{ priceLots := 1200, maxQuoteLots := 4000, expiry := 0 }] 10) = .ok s' ∧
    decide (tokens s 61 - tokens s' 61 = 0 ∧ freeQuote s 41 - freeQuote s' 41 < 0 ∧ s'.book.resting.length = 4 ∧ s'.g.heap.events.length = 1) = true :=
  step_spec (a := args) (ops := ops0)
    (p := fun s s' => decide (tokens s 61 - tokens s' 61 = 0 ∧ freeQuote s 41 - freeQuote s' 41 < 0 ∧ s'.book.resting.length = 4 ∧
      s'.g.heap.events.length = 1)) (by decide +kernel)

end OB
