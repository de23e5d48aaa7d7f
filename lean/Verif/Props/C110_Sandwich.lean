import Verif.Proofs.Sandwich
import Verif.Props.C109_Spread
/-!
C110  Trading around somebody's take order gains at most what that taker pays beyond the standing price.

`Spread K s now oracle P P`: nobody outside the group `K` sells below `P` or buys above it.  `Ran s l s'` is an execution; `AloneOrTake` says that
in it only the group places orders, besides take orders.  Values are at `P` per lot, times the base lot size (`valued`).
-/
namespace OB
open Spec

section
variable {K : Pubkey → Bool} {s s' : State} {now : Int} {oracle : Option Int} {P : Int} {l : List Done}

/-- The group gains at most what the takers lose together, whatever it does before, between and after the take orders. -/
theorem C110_run (hr : Reachable s) (h : Ran s l s') (ha : ∀ d ∈ l, AloneOrTake K now oracle d) (S : Spread K s now oracle P P)
    (hP : 0 ≤ P) :
    valued s.g.market P (groupBase K s') (groupQuote K s') ≤ valued s.g.market P (groupBase K s) (groupQuote K s) +
      valued s.g.market P (sumDone l (broughtBase K)) (sumDone l (broughtQuote K)) + sumDone l (takerLoss P) := by
  induction h with
  | nil s => simp [sumDone, valued]
  | cons d l s' hst ht hs ih =>
    obtain ⟨s0, op, s1, ts⟩ := d
    simp only at hst ht hs hr ih S ⊢
    have hop := ha ⟨s0, op, s1, ts⟩ (by simp)
    obtain ⟨_, _, _, _, hc⟩ := C42_forever hr
    obtain ⟨_, _, e1, e2⟩ := hc _ _ hst
    have ev : ∀ b q, valued s1.g.market P b q = valued s0.g.market P b q := fun b q => by unfold valued; rw [e1, e2]
    have ih := fun S1 => ih (.step _ _ _ hr hst) (fun x hx => ha x (List.mem_cons_of_mem _ hx)) S1
    simp only [ev] at ih
    have ea : ∀ a b x y, valued s0.g.market P (a + b) (x + y) = valued s0.g.market P a x + valued s0.g.market P b y := fun a b x y => by
      unfold valued; ring
    unfold sumDone at *
    simp only [List.map_cons, List.sum_cons, ea]
    rcases hop with hop | ⟨c, a, rfl, rfl, rfl, W⟩
    · have ih := ih (spread_step hr hst (fun p hp _ => (hop p hp).2.1) S)
      have k := own_value hr hst ht hop S hP
      have hl : takerLoss P ⟨s0, op, s1, ts⟩ = 0 := by
        unfold takerLoss
        cases op with
        | placeTakeOrder c a => have := (hop _ rfl).1; cases this
        | _ => rfl
      rw [hl]
      omega
    · have ih := ih (spread_step hr hst (fun p hp ho => by cases hp; cases ho) S)
      have k := take_value hr hst W S hP ts
      have hb : broughtBase K ⟨s0, .placeTakeOrder c a, s1, ts⟩ = 0 := rfl
      have hq : broughtQuote K ⟨s0, .placeTakeOrder c a, s1, ts⟩ = 0 := rfl
      have hz : valued s0.g.market P 0 0 = 0 := by simp [valued]
      rw [hb, hq, hz]
      omega

/-- In quote: a group that has at least its base back has gained at most what the takers lost. -/
theorem C110_gain (hr : Reachable s) (h : Ran s l s') (ha : ∀ d ∈ l, AloneOrTake K now oracle d) (S : Spread K s now oracle P P)
    (hP : 0 ≤ P) (hb : groupBase K s + sumDone l (broughtBase K) ≤ groupBase K s') :
    (groupQuote K s' - groupQuote K s - sumDone l (broughtQuote K)) * s.g.market.baseLotSize ≤ sumDone l (takerLoss P) := by
  obtain ⟨_, _, _, hq, _⟩ := C42_forever hr
  have k := C110_run hr h ha S hP
  have m := Int.mul_le_mul_of_nonneg_right hb (show 0 ≤ P * s.g.market.quoteLotSize from Int.mul_nonneg hP (by omega))
  unfold valued at k
  rw [Int.add_mul] at m
  have e : (groupQuote K s' - groupQuote K s - sumDone l (broughtQuote K)) * s.g.market.baseLotSize =
    groupQuote K s' * s.g.market.baseLotSize - groupQuote K s * s.g.market.baseLotSize - sumDone l (broughtQuote K) * s.g.market.baseLotSize := by ring
  rw [e]
  omega

/-- The loss of a taker is bounded by the limit price: per lot at most the distance of the limit from `P`, and the taker fee. -/
theorem C110_limit {c : TakeCtx} {a : PlaceOrderArgs} {ts : List FillEvent} (hr : Reachable s) (h : step s (.placeTakeOrder c a) = .ok s')
    (W : Wallets s c.userBase c.userQuote) (ht : a.orderType ≠ .market) :
    ∃ lots value fee : Int, 0 ≤ lots ∧ lots ≤ a.maxBaseLots ∧ IsCeilFee value s.g.market.takerFee fee ∧
      (match a.side with | .bid => value ≤ a.priceLots * lots * s.g.market.quoteLotSize | .ask => a.priceLots * lots * s.g.market.quoteLotSize ≤ value) ∧
      takerLoss P ⟨s, .placeTakeOrder c a, s', ts⟩ ≤ (fee +
        (match a.side with | .bid => a.priceLots - P | .ask => P - a.priceLots) * lots * s.g.market.quoteLotSize) * s.g.market.baseLotSize := by
  obtain ⟨_, _, hb, hq, _⟩ := C42_forever hr
  have lots : ∀ {env : Env} {r : OrderResult} {g1 : Ledger}, TakesAs c a env → EngineCall env s.book s.g r s'.book g1 →
      0 ≤ sumQty r.fills ∧ sumQty r.fills ≤ a.maxBaseLots ∧ ∀ f ∈ r.fills, 1 ≤ f.quantity ∧ within a.side f.price a.priceLots := by
    intro env r g1 T hcall
    obtain ⟨C⟩ := callRun hcall
    have h1 := C.sumBase
    have h2 := C.P.loop.baseLe
    have h3 := C.P.loop.base0
    rw [T.base] at h1 h2
    refine ⟨by omega, by omega, fun f hf => ?_⟩
    obtain ⟨_, _, hi⟩ := C05_fill_of_resting_order hcall f hf
    refine ⟨hi.quantity.1, ?_⟩
    have hl : limitOf env.order env.oracle = some a.priceLots := by
      unfold limitOf
      rcases T.params with ⟨e, _⟩ | ⟨_, e⟩ | ⟨_, e⟩
      · exact absurd e ht
      · rw [e]
      · rw [e]
    have := C04_limit_respected hcall f hf _ hl
    rw [T.side] at this
    exact this
  cases hs : a.side with
  | bid =>
    obtain ⟨env, r, g1, T, hcall, _, base, pay, fee, e1, e2, k1, k2, _, _, htok⟩ := C31_take_bid hr h hs
    obtain ⟨l1, l2, l3⟩ := lots T hcall
    rw [hs] at l3
    have h1 := Int.mul_le_mul_of_nonneg_right (sumQuote_bounds.2 (fun f hf => ⟨(l3 f hf).1, (l3 f hf).2⟩)) (show 0 ≤ s.g.market.quoteLotSize by omega)
    refine ⟨sumQty r.fills, _, fee, l1, l2, k1, h1, ?_⟩
    have w1 := htok c.userBase
    have w2 := htok c.userQuote
    simp only [moved, if_neg W.two, if_neg W.base.2, if_neg W.base.1, if_neg W.two.symm, if_neg W.quote.2, if_neg W.quote.1, if_true] at w1 w2
    have e3 : tokens s c.userBase - tokens s' c.userBase = -(sumQty r.fills * s.g.market.baseLotSize) := by omega
    have e4 : tokens s c.userQuote - tokens s' c.userQuote = pay := by omega
    unfold takerLoss
    simp only
    rw [e3, e4]
    have h2 := Int.mul_le_mul_of_nonneg_right (show pay ≤ fee + a.priceLots * sumQty r.fills * s.g.market.quoteLotSize by omega)
      (show 0 ≤ s.g.market.baseLotSize by omega)
    unfold valued
    nlinarith [h2]
  | ask =>
    obtain ⟨env, r, g1, T, hcall, _, base, get, fee, e1, e2, k1, k2, _, _, htok⟩ := C31_take_ask hr h hs
    obtain ⟨l1, l2, l3⟩ := lots T hcall
    rw [hs] at l3
    have h1 := Int.mul_le_mul_of_nonneg_right (sumQuote_bounds.1 (fun f hf => ⟨(l3 f hf).1, (l3 f hf).2⟩)) (show 0 ≤ s.g.market.quoteLotSize by omega)
    refine ⟨sumQty r.fills, _, fee, l1, l2, k1, h1, ?_⟩
    have w1 := htok c.userBase
    have w2 := htok c.userQuote
    simp only [moved, if_neg W.two, if_neg W.base.2, if_neg W.base.1, if_neg W.two.symm, if_neg W.quote.2, if_neg W.quote.1, if_true] at w1 w2
    have e3 : tokens s c.userBase - tokens s' c.userBase = sumQty r.fills * s.g.market.baseLotSize := by omega
    have e4 : tokens s c.userQuote - tokens s' c.userQuote = -get := by omega
    unfold takerLoss
    simp only
    rw [e3, e4]
    have h2 := Int.mul_le_mul_of_nonneg_right (show -get ≤ fee - a.priceLots * sumQty r.fills * s.g.market.quoteLotSize by omega)
      (show 0 ≤ s.g.market.baseLotSize by omega)
    unfold valued
    nlinarith [h2]

end

/-! The hypotheses are met, with a gain: trader 33 buys eight lots for at most 1030 each and offers four at 1100.  Somebody's take order with limit 1100
buys there.  At 1007 per lot the account of trader 33 has gained, and the taker has lost. -/
open Scenario SpreadCase in
example : ∃ (s s' : State) (l : List Done), Reachable s ∧ Ran s l s' ∧ (∀ d ∈ l, AloneOrTake (fun k => decide (k = 43)) 1000 (some 1000) d) ∧
    Spread (fun k => decide (k = 43)) s 1000 (some 1000) 1007 1007 ∧ 0 < sumDone l (takerLoss 1007) ∧
    valued s.g.market 1007 (groupBase (fun k => decide (k = 43)) s) (groupQuote (fun k => decide (k = 43)) s) +
      valued s.g.market 1007 (sumDone l (broughtBase (fun k => decide (k = 43)))) (sumDone l (broughtQuote (fun k => decide (k = 43)))) <
    valued s.g.market 1007 (groupBase (fun k => decide (k = 43)) s') (groupQuote (fun k => decide (k = 43)) s') := by
  obtain ⟨s, hs, h⟩ := exec_spec (a := args) (ops := ops0) (p := fun s => decide (s.g.market.marketBaseVault = 20 ∧
    s.g.market.marketQuoteVault = 21) && spreadB (fun k => decide (k = 43)) s (some 1000) 1007 1007 &&
    okAnd (step s (place 2 .bid 1030 8 6)) (fun s1 => okAnd (step s1 (place 2 .ask 1100 4 7)) (fun s2 =>
    okAnd (step s2 (.placeTakeOrder (takeCtx 1) { limitOrder .bid 1100 4 9 with orderType := .immediateOrCancel })) (fun s' =>
      decide (s2.g.market.marketBaseVault = 20 ∧ s2.g.market.marketQuoteVault = 21 ∧ 0 < takerLoss 1007 ⟨s2, .placeTakeOrder (takeCtx 1) { limitOrder .bid 1100 4 9 with orderType := .immediateOrCancel }, s', []⟩ ∧
        valued s.g.market 1007 (groupBase (fun k => decide (k = 43)) s) (groupQuote (fun k => decide (k = 43)) s) +
          valued s.g.market 1007 (broughtBase (fun k => decide (k = 43)) ⟨s, place 2 .bid 1030 8 6, s1, []⟩ +
              (broughtBase (fun k => decide (k = 43)) ⟨s1, place 2 .ask 1100 4 7, s2, []⟩ + 0))
            (broughtQuote (fun k => decide (k = 43)) ⟨s, place 2 .bid 1030 8 6, s1, []⟩ +
              (broughtQuote (fun k => decide (k = 43)) ⟨s1, place 2 .ask 1100 4 7, s2, []⟩ + 0)) <
        valued s.g.market 1007 (groupBase (fun k => decide (k = 43)) s') (groupQuote (fun k => decide (k = 43)) s')))))) (by decide +kernel)
  rw [Bool.and_eq_true, Bool.and_eq_true, decide_eq_true_eq] at h
  obtain ⟨⟨⟨v1, v2⟩, hsp⟩, h⟩ := h
  obtain ⟨s1, h1, h⟩ := okAnd_spec h
  obtain ⟨s2, h2, h⟩ := okAnd_spec h
  obtain ⟨s', h3, h⟩ := okAnd_spec h
  obtain ⟨v3, v4, h4, h5⟩ := of_decide_eq_true h
  obtain ⟨ts1, t1⟩ := C69_trades hs h1
  obtain ⟨ts2, t2⟩ := C69_trades (.step _ _ _ hs h1) h2
  obtain ⟨ts3, t3⟩ := C69_trades (.step _ _ _ (.step _ _ _ hs h1) h2) h3
  refine ⟨s, s', [⟨s, _, s1, ts1⟩, ⟨s1, _, s2, ts2⟩, ⟨s2, _, s', ts3⟩], hs,
    .cons ⟨s, _, s1, ts1⟩ _ _ h1 t1 (.cons ⟨s1, _, s2, ts2⟩ _ _ h2 t2 (.cons ⟨s2, _, s', ts3⟩ _ _ h3 t3 (.nil _))), ?_, spreadB_spec hsp _, ?_, ?_⟩
  · intro d hd
    simp only [List.mem_cons, List.not_mem_nil, or_false] at hd
    rcases hd with rfl | rfl | rfl
    · exact .inl (fun p hp => by cases hp; exact ⟨rfl, rfl, rfl, rfl⟩)
    · exact .inl (fun p hp => by cases hp; exact ⟨rfl, rfl, rfl, rfl⟩)
    · refine .inr ⟨_, _, rfl, rfl, rfl, ⟨by decide, ?_, ?_⟩⟩
      · show _ ≠ s2.g.market.marketBaseVault ∧ _ ≠ s2.g.market.marketQuoteVault
        rw [v3, v4]; decide
      · show _ ≠ s2.g.market.marketBaseVault ∧ _ ≠ s2.g.market.marketQuoteVault
        rw [v3, v4]; decide
  · show 0 < 0 + (0 + (takerLoss 1007 ⟨s2, _, s', ts3⟩ + 0))
    rw [Int.zero_add, Int.zero_add, Int.add_zero]
    exact h4
  · exact h5

end OB
