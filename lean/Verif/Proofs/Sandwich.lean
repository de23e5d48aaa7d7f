import Verif.Spec.Sandwich
import Verif.Proofs.Spread
import Mathlib.Tactic.Linarith
/-! Trading around the take orders of others (C110). -/
namespace OB
open Spec

/-- Fills and wallets of a take order. -/
theorem take_trades {s s' : State} {c : TakeCtx} {a : PlaceOrderArgs} (hr : Reachable s) (h : step s (.placeTakeOrder c a) = .ok s') :
    ∃ (env : Env) (r : OrderResult) (g1 : Ledger), TakesAs c a env ∧ EngineCall env s.book s.g r s'.book g1 ∧
      TradesIn s (.placeTakeOrder c a) s' r.fills ∧
      ∀ k, tokens s' k = tokens s k + (match a.side with
        | .bid => moved k c.userQuote s.g.market.marketQuoteVault (sumQuote r.fills * s.g.market.quoteLotSize +
            (r.fills.map (fillRebate s.g.market)).sum) +
          moved k s.g.market.marketBaseVault c.userBase (sumQty r.fills * s.g.market.baseLotSize)
        | .ask => moved k c.userBase s.g.market.marketBaseVault (sumQty r.fills * s.g.market.baseLotSize) +
          moved k s.g.market.marketQuoteVault c.userQuote (sumQuote r.fills * s.g.market.quoteLotSize -
            (r.fills.map (fillRebate s.g.market)).sum)) := by
  cases step_run h with
  | take _ _ o r ho P =>
    have hcall := P.call hr (takeOrder_typed ho)
    have has := takesAs ho P
    obtain ⟨C⟩ := callRun hcall
    obtain ⟨b1, b2, b3, b4, b5⟩ := P.balances hr (takeOrder_typed ho)
    have F := P.fx (reachable_Inv hr) (takeOrder_typed ho)
    have hd := F.amts.depEq
    have hw := F.amts.wdEq
    obtain ⟨f1, f2, f3⟩ := C.fee_split
    refine ⟨_, r, P.g1, has, hcall, ?_, ?_⟩
    · show ∃ s1 cs g1, Placement s s1 s' { signer := c.signer, owner := c.signer, hasOO := false, admin := c.admin, now := c.now, oracle := c.oracle } cs g1 ∧
        Serves (.placeTakeOrder c a) c.now cs ∧ r.fills = tradesOf cs
      have hpl : Placement s s s' { signer := c.signer, owner := c.signer, hasOO := false, admin := c.admin, now := c.now, oracle := c.oracle }
          [(({ order := o, oracle := c.oracle, hasOO := false, owner := c.signer, nowTs := P.nowTs, limit := a.limit, rem := c.rem } : Env), r)] P.g1 := by
        refine ⟨.inl rfl, .cons _ _ _ _ _ _ _ _ _ (P.call hr (takeOrder_typed ho)) (.nil _ _), ?_, ?_,
          ctx_one ⟨rfl, rfl, (nowU64_eq P.now).1, rfl⟩, fun _ => P.live, P.isOpen, fun h => (by cases h), P.admin, P.paid hr (takeOrder_typed ho)⟩
        all_goals
          have ham := (P.fx (reachable_Inv hr) (takeOrder_typed ho)).amts.res
          rw [congrArg State.g P.res]
        · show P.g2.heap = _
          rw [ham]
        · show P.g2.market.seqNum = _
          rw [ham]
      refine ⟨s, _, _, hpl, ?_, ?_⟩
      · have e2 : c.now = ((P.nowTs : Nat) : Int) := (nowU64_eq P.now).1.symm
        rw [e2]
        refine Serves.one (x := (({ order := o, oracle := c.oracle, hasOO := false, owner := c.signer, nowTs := P.nowTs, limit := a.limit, rem := c.rem } : Env), r)) rfl ?_
        unfold takeOrder at ho
        simp only [bind_ok, req_ok, pure_ok] at ho
        obtain ⟨_, _, _, _, pp, hpp, rfl⟩ := ho
        refine ⟨rfl, ?_, rfl, rfl, .inl ⟨rfl, rfl⟩⟩
        cases hty : a.orderType <;> rw [hty] at hpp <;> cases hpp <;> rfl
      · simp [tradesOf]
    · intro k
      have hk := b5 k
      have hos : o.side = a.side := has.side
      cases hs : a.side with
      | bid =>
        rw [hs] at hos
        simp only [hos, pick_bid] at hd hw hk
        rw [C.takenQuote] at hd
        rw [C.takenBase] at hw
        have e1 : P.dep = sumQuote r.fills * s.g.market.quoteLotSize + (r.fills.map (fillRebate s.g.market)).sum := by omega
        rw [← e1, ← hw]
        simp only
        unfold moved
        omega
      | ask =>
        rw [hs] at hos
        simp only [hos, pick_ask] at hd hw hk
        rw [C.takenBase] at hd
        rw [C.takenQuote] at hw
        have e1 : P.wd = sumQuote r.fills * s.g.market.quoteLotSize - (r.fills.map (fillRebate s.g.market)).sum := by omega
        rw [← e1, ← hd]
        simp only
        unfold moved
        omega
  | idle _ _ h => cases h
  | place _ _ _ _ _ h => cases h
  | edit _ _ _ _ _ _ _ h => cases h
  | consume _ _ _ _ _ h => rcases h with ⟨h, _⟩ | ⟨h, _⟩ <;> cases h
  | cancel _ _ _ _ _ _ _ _ h => rcases h with ⟨h, _⟩ | ⟨h, _⟩ <;> cases h
  | deposit _ _ _ _ _ _ _ _ _ _ h => rcases h with h | h <;> cases h

/-- What the makers of the group win in these fills is at most what the taker loses, if the other makers give nothing away. -/
theorem fills_value {K : Pubkey → Bool} {m : Market} (hb : 0 < m.baseLotSize) (hq : 0 < m.quoteLotSize) {P : Int} {side : Side}
    {fs : List FillEvent} (h : ∀ f ∈ fs, f.takerSide = side ∧ 1 ≤ f.quantity ∧ 1 ≤ f.price ∧
      (K f.maker = false → match side with | .bid => P ≤ f.price | .ask => f.price ≤ P)) :
    valued m P (sumFills (fs.filter (crosses K false)) (makerBase m)) (sumFills (fs.filter (crosses K false)) (makerWorth m)) ≤
      match (generalizing := false) side with
      | .bid => valued m P (-(sumQty fs * m.baseLotSize)) (sumQuote fs * m.quoteLotSize + (fs.map (fillRebate m)).sum)
      | .ask => valued m P (sumQty fs * m.baseLotSize) (-(sumQuote fs * m.quoteLotSize - (fs.map (fillRebate m)).sum)) := by
  induction fs with
  | nil => cases side <;> simp [valued, sumFills, sumQty, sumQuote]
  | cons f fs ih =>
    have ih := ih (fun x hx => h x (List.mem_cons_of_mem _ hx))
    obtain ⟨k1, k2, k3, k4⟩ := h f (by simp)
    have hfq : 0 ≤ fillQuote m f := Int.mul_nonneg (Int.mul_nonneg (by omega) (by omega)) (by omega)
    have hreb : 0 ≤ fillRebate m f := by
      unfold fillRebate
      split
      · exact Int.le_refl 0
      · exact floorRebate_nonneg hfq
    have hrb : 0 ≤ fillRebate m f * m.baseLotSize := Int.mul_nonneg hreb (by omega)
    have hqb : 0 ≤ f.quantity * (m.quoteLotSize * m.baseLotSize) := Int.mul_nonneg (by omega) (Int.mul_nonneg (by omega) (by omega))
    unfold sumFills sumQty sumQuote valued at *
    cases side with
    | bid =>
      simp only at ih k4 ⊢
      have eb : makerBase m f = -(f.quantity * m.baseLotSize) := by unfold makerBase; rw [k1]; rfl
      have ew : makerWorth m f = fillQuote m f + fillRebate m f := by unfold makerWorth; rw [k1]; rfl
      cases hK : K f.maker with
      | true =>
        have hc : crosses K false f = true := by unfold crosses; rw [hK]; rfl
        rw [List.filter_cons_of_pos hc]
        simp only [List.map_cons, List.sum_cons]
        rw [eb, ew]
        unfold fillQuote
        nlinarith [ih]
      | false =>
        have hc : ¬ crosses K false f = true := by unfold crosses; rw [hK]; decide
        rw [List.filter_cons_of_neg hc]
        simp only [List.map_cons, List.sum_cons]
        have := Int.mul_nonneg (show 0 ≤ f.price - P by have := k4 hK; omega) hqb
        nlinarith [ih]
    | ask =>
      simp only at ih k4 ⊢
      have eb : makerBase m f = f.quantity * m.baseLotSize := by unfold makerBase; rw [k1]; rfl
      have ew : makerWorth m f = -fillQuote m f + fillRebate m f := by unfold makerWorth; rw [k1]; rfl
      cases hK : K f.maker with
      | true =>
        have hc : crosses K false f = true := by unfold crosses; rw [hK]; rfl
        rw [List.filter_cons_of_pos hc]
        simp only [List.map_cons, List.sum_cons]
        rw [eb, ew]
        unfold fillQuote
        nlinarith [ih]
      | false =>
        have hc : ¬ crosses K false f = true := by unfold crosses; rw [hK]; decide
        rw [List.filter_cons_of_neg hc]
        simp only [List.map_cons, List.sum_cons]
        have := Int.mul_nonneg (show 0 ≤ P - f.price by have := k4 hK; omega) hqb
        nlinarith [ih]

/-- A take order of anybody: the group gains at most what the taker loses. -/
theorem take_value {K : Pubkey → Bool} {s s' : State} {c : TakeCtx} {a : PlaceOrderArgs} {P : Int} (hr : Reachable s)
    (h : step s (.placeTakeOrder c a) = .ok s') (W : Wallets s c.userBase c.userQuote) (S : Spread K s c.now c.oracle P P) (hP : 0 ≤ P)
    (ts : List FillEvent) :
    valued s.g.market P (groupBase K s') (groupQuote K s') ≤ valued s.g.market P (groupBase K s) (groupQuote K s) +
      takerLoss P ⟨s, .placeTakeOrder c a, s', ts⟩ := by
  obtain ⟨_, _, hb, hq, _⟩ := C42_forever hr
  obtain ⟨env, r, g1, T, hcall, ht, htok⟩ := take_trades hr h
  obtain ⟨j1, j2, _⟩ := C69_step hr h ht K
  have hby : byGroup K (.placeTakeOrder c a) = false := rfl
  have key := fills_value (K := K) hb hq (P := P) (side := a.side) (fs := r.fills) (fun f hf => by
    obtain ⟨cc, l, hi⟩ := C05_fill_of_resting_order hcall f hf
    obtain ⟨L, hL⟩ := ladder_exists hcall.state env.order.side.invert env.nowTs env.oracle
    have hpos := ladder_pos hcall.state hL ⟨cc, l, f.price⟩ ((hL.mem _).mpr ⟨hi.resting, hi.tradable⟩)
    have h1 := hi.resting
    have h2 := hi.tradable
    rw [T.side] at h1 h2
    rw [T.oracle] at h2
    refine ⟨by rw [hi.taker.1, T.side], hi.quantity.1, hpos.2, fun hK => ?_⟩
    rw [hi.maker.1] at hK
    cases hs : a.side with
    | bid => rw [hs] at h1 h2; exact S.asks _ _ _ _ T.now h1 hK h2
    | ask => rw [hs] at h1 h2; exact S.bids _ _ _ _ T.now h1 hK h2)
  unfold broughtBase wonBase at j1
  unfold broughtQuote wonQuote at j2
  simp only [hby, if_false, Bool.false_eq_true] at j1 j2
  have j1 : groupBase K s' ≤ groupBase K s + sumFills (r.fills.filter (crosses K false)) (makerBase s.g.market) := by
    rw [Int.add_zero] at j1; exact j1
  have j2 : groupQuote K s' ≤ groupQuote K s + sumFills (r.fills.filter (crosses K false)) (makerWorth s.g.market) := by
    rw [Int.add_zero] at j2; exact j2
  have w1 := htok c.userBase
  have w2 := htok c.userQuote
  have hloss : takerLoss P ⟨s, .placeTakeOrder c a, s', ts⟩ = (match a.side with
      | .bid => valued s.g.market P (-(sumQty r.fills * s.g.market.baseLotSize))
          (sumQuote r.fills * s.g.market.quoteLotSize + (r.fills.map (fillRebate s.g.market)).sum)
      | .ask => valued s.g.market P (sumQty r.fills * s.g.market.baseLotSize)
          (-(sumQuote r.fills * s.g.market.quoteLotSize - (r.fills.map (fillRebate s.g.market)).sum))) := by
    unfold takerLoss
    simp only
    cases hs : a.side with
    | bid =>
      rw [hs] at w1 w2
      simp only [moved, if_neg W.two, if_neg W.base.2, if_neg W.base.1, if_neg W.two.symm, if_neg W.quote.2, if_neg W.quote.1, if_true] at w1 w2
      simp only
      congr 1 <;> omega
    | ask =>
      rw [hs] at w1 w2
      simp only [moved, if_neg W.two, if_neg W.base.2, if_neg W.base.1, if_neg W.two.symm, if_neg W.quote.2, if_neg W.quote.1, if_true] at w1 w2
      simp only
      congr 1 <;> omega
  rw [hloss]
  refine Int.le_trans ?_ (Int.add_le_add_left key _)
  have m1 := Int.mul_le_mul_of_nonneg_right j1 (show 0 ≤ P * s.g.market.quoteLotSize from Int.mul_nonneg hP (by omega))
  have m2 := Int.mul_le_mul_of_nonneg_right j2 (show 0 ≤ s.g.market.baseLotSize by omega)
  unfold valued
  rw [Int.add_mul] at m1 m2
  omega

/-- An instruction of the group, or one that places no order. -/
theorem own_value {K : Pubkey → Bool} {s s' : State} {op : Op} {ts : List FillEvent} {now : Int} {oracle : Option Int} {P : Int}
    (hr : Reachable s) (h : step s op = .ok s') (ht : TradesIn s op s' ts) (ha : ActsAlone K now oracle op) (S : Spread K s now oracle P P)
    (hP : 0 ≤ P) :
    valued s.g.market P (groupBase K s') (groupQuote K s') ≤ valued s.g.market P (groupBase K s) (groupQuote K s) +
      valued s.g.market P (broughtBase K ⟨s, op, s', ts⟩) (broughtQuote K ⟨s, op, s', ts⟩) := by
  obtain ⟨_, _, hb, hq, _⟩ := C42_forever hr
  obtain ⟨b, q, h1, h2, h3, h4⟩ := won_bound hr ht ha S
  obtain ⟨j1, j2, _⟩ := C69_step hr h ht K
  have m1 := Int.mul_le_mul_of_nonneg_right j1 (show 0 ≤ P * s.g.market.quoteLotSize from Int.mul_nonneg hP (by omega))
  have m2 := Int.mul_le_mul_of_nonneg_right j2 (show 0 ≤ s.g.market.baseLotSize by omega)
  have m3 := Int.mul_le_mul_of_nonneg_right h4 (show 0 ≤ s.g.market.baseLotSize by omega)
  rw [h3] at m1
  have e : (b - q) * s.g.market.baseLotSize * (P * s.g.market.quoteLotSize) =
    -((P * q - P * b) * s.g.market.quoteLotSize * s.g.market.baseLotSize) := by ring
  unfold valued
  simp only [Int.add_mul] at m1 m2
  rw [e] at m1
  omega

end OB
