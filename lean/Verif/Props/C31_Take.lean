import Verif.Proofs.TakeIx
import Verif.Props.C02_Budget
/-!
C31  A take order settles exactly against the vaults.
C32  Maker rebates are always funded by taker fees.
-/
namespace OB
open Spec

/-- The taker fee covers the rebates of the makers of all fills; the rest is what the market earns. -/
theorem C32_rebates_funded {env : Env} {book book' : Book} {g g' : Ledger} {r : OrderResult} (h : EngineCall env book g r book' g') :
    0 ≤ (r.fills.map (fillRebate g.market)).sum ∧ (r.fills.map (fillRebate g.market)).sum ≤ r.takerFees ∧
    r.takerFees = (r.fills.map (fillRebate g.market)).sum + r.referrerAmount := by
  obtain ⟨C⟩ := callRun h
  obtain ⟨h1, h2, h3⟩ := C.fee_split
  exact ⟨h2, by omega, h1⟩

theorem takesAs {s s' : State} {c : TakeCtx} {a : PlaceOrderArgs} {o : Order} {r : OrderResult} (ho : takeOrder a = .ok o)
    (P : TakeRun s c o a.limit r s') :
    TakesAs c a { order := o, oracle := c.oracle, hasOO := false, owner := c.signer, nowTs := P.nowTs, limit := a.limit, rem := c.rem } := by
  unfold takeOrder at ho
  simp only [bind_ok, req_ok, pure_ok] at ho
  obtain ⟨_, ht, _, _, p, hp, rfl⟩ := ho
  refine ⟨rfl, rfl, rfl, ?_, ⟨rfl, rfl⟩, (nowU64_eq P.now).1, rfl, rfl, rfl⟩
  cases ht : a.orderType <;> rw [ht] at hp <;> cases hp <;> simp

/-- A take order that buys: the taker pays value of the fills plus rebates of the makers and receives the base of the fills.  The
recorded deposits change by the same amounts. -/
theorem C31_take_bid {s s' : State} {c : TakeCtx} {a : PlaceOrderArgs} (hr : Reachable s) (h : step s (.placeTakeOrder c a) = .ok s')
    (hs : a.side = .bid) :
    ∃ (env : Env) (r : OrderResult) (g1 : Ledger), TakesAs c a env ∧ EngineCall env s.book s.g r s'.book g1 ∧ s'.g.heap = g1.heap ∧
      ∃ base pay fee : Int, base = sumQty r.fills * s.g.market.baseLotSize ∧
      pay = sumQuote r.fills * s.g.market.quoteLotSize + (r.fills.map (fillRebate s.g.market)).sum ∧
      IsCeilFee (sumQuote r.fills * s.g.market.quoteLotSize) s.g.market.takerFee fee ∧
      pay ≤ sumQuote r.fills * s.g.market.quoteLotSize + fee ∧
      s'.g.market.baseDepositTotal = s.g.market.baseDepositTotal - base ∧
      s'.g.market.quoteDepositTotal = s.g.market.quoteDepositTotal + pay ∧
      ∀ k, tokens s' k = tokens s k + moved k c.userQuote s.g.market.marketQuoteVault pay + moved k s.g.market.marketBaseVault c.userBase base := by
  cases step_run h with
  | take _ _ o r ho P =>
    have hcall := P.call hr (takeOrder_typed ho)
    have has := takesAs ho P
    obtain ⟨C⟩ := callRun hcall
    obtain ⟨b1, b2, b3, b4, b5⟩ := P.balances hr (takeOrder_typed ho)
    have F := P.fx (reachable_Inv hr) (takeOrder_typed ho)
    have hos : o.side = .bid := by rw [← hs]; exact has.side
    have hd := F.amts.depEq
    have hw := F.amts.wdEq
    obtain ⟨f1, f2, f3⟩ := C.fee_split
    have hx := C.feeExact
    rw [C.noSelf rfl, Int.sub_zero] at hx
    simp only [hos, pick_bid] at hd hw b1 b2 b5
    rw [C.takenQuote] at hd
    rw [C.takenBase] at hw
    refine ⟨_, r, P.g1, has, hcall, b3, P.wd, P.dep, r.takerFees, hw, by omega, hx, by omega, by omega, b2, ?_⟩
    intro k
    have := b5 k
    unfold moved
    omega
  | idle _ _ h => cases h
  | place _ _ _ _ _ h => cases h
  | edit _ _ _ _ _ _ _ h => cases h
  | consume _ _ _ _ _ h => rcases h with ⟨h, _⟩ | ⟨h, _⟩ <;> cases h
  | cancel _ _ _ _ _ _ _ _ h => rcases h with ⟨h, _⟩ | ⟨h, _⟩ <;> cases h
  | deposit _ _ _ _ _ _ _ _ _ _ h => rcases h with h | h <;> cases h

/-- A take order that sells: the taker pays the base of the fills and receives their value less the rebates of the makers. -/
theorem C31_take_ask {s s' : State} {c : TakeCtx} {a : PlaceOrderArgs} (hr : Reachable s) (h : step s (.placeTakeOrder c a) = .ok s')
    (hs : a.side = .ask) :
    ∃ (env : Env) (r : OrderResult) (g1 : Ledger), TakesAs c a env ∧ EngineCall env s.book s.g r s'.book g1 ∧ s'.g.heap = g1.heap ∧
      ∃ base get fee : Int, base = sumQty r.fills * s.g.market.baseLotSize ∧
      get = sumQuote r.fills * s.g.market.quoteLotSize - (r.fills.map (fillRebate s.g.market)).sum ∧
      IsCeilFee (sumQuote r.fills * s.g.market.quoteLotSize) s.g.market.takerFee fee ∧
      sumQuote r.fills * s.g.market.quoteLotSize - fee ≤ get ∧
      s'.g.market.baseDepositTotal = s.g.market.baseDepositTotal + base ∧
      s'.g.market.quoteDepositTotal = s.g.market.quoteDepositTotal - get ∧
      ∀ k, tokens s' k = tokens s k + moved k c.userBase s.g.market.marketBaseVault base + moved k s.g.market.marketQuoteVault c.userQuote get := by
  cases step_run h with
  | take _ _ o r ho P =>
    have hcall := P.call hr (takeOrder_typed ho)
    have has := takesAs ho P
    obtain ⟨C⟩ := callRun hcall
    obtain ⟨b1, b2, b3, b4, b5⟩ := P.balances hr (takeOrder_typed ho)
    have F := P.fx (reachable_Inv hr) (takeOrder_typed ho)
    have hos : o.side = .ask := by rw [← hs]; exact has.side
    have hd := F.amts.depEq
    have hw := F.amts.wdEq
    obtain ⟨f1, f2, f3⟩ := C.fee_split
    have hx := C.feeExact
    rw [C.noSelf rfl, Int.sub_zero] at hx
    simp only [hos, pick_ask] at hd hw b1 b2 b5
    rw [C.takenQuote] at hw
    rw [C.takenBase] at hd
    refine ⟨_, r, P.g1, has, hcall, b3, P.dep, P.wd, r.takerFees, hd, by omega, hx, by omega, b1, by omega, ?_⟩
    intro k
    have := b5 k
    unfold moved
    omega
  | idle _ _ h => cases h
  | place _ _ _ _ _ h => cases h
  | edit _ _ _ _ _ _ _ h => cases h
  | consume _ _ _ _ _ h => rcases h with ⟨h, _⟩ | ⟨h, _⟩ <;> cases h
  | cancel _ _ _ _ _ _ _ _ h => rcases h with ⟨h, _⟩ | ⟨h, _⟩ <;> cases h
  | deposit _ _ _ _ _ _ _ _ _ _ h => rcases h with h | h <;> cases h

/-- A take order never pays more than its budget: of the accounts other than the vaults only the taker's can lose tokens. -/
theorem C02_take {s s' : State} {c : TakeCtx} {a : PlaceOrderArgs} (hr : Reachable s) (h : step s (.placeTakeOrder c a) = .ok s')
    (hs : a.side = .bid) :
    tokens s c.userQuote - tokens s' c.userQuote ≤ a.maxQuoteLots * s.g.market.quoteLotSize ∧
    ∀ k, k ≠ c.userQuote → k ≠ s.g.market.marketBaseVault → tokens s k ≤ tokens s' k := by
  obtain ⟨env, r, g1, has, hcall, _, base, pay, fee, hb, hp, hf, hpf, _, _, ht⟩ := C31_take_bid hr h hs
  obtain ⟨C⟩ := callRun hcall
  have h1 := C.bid_budget (has.side.trans hs)
  rw [has.quote, C.takenQuote] at h1
  obtain ⟨f1, f2, f3⟩ := C.fee_split
  have hq := C.core.qls
  have hbl := C.core.bls
  have h0 := C.sumQuote0
  have hsb := C.sumBase
  have hsb' := C.P.loop.baseLe
  have hpn : 0 ≤ r.postedQuoteNative + r.makerFees := by
    cases hid : r.orderId with
    | none => obtain ⟨_, _, e2, e3, _⟩ := C.target_none hid; omega
    | some id =>
      obtain ⟨c', hc, _⟩ := C.target_some hid
      obtain ⟨own, outs, _, _, _, _, hP⟩ := C.P.posted c' hc
      have := hP.hasOO
      rw [has.owner.2] at this; cases this
  have hbn : 0 ≤ base := by rw [hb]; exact Int.mul_nonneg (by omega) (by omega)
  have hpn' : 0 ≤ pay := by
    have := Int.mul_nonneg h0 (show 0 ≤ s.g.market.quoteLotSize by omega)
    omega
  refine ⟨?_, ?_⟩
  · have := ht c.userQuote
    unfold moved at this
    have hne : c.userQuote ≠ s.g.market.marketBaseVault := by
      cases step_run h with
      | take _ _ o r ho P =>
        intro e
        have hi := reachable_Inv hr
        have hm := P.mintQ
        unfold mintIs at hm
        simp only [req_ok] at hm
        rw [e, hi.vb.mint, hi.vq.mint] at hm
        exact reachable_mints hr hm.1
      | idle _ _ h => cases h
      | place _ _ _ _ _ h => cases h
      | edit _ _ _ _ _ _ _ h => cases h
      | consume _ _ _ _ _ h => rcases h with ⟨h, _⟩ | ⟨h, _⟩ <;> cases h
      | cancel _ _ _ _ _ _ _ _ h => rcases h with ⟨h, _⟩ | ⟨h, _⟩ <;> cases h
      | deposit _ _ _ _ _ _ _ _ _ _ h => rcases h with h | h <;> cases h
    rw [if_neg hne] at this
    split at this <;> split at this <;> split at this <;> omega
  · intro k hk hk'
    have := ht k
    unfold moved at this
    rw [if_neg hk, if_neg hk'] at this
    split at this <;> split at this <;> omega

/-- The same for a take order that sells: it pays at most its size in base. -/
theorem C03_take {s s' : State} {c : TakeCtx} {a : PlaceOrderArgs} (hr : Reachable s) (h : step s (.placeTakeOrder c a) = .ok s')
    (hs : a.side = .ask) :
    tokens s c.userBase - tokens s' c.userBase ≤ a.maxBaseLots * s.g.market.baseLotSize ∧
    ∀ k, k ≠ c.userBase → k ≠ s.g.market.marketQuoteVault → tokens s k ≤ tokens s' k := by
  obtain ⟨env, r, g1, has, hcall, _, base, get, fee, hb, hp, hf, hpf, _, _, ht⟩ := C31_take_ask hr h hs
  obtain ⟨C⟩ := callRun hcall
  have h1 := C.P.loop.base0
  have hq := C.core.qls
  have hbl := C.core.bls
  have h0 := C.sumQuote0
  have hsb := C.sumBase
  have hsb' := C.P.loop.baseLe
  have hbn : 0 ≤ base := by rw [hb]; exact Int.mul_nonneg (by omega) (by omega)
  have hle : base ≤ a.maxBaseLots * s.g.market.baseLotSize := by
    rw [hb, ← has.base]; exact Int.mul_le_mul_of_nonneg_right (by omega) (by omega)
  have hget : 0 ≤ get := by
    have h3 := isCeil_le (Int.mul_nonneg h0 (show 0 ≤ s.g.market.quoteLotSize by omega)) C.core.fees.t1 hf
    omega
  refine ⟨?_, ?_⟩
  · have := ht c.userBase
    unfold moved at this
    have hne : c.userBase ≠ s.g.market.marketQuoteVault := by
      cases step_run h with
      | take _ _ o r ho P =>
        intro e
        have hi := reachable_Inv hr
        have hm := P.mintB
        unfold mintIs at hm
        simp only [req_ok] at hm
        rw [e, hi.vb.mint, hi.vq.mint] at hm
        exact reachable_mints hr hm.1.symm
      | idle _ _ h => cases h
      | place _ _ _ _ _ h => cases h
      | edit _ _ _ _ _ _ _ h => cases h
      | consume _ _ _ _ _ h => rcases h with ⟨h, _⟩ | ⟨h, _⟩ <;> cases h
      | cancel _ _ _ _ _ _ _ _ h => rcases h with ⟨h, _⟩ | ⟨h, _⟩ <;> cases h
      | deposit _ _ _ _ _ _ _ _ _ _ h => rcases h with h | h <;> cases h
    rw [if_neg hne] at this
    split at this <;> split at this <;> split at this <;> omega
  · intro k hk hk'
    have := ht k
    unfold moved at this
    rw [if_neg hk, if_neg hk'] at this
    split at this <;> split at this <;> omega

namespace Scenario

/-- Rebate of 0.02 % to the maker. -/
def argsRebate : CreateArgs := { args with makerFee := -200 }

def takeCtx (i : Nat) : TakeCtx :=
  { signer := 31 + i, penaltyPayer := 31 + i, admin := 0, userBase := 51 + i, userQuote := 61 + i, now := 1000, oracle := some 1000, rem := [41] }

end Scenario

/-! A taker buys 2 lots at 1007, 5 at 1010 and 1 at 1020: value 80 840, rebates 4 + 10 + 2; the full taker fee would be 33. -/
open Scenario in
example : ∃ (s s' : State), Reachable s ∧
    step s (.placeTakeOrder (takeCtx 2) { limitOrder .bid 1030 8 9 with orderType := .immediateOrCancel }) = .ok s' ∧
    decide (tokens s 63 - tokens s' 63 = 80840 + 16 ∧ tokens s' 53 - tokens s 53 = 800) = true :=
  step_spec (a := argsRebate) (ops := ops0)
    (p := fun s s' => decide (tokens s 63 - tokens s' 63 = 80840 + 16 ∧ tokens s' 53 - tokens s 53 = 800)) (by decide +kernel)

open Scenario in
example : ∃ (s s' : State), Reachable s ∧
    step s (.placeTakeOrder (takeCtx 2) { limitOrder .ask 900 4 9 with orderType := .fillOrKill }) = .ok s' ∧
    decide (tokens s' 63 - tokens s 63 = 39700 - 6 ∧ tokens s 53 - tokens s' 53 = 400) = true :=
  step_spec (a := argsRebate) (ops := ops0)
    (p := fun s s' => decide (tokens s' 63 - tokens s 63 = 39700 - 6 ∧ tokens s 53 - tokens s' 53 = 400)) (by decide +kernel)

end OB
