import Verif.Proofs.Bridge
import Verif.Proofs.Fees
/-! Balances changed by `place_take_order`. -/
namespace OB
open Spec

namespace CallRun
variable {env : Env} {book book' : Book} {g g' : Ledger} {r : OrderResult}

theorem rebates_eq (C : CallRun env book g r book' g') : C.R.s.rebates = (r.fills.map (fillRebate g.market)).sum := by
  rw [C.T.rebates, C.fills]
  have hok := C.T.ok
  generalize C.tr = tr at hok
  induction tr with
  | nil => rfl
  | cons v tr ih =>
    have hi := ih (fun w hw => hok w (List.mem_cons_of_mem _ hw))
    have hv := hok v (by simp)
    rw [List.map_cons, List.sum_cons, hi]
    cases hf : v.fate with
    | fill q sf =>
      have e : v.fill? env (g.market.seqNum + 1) = some (mkFill env (g.market.seqNum + 1) v.item (decide (v.item.leaf.quantity - q = 0)) q) := by
        unfold Visit.fill?; rw [hf]
      rw [List.filterMap_cons_some e, List.map_cons, List.sum_cons]
      congr 1
      obtain ⟨_, _, _, _, _, _, _, _, _, h1, h2⟩ := hv.fill q sf hf
      unfold Visit.rebate fillRebate
      rw [hf]
      cases sf with
      | true => exact (if_pos (h1 rfl).1).symm
      | false => exact (if_neg (h2 rfl)).symm
    | cancel => rw [List.filterMap_cons_none (by unfold Visit.fill?; rw [hf])]; unfold Visit.rebate; rw [hf]; simp
    | drop => rw [List.filterMap_cons_none (by unfold Visit.fill?; rw [hf])]; unfold Visit.rebate; rw [hf]; simp
    | ignore => rw [List.filterMap_cons_none (by unfold Visit.fill?; rw [hf])]; unfold Visit.rebate; rw [hf]; simp

/-- The taker fee splits into the rebates of the makers and the rest. -/
theorem fee_split (C : CallRun env book g r book' g') : r.takerFees = (r.fills.map (fillRebate g.market)).sum + r.referrerAmount ∧
    0 ≤ (r.fills.map (fillRebate g.market)).sum ∧ 0 ≤ r.referrerAmount := by
  have h1 := C.P.taker.href
  have h2 := C.P.taker.ref0
  have h3 := C.P.loop.reb0
  rw [C.rebates_eq] at h1 h3
  exact ⟨by omega, h3, h2⟩

theorem feeExact (C : CallRun env book g r book' g') :
    IsCeilFee ((Spec.sumQuote r.fills - selfQuote r.fills) * g.market.quoteLotSize) g.market.takerFee r.takerFees := by
  rw [C.fees_eq]
  have ⟨h1, h2⟩ := C.self0
  have hq := C.core.qls
  exact isCeil_of (Int.mul_nonneg (Int.mul_nonneg (by omega) (by omega)) C.core.fees.t0)

theorem noSelf (C : CallRun env book g r book' g') (h : env.hasOO = false) : selfQuote r.fills = 0 := by
  rw [← C.decr_eq]; exact C.P.loop.noSelf h

end CallRun

theorem Side.pick_eq {α : Type} (s : Side) (a b : α) : s.pick a b = if s = .bid then a else b := by cases s <;> rfl

theorem TakeRun.balances {s s' : State} {c : TakeCtx} {order : Order} {limit : Nat} {r : OrderResult}
    (P : TakeRun s c order limit r s') (hr : Reachable s) (ho : OrderTyped order) :
    s'.g.market.baseDepositTotal = s.g.market.baseDepositTotal + order.side.pick (-P.wd) P.dep ∧
    s'.g.market.quoteDepositTotal = s.g.market.quoteDepositTotal + order.side.pick P.dep (-P.wd) ∧
    s'.g.heap = P.g1.heap ∧ s'.g.accts = P.g1.accts ∧
    ∀ k, tokens s' k = tokens s k
      + (if k = order.side.pick s.g.market.marketQuoteVault s.g.market.marketBaseVault then P.dep else 0)
      - (if k = order.side.pick c.userQuote c.userBase then P.dep else 0)
      + (if k = order.side.pick c.userBase c.userQuote then P.wd else 0)
      - (if k = order.side.pick s.g.market.marketBaseVault s.g.market.marketQuoteVault then P.wd else 0) := by
  have F := P.fx (reachable_Inv hr) ho
  have hg := F.amts.res
  refine ⟨?_, ?_, ?_, ?_, ?_⟩
  · rw [congrArg (fun s => s.g.market.baseDepositTotal) P.res]
    show P.g2.market.baseDepositTotal = _
    rw [congrArg (fun g => g.market.baseDepositTotal) hg, F.frame1.base]
  · rw [congrArg (fun s => s.g.market.quoteDepositTotal) P.res]
    show P.g2.market.quoteDepositTotal = _
    rw [congrArg (fun g => g.market.quoteDepositTotal) hg, F.frame1.quote]
  · rw [congrArg (fun s => s.g.heap) P.res]
    exact congrArg (fun g => g.heap) hg
  · rw [congrArg (fun s => s.g.accts) P.res]
    exact congrArg (fun g => g.accts) hg
  · intro k
    have h1 := (tokenTransfer_spec P.tr1 F.amts.dep0 k).2.2
    have h2 := (tokenTransfer_spec P.tr2 F.wd0 k).2.2
    have e : tokens s' k = (P.t2 k).amount := by unfold tokens; rw [congrArg State.tokens P.res]
    rw [e, h2, h1]
    unfold tokens
    generalize P.dep = d, P.wd = w
    cases order.side <;> rfl

end OB
