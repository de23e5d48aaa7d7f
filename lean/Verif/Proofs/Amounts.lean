import Verif.Proofs.Call
/-! Amounts of a call of the matching engine. -/
namespace OB
open Spec

theorem ceilFee_scale {mf a n : Int} (ha : 0 ≤ a) (hn : 0 ≤ n) : ceilFee mf (a * n) ≤ ceilFee mf a * n := by
  unfold ceilFee
  have h1 : a * max mf 0 ≤ (a * max mf 0 + 999999) / 1000000 * 1000000 := by omega
  have h2 := Int.mul_le_mul_of_nonneg_right h1 hn
  have e1 : a * n * max mf 0 = a * max mf 0 * n := by rw [Int.mul_right_comm]
  rw [e1]
  have e2 : (a * max mf 0 + 999999) / 1000000 * 1000000 * n = (a * max mf 0 + 999999) / 1000000 * n * 1000000 := by
    rw [Int.mul_right_comm]
  rw [e2] at h2
  generalize (a * max mf 0 + 999999) / 1000000 * n = x at *
  generalize a * max mf 0 * n = y at *
  omega

theorem ceilFee_mono {mf a b : Int} (h : a ≤ b) : ceilFee mf a ≤ ceilFee mf b := by
  unfold ceilFee
  have := Int.mul_le_mul_of_nonneg_right h (show 0 ≤ max mf 0 by omega)
  omega

theorem ceilTaker_mono {tf a b : Int} (ht : 0 ≤ tf) (h : a ≤ b) : ceilTaker tf a ≤ ceilTaker tf b := by
  unfold ceilTaker
  have := Int.mul_le_mul_of_nonneg_right h ht
  omega

/-- The ceiling of a fee on a non-positive amount does not lower it further than the amount itself. -/
theorem makerFeesCeilI_neg {m : Market} {a f : Int} (ha : a ≤ 0) (hm : m.makerFee ≤ 1000000) (h : m.makerFeesCeilI a = .ok f) : a ≤ f := by
  unfold Market.makerFeesCeilI at h
  split at h
  · rename_i hp
    rw [ckI64_ok] at h
    obtain ⟨_, rfl⟩ := h
    rw [natAbs_pos hp]
    unfold Market.ceilFeeDivision feesScale
    have h1 : a * 1000000 ≤ a * m.makerFee := Int.mul_le_mul_of_nonpos_left ha hm
    have h2 : a * m.makerFee ≤ 0 := Int.mul_nonpos_of_nonpos_of_nonneg ha (by omega)
    generalize a * m.makerFee = y at *
    by_cases h0 : 0 ≤ y + (1000000 - 1)
    · rw [Int.tdiv_eq_ediv_of_nonneg h0]; omega
    · have : (y + (1000000 - 1)).tdiv 1000000 = -((-(y + (1000000 - 1))) / 1000000) := by
        rw [← Int.tdiv_eq_ediv_of_nonneg (show 0 ≤ -(y + (1000000 - 1)) by omega), Int.neg_tdiv]; omega
      rw [this]
      omega
  · cases h; omega

namespace CallRun
variable {env : Env} {book book' : Book} {g g' : Ledger} {r : OrderResult}

theorem sumQuote0 (C : CallRun env book g r book' g') : 0 ≤ Spec.sumQuote r.fills := by
  have := C.sumQuote; have := C.P.loop.quoteLe; omega

theorem taken (C : CallRun env book g r book' g') : C.R.quoteTaken = Spec.sumQuote r.fills := by
  have := C.sumQuote; have := C.P.taker.qt; omega

theorem takenBase (C : CallRun env book g r book' g') : r.totalBaseTakenNative = sumQty r.fills * g.market.baseLotSize := by
  have h := C.P.taker.base
  have := C.sumBase
  rw [show env.order.maxBaseLots - C.R.s.remBase = sumQty r.fills by omega] at h
  exact h

theorem takenQuote (C : CallRun env book g r book' g') : r.totalQuoteTakenNative = Spec.sumQuote r.fills * g.market.quoteLotSize := by
  have h := C.P.taker.quote
  have := C.sumQuote
  rw [show C.R.maxQ - C.R.s.remQuote = Spec.sumQuote r.fills by omega] at h
  exact h

/-- Value of the fills with the taker's own orders. -/
def selfQuote (fs : List FillEvent) : Int := (fs.map (fun f => if f.maker = f.taker then f.quantity * f.price else 0)).sum

theorem decr_eq (C : CallRun env book g r book' g') : C.R.s.decr = selfQuote r.fills := by
  rw [C.T.decr, C.fills]
  unfold selfQuote
  have hok := C.T.ok
  generalize C.tr = tr at hok
  induction tr with
  | nil => rfl
  | cons v tr ih =>
    have hi := ih (fun w hw => hok w (List.mem_cons_of_mem _ hw))
    have hv := hok v (by simp)
    rw [List.map_cons, List.sum_cons, hi]
    cases hf : v.fate with
    | fill q sf =>
      have e : v.fill? env (g.market.seqNum + 1) = some (mkFill env (g.market.seqNum + 1) v.item (decide (v.item.leaf.quantity - q = 0)) q) := by
        unfold Visit.fill?; rw [hf]
      rw [List.filterMap_cons_some e, List.map_cons, List.sum_cons]
      congr 1
      obtain ⟨_, _, _, _, _, _, _, _, _, h1, h2⟩ := hv.fill q sf hf
      unfold Visit.selfQ
      rw [hf]
      cases sf with
      | true => exact (if_pos (h1 rfl).1).symm
      | false => exact (if_neg (h2 rfl)).symm
    | cancel => rw [List.filterMap_cons_none (by unfold Visit.fill?; rw [hf])]; unfold Visit.selfQ; rw [hf]; simp
    | drop => rw [List.filterMap_cons_none (by unfold Visit.fill?; rw [hf])]; unfold Visit.selfQ; rw [hf]; simp
    | ignore => rw [List.filterMap_cons_none (by unfold Visit.fill?; rw [hf])]; unfold Visit.selfQ; rw [hf]; simp

theorem othersQuote_eq (fs : List FillEvent) : othersQuote fs = Spec.sumQuote fs - selfQuote fs := by
  unfold othersQuote Spec.sumQuote selfQuote
  induction fs with
  | nil => rfl
  | cons f fs ih =>
    simp only [List.map_cons, List.sum_cons]
    split <;> omega

theorem fees_eq (C : CallRun env book g r book' g') :
    r.takerFees = ceilTaker g.market.takerFee ((Spec.sumQuote r.fills - selfQuote r.fills) * g.market.quoteLotSize) := by
  have h := C.P.taker.hfees
  have := C.sumQuote
  rw [C.decr_eq, show C.R.maxQ - C.R.s.remQuote = Spec.sumQuote r.fills by omega] at h
  exact h

theorem self0 (C : CallRun env book g r book' g') : 0 ≤ selfQuote r.fills ∧ selfQuote r.fills ≤ Spec.sumQuote r.fills := by
  have h1 := C.P.loop.decr0
  have h2 := C.P.loop.decrLe
  have := C.sumQuote
  rw [C.decr_eq] at h1 h2
  omega

theorem fees_le (C : CallRun env book g r book' g') :
    0 ≤ r.takerFees ∧ r.takerFees ≤ ceilTaker g.market.takerFee (Spec.sumQuote r.fills * g.market.quoteLotSize) ∧ r.takerFees ≤ i64Max := by
  have hq := C.core.qls
  have ⟨h1, h2⟩ := C.self0
  have t0 := C.core.fees.t0
  have t1 := C.core.fees.t1
  have h3 : (Spec.sumQuote r.fills - selfQuote r.fills) * g.market.quoteLotSize ≤ Spec.sumQuote r.fills * g.market.quoteLotSize :=
    Int.mul_le_mul_of_nonneg_right (by omega) (by omega)
  have h4 : 0 ≤ (Spec.sumQuote r.fills - selfQuote r.fills) * g.market.quoteLotSize := Int.mul_nonneg (by omega) (by omega)
  have h5 := ceilTaker_mono t0 h3
  have h6 := C.P.taker.quoteLe
  rw [C.takenQuote] at h6
  rw [C.fees_eq]
  refine ⟨?_, h5, ?_⟩
  · unfold ceilTaker
    have := Int.mul_nonneg h4 t0
    omega
  · refine Int.le_trans h5 ?_
    unfold ceilTaker
    have : Spec.sumQuote r.fills * g.market.quoteLotSize * g.market.takerFee ≤ Spec.sumQuote r.fills * g.market.quoteLotSize * 1000000 :=
      Int.mul_le_mul_of_nonneg_left t1 (by omega)
    omega

/-- Whole quote lots of the taker fee. -/
theorem remQuote (C : CallRun env book g r book' g') : ∃ fl, C.R.remQuote = env.order.maxQuoteLotsIncludingFees - Spec.sumQuote r.fills - fl ∧
    r.takerFees ≤ fl * g.market.quoteLotSize ∧ 0 ≤ fl ∧ (r.takerFees = 0 → fl = 0) := by
  obtain ⟨h0, _, h1⟩ := C.fees_le
  have hq := C.core.qls
  have h := C.R.remQuoteEq
  have e : asI64 r.takerFees = r.takerFees := by
    unfold asI64
    have : r.takerFees % 18446744073709551616 = r.takerFees := by
      apply Int.emod_eq_of_lt h0
      unfold i64Max at h1; omega
    simp only [this]
    rw [if_pos h1]
  rw [e, Int.tdiv_eq_ediv_of_nonneg (by omega), C.taken] at h
  refine ⟨_, h, ?_, Int.ediv_nonneg (by omega) (by omega), ?_⟩
  · have := Int.emod_add_mul_ediv (r.takerFees + g.market.quoteLotSize - 1) g.market.quoteLotSize
    have h3 := Int.emod_lt_of_pos (r.takerFees + g.market.quoteLotSize - 1) hq
    rw [Int.mul_comm] at this
    omega
  · intro hz; rw [hz]; apply Int.ediv_eq_zero_of_lt <;> omega

theorem g1_market (C : CallRun env book g r book' g') : C.R.g1.market.makerFee = g.market.makerFee ∧
    C.R.g1.market.quoteLotSize = g.market.quoteLotSize ∧ C.R.g1.market.baseLotSize = g.market.baseLotSize := by
  have h := C.P.taker.frame
  have h' := C.P.loop.frame
  exact ⟨h.maker.trans h'.maker, h.qls.trans h'.qls, h.bls.trans h'.bls⟩

/-- The quantity posted. -/
theorem posted_qty (C : CallRun env book g r book' g') {c : Comp} (hc : C.R.target = some c) :
    1 ≤ C.R.qty ∧ C.R.qty ≤ C.R.s.remBase ∧ 1 ≤ C.R.remQuote ∧
    C.R.qty * lockPrice env.order C.R.priceLots + ceilFee g.market.makerFee C.R.remQuote ≤ C.R.remQuote := by
  obtain ⟨_, h1, fee, hfee, hqty⟩ := postDecision_inv C.R.decision
  have hq1 : 1 ≤ C.R.qty := by
    rcases h1 with h1 | h1
    · rw [hc] at h1; cases h1
    · exact h1.2.1
  have hl := lockPrice_pos C.valid.order.ok C.R.pricePos
  have hdiv : 1 ≤ (C.R.remQuote - fee).tdiv (lockPrice env.order C.R.priceLots) := by omega
  have hpos : 1 ≤ C.R.remQuote - fee := by
    by_cases hx : 0 ≤ C.R.remQuote - fee
    · by_cases hz : C.R.remQuote - fee = 0
      · rw [hz] at hdiv; simp at hdiv
      · omega
    · exfalso
      have : (C.R.remQuote - fee).tdiv (lockPrice env.order C.R.priceLots) ≤ 0 := by
        have e : C.R.remQuote - fee = -(fee - C.R.remQuote) := by omega
        rw [e, Int.neg_tdiv]
        have := Int.tdiv_nonneg (a := fee - C.R.remQuote) (b := lockPrice env.order C.R.priceLots) (by omega) (by omega)
        omega
      omega
  have hr1 : 1 ≤ C.R.remQuote := by
    by_cases hx : 1 ≤ C.R.remQuote
    · exact hx
    · exfalso
      have := makerFeesCeilI_neg (by omega) (by rw [C.g1_market.1]; exact C.core.fees.m1) hfee
      omega
  have hfe : fee = ceilFee g.market.makerFee C.R.remQuote := by
    rw [← C.g1_market.1]; exact makerFeesCeilI_inv (by omega) hfee
  rw [Int.tdiv_eq_ediv_of_nonneg (by omega)] at hqty
  have h2 := Int.ediv_mul_le (C.R.remQuote - fee) (show lockPrice env.order C.R.priceLots ≠ 0 by omega)
  have h3 : C.R.qty * lockPrice env.order C.R.priceLots ≤
      (C.R.remQuote - fee) / lockPrice env.order C.R.priceLots * lockPrice env.order C.R.priceLots :=
    Int.mul_le_mul_of_nonneg_right (by omega) (by omega)
  refine ⟨hq1, by omega, hr1, by omega⟩

theorem target_some (C : CallRun env book g r book' g') {id : Nat} (h : r.orderId = some id) :
    ∃ c, C.R.target = some c ∧ id = newNodeKey env.order.side C.R.priceData (g.market.seqNum + 1) := by
  rcases C.R.post with ⟨_, e, _⟩ | ⟨c, _, _, e1, e2, _⟩
  · rw [h] at e; cases e
  · rw [h] at e2; injection e2 with e2; exact ⟨c, e1, e2⟩

theorem target_none (C : CallRun env book g r book' g') (h : r.orderId = none) : C.R.target = none ∧ r.postedBaseNative = 0 ∧
    r.postedQuoteNative = 0 ∧ r.makerFees = 0 ∧ g' = C.R.g1 := by
  rcases C.R.post with ⟨e0, _, e1, e2, e3, _, _, e4⟩ | ⟨c, _, _, e1, e2, _⟩
  · exact ⟨e0, e1, e2, e3, e4⟩
  · rw [h] at e2; cases e2

/-- The total paid for a bid. -/
theorem bid_budget (C : CallRun env book g r book' g') (hs : env.order.side = .bid) :
    r.totalQuoteTakenNative + r.takerFees + r.postedQuoteNative + r.makerFees ≤
      env.order.maxQuoteLotsIncludingFees * g.market.quoteLotSize := by
  have hq := C.core.qls
  rw [C.takenQuote]
  cases hid : r.orderId with
  | none =>
    obtain ⟨_, _, e2, e3, _⟩ := C.target_none hid
    rw [e2, e3]
    obtain ⟨f0, f1, _⟩ := C.fees_le
    have hsum := C.sumQuote
    have hr0 := C.P.loop.quote0
    cases hpo : env.order.isPostOnly with
    | true =>
      have hfl : r.fills = [] := by rw [C.R.fills]; exact C.P.loop.post hpo
      have e4 : Spec.sumQuote r.fills = 0 := by rw [hfl]; rfl
      rw [e4] at f1 ⊢
      have : ceilTaker g.market.takerFee (0 * g.market.quoteLotSize) = 0 := by rw [Int.zero_mul]; exact ceilTaker_zero _
      have := Int.mul_nonneg C.valid.order.quote.1 (show 0 ≤ g.market.quoteLotSize by omega)
      omega
    | false =>
      have hm := C.maxQ_bid hs hpo
      have t0 := C.core.fees.t0
      have h1 := Int.ediv_mul_le (env.order.maxQuoteLotsIncludingFees * 1000000) (show 1000000 + g.market.takerFee ≠ 0 by omega)
      rw [← hm] at h1
      have h2 : Spec.sumQuote r.fills * (1000000 + g.market.takerFee) ≤ C.R.maxQ * (1000000 + g.market.takerFee) :=
        Int.mul_le_mul_of_nonneg_right (by omega) (by omega)
      have h3 : Spec.sumQuote r.fills * (1000000 + g.market.takerFee) * g.market.quoteLotSize ≤
          env.order.maxQuoteLotsIncludingFees * 1000000 * g.market.quoteLotSize :=
        Int.mul_le_mul_of_nonneg_right (by omega) (by omega)
      have e5 : Spec.sumQuote r.fills * (1000000 + g.market.takerFee) * g.market.quoteLotSize =
          Spec.sumQuote r.fills * g.market.quoteLotSize * 1000000 + Spec.sumQuote r.fills * g.market.quoteLotSize * g.market.takerFee := by
        rw [Int.mul_add, Int.add_mul, Int.mul_right_comm _ 1000000, Int.mul_right_comm _ g.market.takerFee]
      have e6 : env.order.maxQuoteLotsIncludingFees * 1000000 * g.market.quoteLotSize =
          env.order.maxQuoteLotsIncludingFees * g.market.quoteLotSize * 1000000 := by rw [Int.mul_right_comm]
      rw [e5, e6] at h3
      unfold ceilTaker at f1
      omega
  | some id =>
    obtain ⟨c, hc, _⟩ := C.target_some hid
    obtain ⟨own, outs, _, _, _, _, hp⟩ := C.P.posted c hc
    obtain ⟨q1, q2, q3, q4⟩ := C.posted_qty hc
    obtain ⟨fl, e1, e2, e3, _⟩ := C.remQuote
    have hpq := hp.pqEq
    have hmf := hp.mfEq
    rw [if_pos hs] at hmf
    rw [C.g1_market.2.1] at hpq hmf
    rw [C.g1_market.1] at hmf
    have hl := lockPrice_pos C.valid.order.ok C.R.pricePos
    have hp0 : 0 ≤ C.R.qty * lockPrice env.order C.R.priceLots := Int.mul_nonneg (by omega) (by omega)
    have hcf0 : 0 ≤ ceilFee g.market.makerFee C.R.remQuote := ceilFee_nonneg (by omega)
    generalize C.R.qty * lockPrice env.order C.R.priceLots = p at *
    have h1 := ceilFee_scale (mf := g.market.makerFee) (a := p) (n := g.market.quoteLotSize) hp0 (by omega)
    have h2 := ceilFee_mono (mf := g.market.makerFee) (show p ≤ C.R.remQuote by omega)
    have h3 : (p + ceilFee g.market.makerFee p) * g.market.quoteLotSize ≤ C.R.remQuote * g.market.quoteLotSize :=
      Int.mul_le_mul_of_nonneg_right (by omega) (by omega)
    rw [Int.add_mul] at h3
    have h4 : C.R.remQuote * g.market.quoteLotSize = env.order.maxQuoteLotsIncludingFees * g.market.quoteLotSize -
        Spec.sumQuote r.fills * g.market.quoteLotSize - fl * g.market.quoteLotSize := by
      rw [e1, Int.sub_mul, Int.sub_mul]
    rw [hmf, hpq]
    omega

theorem base_budget (C : CallRun env book g r book' g') :
    r.totalBaseTakenNative + r.postedBaseNative ≤ env.order.maxBaseLots * g.market.baseLotSize := by
  have hb := C.core.bls
  rw [C.takenBase]
  have hsum := C.sumBase
  have hr0 := C.P.loop.base0
  have key : ∀ q, 0 ≤ q → q ≤ C.R.s.remBase → sumQty r.fills * g.market.baseLotSize + q * g.market.baseLotSize ≤
      env.order.maxBaseLots * g.market.baseLotSize := by
    intro q h0 h1
    rw [← Int.add_mul]
    exact Int.mul_le_mul_of_nonneg_right (by omega) (by omega)
  cases hid : r.orderId with
  | none =>
    obtain ⟨_, e1, _⟩ := C.target_none hid
    have := key 0 (by omega) (by omega)
    omega
  | some id =>
    obtain ⟨c, hc, _⟩ := C.target_some hid
    obtain ⟨own, outs, _, _, _, _, hp⟩ := C.P.posted c hc
    obtain ⟨q1, q2, _, _⟩ := C.posted_qty hc
    have e := hp.pbEq
    rw [C.g1_market.2.2] at e
    rw [e]
    exact key _ (by omega) (by omega)

end CallRun
end OB
