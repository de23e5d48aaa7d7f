import Verif.Proofs.Greedy
/-! The size of the order left on the book, and the reasons for leaving none. -/
namespace OB
open Spec

theorem lockPrice_eq {o : Order} (h : OrderValid o) (p : Int) : lockPrice o p = reservedPrice o p := by
  unfold lockPrice reservedPrice Order.pegLimit
  cases hp : o.params with
  | oraclePegged off t lim =>
    have := (h.peg off t lim hp).1
    cases hs : o.side <;> simp only
    · rw [if_pos ⟨by omega, trivial⟩]
    · simp
  | _ => simp

theorem beyondOwn_iff {o : Order} (h : OrderValid o) (p : Int) :
    (o.pegLimit ≠ -1 ∧ o.side.isPriceBetter p o.pegLimit = true) ↔ beyondOwnLimit o p := by
  unfold beyondOwnLimit Order.pegLimit
  cases hp : o.params with
  | oraclePegged off t lim =>
    have := (h.peg off t lim hp).1
    cases hs : o.side <;> simp [Side.isPriceBetter] <;> omega
  | _ => simp

/-- Rounding up as the code does it. -/
theorem ceilDiv_eq {a b : Int} (ha : 0 ≤ a) (hb : 0 < b) : (a + b - 1).tdiv b = ceilDiv a b := by
  rw [Int.tdiv_eq_ediv_of_nonneg (by omega)]
  unfold ceilDiv
  have h1 := Int.ediv_mul_add_emod (a + b - 1) b
  have h2 := Int.emod_nonneg (a + b - 1) (by omega : b ≠ 0)
  have h3 := Int.emod_lt_of_pos (a + b - 1) hb
  have h4 := Int.ediv_mul_add_emod (-a) b
  have h5 := Int.emod_nonneg (-a) (by omega : b ≠ 0)
  have h6 := Int.emod_lt_of_pos (-a) hb
  generalize (a + b - 1) / b = x at *
  generalize (-a) / b = y at *
  -- x * b ≤ a + b - 1 < x * b + b,  y * b ≤ -a < y * b + b
  have k1 : (x + y) * b < b := by rw [Int.add_mul]; omega
  have k2 : -b < (x + y) * b := by rw [Int.add_mul]; omega
  have k3 : x + y < 1 := by
    by_contra hc
    have := Int.mul_le_mul_of_nonneg_right (show 1 ≤ x + y by omega) (by omega : 0 ≤ b)
    omega
  have k4 : -1 < x + y := by
    by_contra hc
    have := Int.mul_le_mul_of_nonneg_right (show x + y ≤ -1 by omega) (by omega : 0 ≤ b)
    omega
  omega

/-- The maker fee set aside, as long as there is something to set it aside from. -/
theorem reserve_cases {m : Market} {q fee : Int} (hm : m.makerFee ≤ 1000000) (h : m.makerFeesCeilI q = .ok fee) :
    (0 ≤ q ∧ fee = if 0 < m.makerFee then ceilDiv (q * m.makerFee) 1000000 else 0) ∨
    (q < 0 ∧ q ≤ fee ∧ q ≤ if 0 < m.makerFee then ceilDiv (q * m.makerFee) 1000000 else 0) := by
  unfold Market.makerFeesCeilI at h
  by_cases hmf : 0 < m.makerFee
  · rw [if_pos hmf, ckI64_ok] at h
    rw [if_pos hmf]
    obtain ⟨_, rfl⟩ := h
    have habs : (m.makerFee.natAbs : Int) = m.makerFee := by omega
    rw [habs]
    unfold Market.ceilFeeDivision feesScale
    by_cases hq : 0 ≤ q
    · left
      refine ⟨hq, ?_⟩
      rw [← ceilDiv_eq (Int.mul_nonneg hq (by omega)) (by omega)]
      congr 1
      omega
    · right
      have hmul : q * 1000000 ≤ q * m.makerFee := Int.mul_le_mul_of_nonpos_left (by omega) hm
      refine ⟨by omega, ?_, ?_⟩
      · generalize q * m.makerFee = x at *
        by_cases hx : 0 ≤ x + (1000000 - 1)
        · rw [Int.tdiv_eq_ediv_of_nonneg hx]; omega
        · have : (x + (1000000 - 1)).tdiv 1000000 = -((-(x + (1000000 - 1))) / 1000000) := by
            rw [← Int.tdiv_eq_ediv_of_nonneg (by omega), Int.neg_tdiv, Int.neg_neg]
          rw [this]; omega
      · unfold ceilDiv
        generalize q * m.makerFee = x at *
        omega
  · rw [if_neg hmf] at h
    cases h
    rw [if_neg hmf]
    by_cases hq : 0 ≤ q
    · exact .inl ⟨hq, rfl⟩
    · exact .inr ⟨by omega, by omega, by omega⟩

theorem tdiv_nonpos {a b : Int} (ha : a ≤ 0) (hb : 0 < b) : a.tdiv b ≤ 0 := by
  have : a.tdiv b = -((-a) / b) := by
    rw [← Int.tdiv_eq_ediv_of_nonneg (by omega), Int.neg_tdiv, Int.neg_neg]
  rw [this]
  have := Int.ediv_nonneg (a := -a) (by omega) (by omega : 0 ≤ b)
  omega

namespace CallRun
variable {env : Env} {book book' : Book} {g g' : Ledger} {r : OrderResult}

/-- The size decided on is the one of the specification, or neither is positive. -/
theorem qty_rest (C : CallRun env book g r book' g') :
    C.R.qty = restSize g.market env.order r C.R.priceLots ∨ (C.R.qty ≤ 0 ∧ restSize g.market env.order r C.R.priceLots ≤ 0) := by
  obtain ⟨_, _, fee, hfee, hq⟩ := postDecision_inv C.R.decision
  obtain ⟨h0, _, h1⟩ := C.fees_le
  have hqls := C.core.qls
  have hl := lockPrice_pos C.valid.order.ok C.R.pricePos
  rw [lockPrice_eq C.valid.order] at hl hq
  have e : asI64 r.takerFees = r.takerFees := by
    unfold asI64
    have : r.takerFees % 18446744073709551616 = r.takerFees := by
      apply Int.emod_eq_of_lt h0
      unfold i64Max at h1; omega
    simp only [this]
    rw [if_pos h1]
  have hrq := C.R.remQuoteEq
  rw [e, ceilDiv_eq h0 hqls, C.taken] at hrq
  have hrq : C.R.remQuote = quoteLeft g.market env.order r := hrq
  have hb : C.R.s.remBase = env.order.maxBaseLots - sumQty r.fills := by have := C.sumBase; omega
  have hmf : C.R.g1.market.makerFee ≤ 1000000 := by rw [C.g1_market.1]; exact C.core.fees.m1
  have hc := reserve_cases hmf hfee
  rw [C.g1_market.1, hrq] at hc
  unfold restSize
  rw [hrq, hb] at hq
  generalize (if 0 < g.market.makerFee then ceilDiv (quoteLeft g.market env.order r * g.market.makerFee) 1000000 else 0) = sf at *
  generalize quoteLeft g.market env.order r = ql at *
  rcases hc with ⟨c1, rfl⟩ | ⟨c1, c2, c3⟩
  · by_cases hn : 0 ≤ ql - fee
    · left; rw [hq, Int.tdiv_eq_ediv_of_nonneg hn]
    · right
      have k1 := tdiv_nonpos (a := ql - fee) (by omega) (by omega : 0 < reservedPrice env.order C.R.priceLots)
      have k2 := Int.ediv_neg_of_neg_of_pos (a := ql - fee) (by omega) (by omega : 0 < reservedPrice env.order C.R.priceLots)
      omega
  · right
    have k1 := tdiv_nonpos (a := ql - fee) (by omega) (by omega : 0 < reservedPrice env.order C.R.priceLots)
    have k2 : (ql - sf) / reservedPrice env.order C.R.priceLots ≤ 0 := by
      have := Int.ediv_le_ediv (a := ql - sf) (b := 0) (by omega : 0 < reservedPrice env.order C.R.priceLots) (by omega)
      simpa using this
    omega

theorem posted_rest (C : CallRun env book g r book' g') {c : Comp} {l : LeafNode} {p : Int} (hp : PostedAt env book r book' c l p) :
    l.quantity = restSize g.market env.order r p ∧ 1 ≤ l.quantity := by
  obtain ⟨c0, l0, h1, h2, h3, h4, h5, h6, _, _, _, _, h7⟩ := C.posted hp.id
  obtain ⟨own, e1, outs, _, hP⟩ := C.ownOf h1
  obtain ⟨leaf, k1, k2, _, _, _, _, _, _, hall⟩ := hP.new
  have hm := hp.mem
  have hid : r.orderId = some l.key := hp.id
  rw [mem_resting, e1] at hm h3
  have key : ∀ c l, l ∈ own.orders c → l.key = leaf.key → c = c0 ∧ l = leaf := by
    intro c l hl hk
    rcases hall c l hl with h | h
    · exact h
    · obtain ⟨_, _, e⟩ := C.target_some hid
      exact absurd (hk.trans (k1.trans e.symm)) (C.fresh_id hid (mem_resting.mpr h))
  obtain ⟨_, _, e⟩ := C.target_some hid
  obtain ⟨rfl, rfl⟩ := key c l hm (by rw [k1]; exact e)
  obtain ⟨_, rfl⟩ := key c l0 h3 h4
  have hpr : p = C.R.priceLots := by
    have := hp.price; rw [h7] at this; injection this with this; exact this.symm
  obtain ⟨hq1, _⟩ := C.posted_qty h1
  rcases C.qty_rest with h | h
  · rw [h6, hpr]; exact ⟨h, hq1⟩
  · omega

/-- Why nothing was posted. -/
theorem not_posted (C : CallRun env book g r book' g') (hid : r.orderId = none) {t : PostOrderType} (ht : postType env.order = some t) :
    (∃ c l q, (env.order.side.invert, c, l) ∈ book'.resting ∧ TradableAt env.nowTs env.oracle env.order.side.invert c l q ∧
      within env.order.side q C.R.priceLots) ∨
    restSize g.market env.order r C.R.priceLots ≤ 0 ∨ beyondOwnLimit env.order C.R.priceLots := by
  obtain ⟨htg, _⟩ := C.target_none hid
  have hd := C.R.decision
  unfold postDecision at hd
  simp only [bind_ok, pure_ok, ckI64_ok, req_ok, assertR] at hd
  obtain ⟨fee, hfee, _, ⟨_, rfl⟩, _, _, _, hfok, hd⟩ := hd
  simp only [Prod.mk.injEq] at hd
  obtain ⟨hd1, hd2⟩ := hd
  rw [htg, hd2] at hd1

  by_cases hb : env.order.pegLimit ≠ -1 ∧ env.order.side.isPriceBetter C.R.priceLots env.order.pegLimit = true
  · right; right
    exact (beyondOwn_iff C.valid.order _).mp hb
  · rw [if_neg hb] at hd1
    by_cases hq : C.R.qty ≤ 0
    · right; left
      rcases C.qty_rest with h | h
      · omega
      · exact h.2
    · left
      rw [if_neg hq] at hd1
      have hpt : env.order.postTarget ≠ none := by
        unfold postType at ht
        unfold Order.postTarget
        cases hp : env.order.params <;> rw [hp] at ht <;> simp at ht ⊢
      cases C.T.ending with
      | all _ h => rw [h] at hd1; exact absurd hd1 hpt
      | spent _ h => rw [h] at hd1; exact absurd hd1 hpt
      | price _ _ _ _ _ h => rw [h] at hd1; exact absurd hd1 hpt
      | block i rest h hv hw rb rq hn hr =>
        have hi : i ∈ callItems env C.ot := by rw [← C.T.split, h]; simp
        have hsp := item_spec C.core C.P.opp hi
        have hnv : ∀ v, Visited C.tr i.comp i.leaf v → False := by
          intro v hv'
          have hn := items_handle_nodup (env := env) C.P.opp
          have m1 := items_ref (C.T.mem hv'.1)
          have m2 := items_ref hi
          rw [hv'.2.1] at m1
          have he := oppL_key C.P.opp m1 m2 (by show v.item.leaf.key = i.leaf.key; rw [hv'.2.2])
          have he : v.item.handle = i.handle := congrArg Prod.fst he
          rw [← C.T.split, h, List.map_append, List.map_cons] at hn
          have := (List.nodup_append.mp hn).2.2 v.item.handle (List.mem_map_of_mem (List.mem_map_of_mem hv'.1)) i.handle (by simp)
          exact this he
        obtain ⟨l', hl', hcase⟩ := C.T.stays C.P.opp (mem_resting.mp hsp.mem) (fun v hv' => (hnv v hv').elim)
        refine ⟨i.comp, i.leaf, i.priceLots, ?_, hsp.valid hv, ?_⟩
        · rw [C.mem_after]
          rcases hcase with ⟨rfl, _⟩ | ⟨v, hv', _⟩
          · exact hl'
          · exact (hnv v hv').elim
        · rw [← within_iff]; exact hw

end CallRun
end OB
