import Verif.Proofs.LivePlace
/-! `place_order` and `place_order_pegged`: the price of the order. -/
namespace OB
open Spec

theorem fixedPriceData_some {p : Int} (h : 1 ≤ p) : ∃ d, fixedPriceData p = .ok d := by
  unfold fixedPriceData
  rw [req_true h, ok_bind]; exact ⟨_, rfl⟩

/-- A price that may slide: it is found, or the order is refused. -/
theorem slide_price {s : State} {c : PlaceCtx} {o : Order} {t : PlaceOrderType} {stb : SelfTradeBehavior} {cost lim : Int}
    {pt : PostOrderType} (hi : Inv s) (hpt : pt = .postOnlySlide → t = .postOnlySlide) (h1 : 1 ≤ lim) (h2 : lim ≤ i64Max)
    (hpl : o.priceLots c.now.toNat c.oracle s.book = priceForOrderType o.side c.now.toNat c.oracle lim pt s.book)
    (hd : ∀ p, 1 ≤ p → p ≤ i64Max → ∃ d, o.priceData c.oracle p = .ok d) :
    (∃ p d, o.priceLots c.now.toNat c.oracle s.book = .ok p ∧ 1 ≤ p ∧ o.priceData c.oracle p = .ok d) ∨
    (∃ e, Refusal s c o.side t stb cost e ∧ o.price c.now.toNat c.oracle s.book = .error e) := by
  rcases slidePrice_ok (env := placeEnv c o c.now.toNat 0) hi.core h1 h2 pt with ⟨p, e1, e2, e3⟩ | ⟨hs, cp, l, q, hm, ht, h⟩
  · obtain ⟨d, hd⟩ := hd p e2 e3
    exact .inl ⟨p, d, hpl.trans e1, e2, hd⟩
  · refine .inr ?_
    rcases h with ⟨hb, hq, p, e1, e2⟩ | ⟨hb, hq, e1⟩
    · refine ⟨.invalidPriceLots, .slide _ (.inl ⟨hb, rfl⟩) (hpt hs) cp l q hm ht ?_, ?_⟩
      · rw [if_pos (show o.side = .bid from hb)]; exact hq
      · unfold Order.price
        rw [hpl.trans e1, ok_bind, req_false (by omega), err_bind]
    · have hb' : o.side = .ask := hb
      refine ⟨.panic, .slide _ (.inr ⟨hb, rfl⟩) (hpt hs) cp l q hm ht ?_, ?_⟩
      · rw [if_neg (by rw [hb']; decide)]; exact hq
      · unfold Order.price
        rw [hpl.trans e1, err_bind]

theorem toPost_slide {t : PlaceOrderType} {pt : PostOrderType} (h : t.toPost = .ok pt) :
    (pt = .postOnlySlide → t = .postOnlySlide) ∧ (t = .limit ∨ t = .postOnly ∨ t = .postOnlySlide) := by
  cases t <;> cases h <;> simp

theorem placeOrderIx_ok {s : State} {c : PlaceCtx} {a : PlaceOrderArgs} (hr : Reachable s) (ht : a.typed) (hp : 1 ≤ a.priceLots)
    (hm : MayPlace s c a.side) (hc : CountersFit s) (hf : AmountsFit s a.side a.maxBaseLots a.maxQuoteLots a.limit)
    (hlf : LotsFit s c.ooKey a.side a.maxBaseLots a.maxQuoteLots) :
    (∃ r, placeOrderIx s c a = .ok r) ∨
    (∃ e, Refusal s c a.side a.orderType a.stb (maxCost s a.side a.maxBaseLots a.maxQuoteLots) e ∧ placeOrderIx s c a = .error e) := by
  have hi := reachable_Inv hr
  have hx := reachable_Extra hr
  obtain ⟨res, hres⟩ : ∃ res, placeOrderIx s c a = res := ⟨_, rfl⟩
  rw [hres]
  unfold placeOrderIx at hres
  have hnow : nowU64 c.now = .ok c.now.toNat := by
    unfold nowU64 assertR
    rw [req_true hm.clock, ok_bind]; rfl
  rw [hnow, ok_bind] at hres
  have hord : ∃ oo, a.order c.now.toNat = .ok oo ∧ (oo = none ∨ ∃ o, oo = some o ∧ orderParams a.orderType a.priceLots = .ok o.params ∧
      o.side = a.side ∧ o.maxBaseLots = a.maxBaseLots ∧ o.maxQuoteLotsIncludingFees = a.maxQuoteLots ∧ o.selfTradeBehavior = a.stb) := by
    unfold PlaceOrderArgs.order
    rw [req_true ht, ok_bind, req_true hp, ok_bind]
    split
    · exact ⟨none, rfl, .inl rfl⟩
    · rename_i tif _
      have hpar : ∃ p, orderParams a.orderType a.priceLots = .ok p := by
        unfold orderParams PlaceOrderType.toPost
        cases a.orderType <;> exact ⟨_, rfl⟩
      obtain ⟨p, hpar⟩ := hpar
      rw [hpar, ok_bind]
      exact ⟨_, rfl, .inr ⟨_, rfl, rfl, rfl, rfl, rfl, rfl⟩⟩
  obtain ⟨oo, ho, hoo⟩ := hord
  rw [ho, ok_bind] at hres
  rcases hoo with rfl | ⟨o, rfl, hpar, e1, e2, e3, e4⟩
  · simp only at hres
    have hctl := hm.signer
    obtain ⟨b, hb, hsig⟩ := hctl
    unfold authPlace State.open? signerOk at hres
    rw [req_true hm.isOpen, ok_bind, req_true hm.notVault, ok_bind, (Accts.get_ok).mpr hb, ok_bind,
      req_true (controls_owner hb ⟨b, hb, hsig⟩), ok_bind, req_true hm.admin, ok_bind] at hres
    exact .inl ⟨_, hres.symm⟩
  · simp only at hres
    have htyped := PlaceOrderArgs.order_typed ho
    have hmade : OrderMade o a.orderType a.stb := by
      refine ⟨htyped, ?_, ?_, e4⟩
      · unfold Order.postTarget
        unfold orderParams at hpar
        intro hne
        cases hto : a.orderType with
        | market => rw [hto] at hpar; injection hpar with hpar; rw [← hpar] at hne; exact absurd rfl hne
        | immediateOrCancel => rw [hto] at hpar; injection hpar with hpar; rw [← hpar] at hne; exact absurd rfl hne
        | fillOrKill => rw [hto] at hpar; injection hpar with hpar; rw [← hpar] at hne; exact absurd rfl hne
        | limit => simp
        | postOnly => simp
        | postOnlySlide => simp
      · unfold Order.isFillOrKill
        unfold orderParams at hpar
        intro hk
        cases hto : a.orderType with
        | fillOrKill => rfl
        | _ =>
          rw [hto] at hpar
          injection hpar with hpar
          rw [← hpar] at hk
          cases hk
    have hpl : (∃ p d, o.priceLots c.now.toNat c.oracle s.book = .ok p ∧ 1 ≤ p ∧ o.priceData c.oracle p = .ok d) ∨
      (∃ e, Refusal s c o.side a.orderType a.stb (maxCost s o.side o.maxBaseLots o.maxQuoteLotsIncludingFees) e ∧
        o.price c.now.toNat c.oracle s.book = .error e) := by
      have hle := ht.1.2
      have post : ∀ pt, o.params = .fixed a.priceLots pt → (pt = .postOnlySlide → a.orderType = .postOnlySlide) →
          (∃ p d, o.priceLots c.now.toNat c.oracle s.book = .ok p ∧ 1 ≤ p ∧ o.priceData c.oracle p = .ok d) ∨
          (∃ e, Refusal s c o.side a.orderType a.stb (maxCost s o.side o.maxBaseLots o.maxQuoteLotsIncludingFees) e ∧
            o.price c.now.toNat c.oracle s.book = .error e) := by
        intro pt hpp hs
        refine slide_price (lim := a.priceLots) (pt := pt) hi hs hp hle ?_ ?_
        · unfold Order.priceLots; rw [hpp]
        · intro p h1 h2
          unfold Order.priceData; rw [hpp]; exact fixedPriceData_some h1
      have imm : ∀ p, o.priceLots c.now.toNat c.oracle s.book = .ok p → 1 ≤ p → (∀ x y z, o.params ≠ .oraclePegged x y z) →
          (∃ p d, o.priceLots c.now.toNat c.oracle s.book = .ok p ∧ 1 ≤ p ∧ o.priceData c.oracle p = .ok d) := by
        intro p h1 h2 h3
        obtain ⟨d, hd⟩ := fixedPriceData_some h2
        refine ⟨p, d, h1, h2, ?_⟩
        unfold Order.priceData
        split
        · rename_i x y z hh; exact absurd hh (h3 x y z)
        · exact hd
      unfold orderParams PlaceOrderType.toPost at hpar
      cases hto : a.orderType with
      | market =>
        rw [hto] at hpar; injection hpar with hpar
        refine .inl (imm (marketOrderLimitForSide o.side) (by unfold Order.priceLots; rw [← hpar]) ?_ (by rw [← hpar]; intros; simp))
        unfold marketOrderLimitForSide; cases o.side <;> decide
      | immediateOrCancel =>
        rw [hto] at hpar; injection hpar with hpar
        exact .inl (imm a.priceLots (by unfold Order.priceLots; rw [← hpar]) hp (by rw [← hpar]; intros; simp))
      | fillOrKill =>
        rw [hto] at hpar; injection hpar with hpar
        exact .inl (imm a.priceLots (by unfold Order.priceLots; rw [← hpar]) hp (by rw [← hpar]; intros; simp))
      | limit =>
        rw [hto] at hpar post; injection hpar with hpar
        exact post _ hpar.symm (by simp)
      | postOnly =>
        rw [hto] at hpar post; injection hpar with hpar
        exact post _ hpar.symm (by simp)
      | postOnlySlide =>
        rw [hto] at hpar post; injection hpar with hpar
        exact post _ hpar.symm (by simp)
    have hmain := placeOrder_ok (limit := a.limit) hi hx hr (by rw [e1]; exact hm) hc (by rw [e1, e2, e3]; exact hf) (by rw [e1, e2, e3]; exact hlf) ht.2.2.2.2.2 hmade hpl
    rw [e1, e2, e3] at hmain
    rcases hmain with ⟨r, hk⟩ | ⟨e, he, hk⟩
    · rw [hk, ok_bind] at hres; exact .inl ⟨_, hres.symm⟩
    · rw [hk, err_bind] at hres; exact .inr ⟨e, he, hres.symm⟩

theorem placeOrderPeggedIx_ok {s : State} {c : PlaceCtx} {a : PlaceOrderPeggedArgs} (hr : Reachable s) (ht : a.typed)
    (hpo : a.orderType = .limit ∨ a.orderType = .postOnly ∨ a.orderType = .postOnlySlide) (hpl : 1 ≤ a.pegLimit)
    {op : Int} (hop : c.oracle = some op) (hop0 : 0 ≤ op) (hp : 1 ≤ op + a.offset) (hp2 : op + a.offset ≤ i64Max)
    (hm : MayPlace s c a.side) (hc : CountersFit s) (hf : AmountsFit s a.side a.maxBaseLots a.maxQuoteLots a.limit)
    (hlf : LotsFit s c.ooKey a.side a.maxBaseLots a.maxQuoteLots) :
    (∃ r, placeOrderPeggedIx s c a = .ok r) ∨
    (∃ e, Refusal s c a.side a.orderType a.stb (maxCost s a.side a.maxBaseLots a.maxQuoteLots) e ∧ placeOrderPeggedIx s c a = .error e) := by
  have hi := reachable_Inv hr
  have hx := reachable_Extra hr
  obtain ⟨res, hres⟩ : ∃ res, placeOrderPeggedIx s c a = res := ⟨_, rfl⟩
  rw [hres]
  unfold placeOrderPeggedIx at hres
  have hnow : nowU64 c.now = .ok c.now.toNat := by
    unfold nowU64 assertR
    rw [req_true hm.clock, ok_bind]; rfl
  rw [hnow, ok_bind] at hres
  obtain ⟨pt, hpt⟩ : ∃ pt, a.orderType.toPost = .ok pt := by rcases hpo with h | h | h <;> rw [h] <;> exact ⟨_, rfl⟩
  obtain ⟨hps, _⟩ := toPost_slide hpt
  have horc := hm.oracle op hop
  have hord : ∃ oo, a.order s.g.market c.now.toNat = .ok oo ∧ (oo = none ∨ ∃ o, oo = some o ∧ o.params = .oraclePegged a.offset pt a.pegLimit ∧
      o.side = a.side ∧ o.maxBaseLots = a.maxBaseLots ∧ o.maxQuoteLotsIncludingFees = a.maxQuoteLots ∧ o.selfTradeBehavior = a.stb) := by
    unfold PlaceOrderPeggedArgs.order
    rw [req_true ht, ok_bind, req_true (.inl horc.1), ok_bind, req_true (by omega), ok_bind]
    split
    · exact ⟨none, rfl, .inl rfl⟩
    · rw [hpt, ok_bind]
      exact ⟨_, rfl, .inr ⟨_, rfl, rfl, rfl, rfl, rfl, rfl⟩⟩
  obtain ⟨oo, ho, hoo⟩ := hord
  rw [ho, ok_bind] at hres
  rcases hoo with rfl | ⟨o, rfl, hpar, e1, e2, e3, e4⟩
  · simp only at hres
    have hctl := hm.signer
    obtain ⟨b, hb, hsig⟩ := hctl
    unfold authPlace State.open? signerOk at hres
    rw [req_true hm.isOpen, ok_bind, req_true hm.notVault, ok_bind, (Accts.get_ok).mpr hb, ok_bind,
      req_true (controls_owner hb ⟨b, hb, hsig⟩), ok_bind, req_true hm.admin, ok_bind] at hres
    exact .inl ⟨_, hres.symm⟩
  · simp only at hres
    have htyped := PlaceOrderPeggedArgs.order_typed ho
    have hmade : OrderMade o a.orderType a.stb := by
      refine ⟨htyped, fun _ => hpo, ?_, e4⟩
      unfold Order.isFillOrKill; rw [hpar]; intro h; cases h
    have hprice : (∃ p d, o.priceLots c.now.toNat c.oracle s.book = .ok p ∧ 1 ≤ p ∧ o.priceData c.oracle p = .ok d) ∨
      (∃ e, Refusal s c o.side a.orderType a.stb (maxCost s o.side o.maxBaseLots o.maxQuoteLotsIncludingFees) e ∧
        o.price c.now.toNat c.oracle s.book = .error e) := by
      refine slide_price (lim := op + a.offset) (pt := pt) hi hps hp hp2 ?_ ?_
      · unfold Order.priceLots
        rw [hpar, hop]
        simp only
        rw [req_true ⟨by unfold i64Min; omega, hp2⟩, ok_bind]
      · intro p h1 h2
        unfold Order.priceData
        rw [hpar, hop]
        simp only [unwrapR]
        have h64 := horc.2.2
        have : i64Min ≤ -i64Max := by decide
        rw [ok_bind, ckI64_eq (by omega) (by omega), ok_bind]
        exact ⟨_, rfl⟩
    have hmain := placeOrder_ok (limit := a.limit) hi hx hr (by rw [e1]; exact hm) hc (by rw [e1, e2, e3]; exact hf) (by rw [e1, e2, e3]; exact hlf) ht.2.2.2.2.2.2 hmade hprice
    rw [e1, e2, e3] at hmain
    rcases hmain with ⟨r, hk⟩ | ⟨e, he, hk⟩
    · rw [hk, ok_bind] at hres; exact .inl ⟨_, hres.symm⟩
    · rw [hk, err_bind] at hres; exact .inr ⟨e, he, hres.symm⟩

end OB
