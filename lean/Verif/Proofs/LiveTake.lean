import Verif.Proofs.LivePlaceIx
import Verif.Proofs.TakeIx
import Verif.Proofs.Payable
/-!
Take orders are accepted (C60).
-/
namespace OB
open Spec

theorem GInv.nonneg {m : Market} {as : Accts} {O : List Obl} {dB dQ : Int} {ex : Pubkey → Int} (h : GInv m as O dB dQ ex)
    (hb : 0 < m.baseLotSize) (hq : 0 < m.quoteLotSize) (hav : 0 ≤ m.feesAvailable) :
    0 ≤ m.baseDepositTotal + dB ∧ 0 ≤ m.quoteDepositTotal + dQ := by
  cases has : as with
  | cons x xs =>
    have hx : as.get? x.1 = some x.2 := acct_get h.nodup (by rw [has]; exact List.mem_cons_self)
    obtain ⟨h1, h2, h3⟩ := h.covers0 hb hq hav hx
    have ha := h.acct _ _ hx
    have := ha.baseFree.1; have := ha.quoteFree.1; have := ha.locked.1; have := ha.refs.1
    omega
  | nil =>
    have hO : O = [] := by
      cases hO : O with
      | nil => rfl
      | cons o R =>
        obtain ⟨a, ha⟩ := h.owner o (by rw [hO]; exact List.mem_cons_self)
        rw [has] at ha; cases ha
    have e1 := h.base; have e2 := h.quote
    rw [has, hO] at e1 e2
    have z : ∀ f, asum f ([] : Accts) = 0 := fun _ => rfl
    have z' : ∀ f, osum f ([] : List Obl) = 0 := fun _ => rfl
    rw [z, z'] at e1 e2
    omega

/-- The order that `place_take_order` builds. -/
structure TakeMade (o : Order) (t : PlaceOrderType) : Prop where
  typed : OrderTyped o
  posts : o.postTarget = none
  kills : o.isFillOrKill = true → t = .fillOrKill
  self : o.selfTradeBehavior = .decrementTake

/-- The cost of a take order in `Spec.maxCost` comes back on the other side at most as its other limit. -/
theorem placeTakeOrder_ok {s : State} {c : TakeCtx} {o : Order} {limit : Nat} {t : PlaceOrderType}
    (hi : Inv s) (hx : Extra s) (hreach : Reachable s) (hm : MayTake s c) (hcf : CountersFit s)
    (ha : AmountsFit s o.side o.maxBaseLots o.maxQuoteLotsIncludingFees limit) (hl : limit < 256) (hmade : TakeMade o t)
    (hget : 0 ≤ tokens s (getWallet c o.side) ∧
      tokens s (getWallet c o.side) + maxCost s o.side.invert o.maxBaseLots o.maxQuoteLotsIncludingFees ≤ u64Max)
    {p : Int} {d : Nat} (hp : o.priceLots c.now.toNat c.oracle s.book = .ok p) (hp1 : 1 ≤ p) (hd : o.priceData c.oracle p = .ok d) :
    (∃ r, placeTakeOrder s c o limit = .ok r) ∨
    (t = .fillOrKill ∧ placeTakeOrder s c o limit = .error .wouldExecutePartially) ∨
    (tokens s (payWallet c o.side) < maxCost s o.side o.maxBaseLots o.maxQuoteLotsIncludingFees ∧
      placeTakeOrder s c o limit = .error .insufficientFunds) := by
  have hok := hmade.typed.ok ha.base.1 ha.quote.1
  have hexp : s.g.market.isExpired c.now = false := by
    unfold Market.isExpired
    rcases hm.live with h | h
    · simp [h]
    · simp [show ¬ s.g.market.timeExpiry < c.now by omega]
  have hnow : nowU64 c.now = .ok c.now.toNat := by
    unfold nowU64 assertR
    rw [req_true hm.clock, ok_bind]; rfl
  have hor : oracleOk s c.oracle = .ok () := by
    unfold oracleOk
    split
    · rfl
    · rename_i p hp; exact req_true (hm.oracle p hp)
  obtain ⟨res, hres⟩ : ∃ res, placeTakeOrder s c o limit = res := ⟨_, rfl⟩
  rw [hres]
  unfold placeTakeOrder mintIs State.open? signerOk at hres
  simp only at hres
  rw [req_true hm.isOpen, ok_bind, req_true hm.notVault, ok_bind, req_true hm.payer, ok_bind, req_true hm.signer, ok_bind,
    req_true hm.admin, ok_bind, req_true hm.baseMint, ok_bind, req_true hm.quoteMint, ok_bind, req_true ha.base.1, ok_bind,
    req_true ha.quote.1, ok_bind, req_true hexp, ok_bind, hnow, ok_bind, hor, ok_bind] at hres
  have hcov := hi.covered
  have hbls := hcov.bls; have hqls := hcov.qls
  have hcap := ha.vault
  obtain ⟨env, henv⟩ : ∃ env : Env, env = { order := o, oracle := c.oracle, hasOO := false, owner := c.signer, nowTs := c.now.toNat, limit := limit, rem := c.rem } := ⟨_, rfl⟩
  have hroom : OrderRoom env s.g 0 0 0 0 0 := by
    rw [henv]
    refine ⟨by have := hcf.orders; omega, ha.base.2, ha.quote.2, ?_, ha.lot, (fun h => nomatch h), ?_, ?_, (fun h => nomatch h),
      fun h => absurd hmade.posts h, hcf.lroom hx (by show limit + 0 + (0 + 1) ≤ 2048; omega), ⟨?_, ?_⟩⟩
    · intro hs
      have := ha.fee hs
      show ceilTaker s.g.market.takerFee (o.maxQuoteLotsIncludingFees * s.g.market.quoteLotSize) + s.g.market.quoteLotSize ≤ i64Max
      unfold ceilTaker
      omega
    · show s.g.market.baseDepositTotal + 0 + (if o.side = .ask then o.maxBaseLots * s.g.market.baseLotSize else 0) ≤ u64Max
      cases hs : o.side with
      | bid => have := hi.vb.total.2; simp; omega
      | ask =>
        rw [hs] at hcap
        have := hi.vb.le
        simp only [vaultFor, maxCost, tokens] at hcap
        simp; omega
    · show s.g.market.quoteDepositTotal + 0 + (if o.side = .bid then o.maxQuoteLotsIncludingFees * s.g.market.quoteLotSize else 0) ≤ u64Max
      cases hs : o.side with
      | ask => have := hi.vq.total.2; simp; omega
      | bid =>
        rw [hs] at hcap
        have := hi.vq.le
        simp only [vaultFor, maxCost, tokens] at hcap
        simp; omega
    · have := ha.queue
      show s.g.heap.events.length + (limit + 7 + 0) ≤ 600
      omega
    · have := hcf.events
      show s.g.heap.seqNum + (limit + 7 + 0) ≤ 18446744073709551615
      omega
  have henv1 : env.order = o := by rw [henv]
  have henv2 : env.hasOO = false := by rw [henv]
  rw [← henv] at hres
  have hnew := newOrder_ok (env := env) hi.core.bookOk hi.core.linv hcov (by rw [henv1]; exact hok)
      (fun _ => by rw [henv]; exact hm.signer) hroom (p := p) (d := d) (by rw [henv]; exact hp) hp1 (by rw [henv]; exact hd)
  rcases hnew with ⟨r, book', g1, hno, _, _⟩ | ⟨e, hf, hne⟩
  swap
  · rw [hne, err_bind] at hres
    cases hf with
    | selfTrade l cp h1 h2 h3 h4 => rw [henv2] at h2; cases h2
    | unfilled h => rw [henv1] at h; exact .inr (.inl ⟨hmade.kills h, hres.symm⟩)
    | crowded h hpt => rw [henv1] at hpt; exact absurd hmade.posts hpt
    | stuck h hpt => rw [henv1] at hpt; exact absurd hmade.posts hpt
    | slots a' h1 h2 hpt => rw [henv1] at hpt; exact absurd hmade.posts hpt
  rw [hno, ok_bind] at hres
  simp only at hres
  have hval : CallValid env s.g := by
    rw [henv]
    exact ⟨⟨⟨hok.base0, hok.base1⟩, ⟨hok.quote0, hok.quote1⟩, hok.price, hok.peg⟩,
      by show (c.now.toNat : Int) ≤ i64Max; have := hm.clock; omega, fun p hp => (hm.oracle p hp).2, fun _ => hm.signer⟩
  obtain ⟨C⟩ := callRun ⟨.reachable s hreach, hval, hno⟩
  obtain ⟨h1, h2, RR, ot, h3⟩ := hi.core.newOrder (env := env) (by rw [henv1]; exact hok) (fun _ => by rw [henv]; exact hm.signer) hno
  obtain ⟨_, n1, n2, n3, _, _⟩ := h3.notPosted henv2
  obtain ⟨p1, p2, p3, p4, p5, p6⟩ := C.parts_nonneg
  obtain ⟨f1, f2, f3⟩ := C.fee_split
  obtain ⟨f4, f5, f6⟩ := C.fees_le
  have f7 := ceilTaker_le (tf := s.g.market.takerFee) (a := r.totalQuoteTakenNative) (by omega) hcov.fees.t1
  rw [← C.takenQuote] at f5
  obtain ⟨O, q, hw⟩ := h1.linv
  have hnn := hw.ginv.nonneg h1.bls h1.qls h1.avail.1
  have hi64 : i64Max ≤ u64Max := by decide
  have hbb := C.base_budget
  have hqb : o.side = .bid → _ := fun hs => C.bid_budget (by rw [henv1]; exact hs)
  have hqa : o.side = .ask → r.totalQuoteTakenNative ≤ o.maxQuoteLotsIncludingFees * s.g.market.quoteLotSize := by
    intro hs
    have e1 := C.maxQ_ask (.inl (by rw [henv1]; exact hs))
    have e2 := C.sumQuote
    have e3 := C.P.loop.quote0
    rw [C.takenQuote]
    rw [henv1] at e1
    exact Int.mul_le_mul_of_nonneg_right (by omega) (by omega)
  rw [henv1, henv2] at hnn
  rw [henv1] at hbb hqb
  rw [h2.base, h2.quote] at hnn
  have hmq := ha.quote.2; have hmb := ha.base.2
  have hamt : ∃ g2 dep wd, takeAmounts g1 o.side r = .ok (g2, dep, wd) ∧ 0 ≤ dep ∧ 0 ≤ wd ∧
      dep ≤ maxCost s o.side o.maxBaseLots o.maxQuoteLotsIncludingFees ∧
      wd ≤ maxCost s o.side.invert o.maxBaseLots o.maxQuoteLotsIncludingFees ∧
      wd ≤ (s.tokens (vaultFor s o.side.invert)).amount := by
    unfold takeAmounts
    rw [ckU64_eq (by omega) (by omega), ok_bind]
    have vb1 := hi.vb.le; have vb2 := hi.vb.total.2; have vb0 := hi.vb.total.1
    have vq1 := hi.vq.le; have vq2 := hi.vq.total.2; have vq0 := hi.vq.total.1
    cases hs : o.side with
    | bid =>
      have hqb := hqb hs
      rw [hs] at hcap hnn
      simp only [vaultFor, maxCost, tokens] at hcap
      simp only [OrderResult.costB, OrderResult.costQ, takeB, takeQ] at hnn
      simp at hnn
      simp only [h2.base, h2.quote]
      rw [ckU64_eq (by omega) (by omega), ok_bind, ckU64_eq (by omega) (by omega), ok_bind, ckU64_eq (by omega) (by omega), ok_bind]
      refine ⟨_, _, _, rfl, by omega, by omega, ?_, ?_, ?_⟩
      · simp only [maxCost]; omega
      · simp only [maxCost, Side.invert]; omega
      · simp only [vaultFor, Side.invert]; omega
    | ask =>
      have hqa := hqa hs
      rw [hs] at hcap hnn
      simp only [vaultFor, maxCost, tokens] at hcap
      simp only [OrderResult.costB, OrderResult.costQ, takeB, takeQ] at hnn
      simp at hnn
      simp only [h2.base, h2.quote]
      rw [ckU64_eq (by omega) (by omega), ok_bind, ckU64_eq (by omega) (by omega), ok_bind, ckU64_eq (by omega) (by omega), ok_bind]
      refine ⟨_, _, _, rfl, by omega, by omega, ?_, ?_, ?_⟩
      · simp only [maxCost]; omega
      · simp only [maxCost, Side.invert]; omega
      · simp only [vaultFor, Side.invert]; omega
  obtain ⟨g2, dep, wd, ham, d0, w0, d1, w1, w2⟩ := hamt
  rw [ham, ok_bind] at hres
  simp only at hres
  have hlam : ∃ lam, (if g2.heap.len > s.g.heap.len
    then systemTransfer s.lamports penaltyEventHeap c.penaltyPayer s.marketKey else .ok s.lamports : R Lamports) = .ok lam := by
    obtain ⟨l1, l2, l3⟩ := hm.lamports
    split
    · exact systemTransfer_ok l1 l2 l3
    · exact ⟨_, rfl⟩
  obtain ⟨lam, hlam⟩ := hlam
  replace hres := bind_eq_of hres hlam
  have fin : ∀ {u w dv wv : Pubkey}, u = payWallet c o.side → w = getWallet c o.side → dv = vaultFor s o.side → wv = vaultFor s o.side.invert →
      (s.tokens u).mint = (s.tokens dv).mint → (s.tokens u).owner = c.signer → (s.tokens w).mint = (s.tokens wv).mint →
      (s.tokens w).owner = c.signer → (s.tokens dv).owner = s.g.market.marketAuthority → (s.tokens wv).owner = s.g.market.marketAuthority →
      0 ≤ (s.tokens dv).amount →
      (do let t1 ← tokenTransfer s.tokens dep u dv c.signer
          let t2 ← tokenTransfer t1 wd wv w s.g.market.marketAuthority
          return (r, { s with g := g2, book := book', tokens := t2, lamports := lam }) : R (OrderResult × State)) = res →
      (∃ r, res = .ok r) ∨ (t = .fillOrKill ∧ res = .error .wouldExecutePartially) ∨
      (tokens s (payWallet c o.side) < maxCost s o.side o.maxBaseLots o.maxQuoteLotsIncludingFees ∧ res = .error .insufficientFunds) := by
    intro u w dv wv eu ew edv ewv m1 o1 m2 o2 o3 o4 v0 hh
    have hcap' := hcap
    rw [← edv] at hcap'
    rw [← ewv] at w2
    rw [← ew] at hget
    unfold tokens at hcap' hget
    rcases tokenTransfer_or (amt := dep) v0 m1 o1 (by omega) with ⟨t1, ht1⟩ | ⟨hpos, hlt, ht'⟩
    · rw [ht1, ok_bind] at hh
      have sp := fun k => tokenTransfer_spec ht1 d0 k
      obtain ⟨a1, a2, a3⟩ := sp w
      obtain ⟨b1, b2, b3⟩ := sp wv
      have n1 : w ≠ dv := by rintro rfl; exact hm.notVault (o2.symm.trans o3)
      have n2 : wv ≠ u := by rintro rfl; exact hm.notVault (o1.symm.trans o4)
      have n3 : u ≠ dv := by rintro rfl; exact hm.notVault (o1.symm.trans o3)
      have hle : dep ≤ (s.tokens u).amount ∨ dep = 0 := by
        rcases tokenTransfer_inv ht1 with ⟨h, _⟩ | ⟨_, h, _⟩
        · exact .inr (by omega)
        · exact .inl h
      have hw0 : 0 ≤ (t1 w).amount ∧ (t1 w).amount + wd ≤ u64Max := by
        rw [a3, if_neg n1]
        split
        · rename_i e; rw [e] at hget ⊢; omega
        · omega
      obtain ⟨t2, ht2⟩ := tokenTransfer_ok (t := t1) (amt := wd) (src := wv) (dst := w) (auth := s.g.market.marketAuthority)
        (by rw [b3, if_neg n2]; split <;> omega) (by rw [b2, a2]; exact m2.symm) (by rw [b1]; exact o4) hw0.1 hw0.2
      rw [ht2, ok_bind] at hh
      exact .inl ⟨_, hh.symm⟩
    · rw [ht', err_bind] at hh
      refine .inr (.inr ⟨?_, hh.symm⟩)
      rw [← eu]; unfold tokens
      omega
  have vq0 : 0 ≤ (s.tokens s.g.market.marketQuoteVault).amount := Int.le_trans hi.vq.total.1 hi.vq.le
  have vb0 : 0 ≤ (s.tokens s.g.market.marketBaseVault).amount := Int.le_trans hi.vb.total.1 hi.vb.le
  cases hs : o.side with
  | bid =>
    rw [hs] at hres fin
    exact fin rfl rfl rfl rfl hm.quoteMint.1 hm.quoteWallet hm.baseMint.1 hm.baseWallet hi.vq.owner hi.vb.owner vq0 hres
  | ask =>
    rw [hs] at hres fin
    exact fin rfl rfl rfl rfl hm.baseMint.1 hm.baseWallet hm.quoteMint.1 hm.quoteWallet hi.vb.owner hi.vq.owner vb0 hres

theorem placeTakeOrderIx_ok {s : State} {c : TakeCtx} {a : PlaceOrderArgs} (hr : Reachable s) (ht : a.typed) (hp : 1 ≤ a.priceLots)
    (hk : a.orderType = .market ∨ a.orderType = .immediateOrCancel ∨ a.orderType = .fillOrKill)
    (hm : MayTake s c) (hc : CountersFit s) (hf : AmountsFit s a.side a.maxBaseLots a.maxQuoteLots a.limit)
    (hget : 0 ≤ tokens s (getWallet c a.side) ∧
      tokens s (getWallet c a.side) + maxCost s a.side.invert a.maxBaseLots a.maxQuoteLots ≤ u64Max) :
    (∃ r, placeTakeOrderIx s c a = .ok r) ∨
    (a.orderType = .fillOrKill ∧ placeTakeOrderIx s c a = .error .wouldExecutePartially) ∨
    (tokens s (payWallet c a.side) < maxCost s a.side a.maxBaseLots a.maxQuoteLots ∧
      placeTakeOrderIx s c a = .error .insufficientFunds) := by
  have hi := reachable_Inv hr
  have hx := reachable_Extra hr
  unfold placeTakeOrderIx
  have hord : ∃ o p d, takeOrder a = .ok o ∧ o.side = a.side ∧ o.maxBaseLots = a.maxBaseLots ∧ o.maxQuoteLotsIncludingFees = a.maxQuoteLots ∧
      TakeMade o a.orderType ∧ o.priceLots c.now.toNat c.oracle s.book = .ok p ∧ 1 ≤ p ∧ o.priceData c.oracle p = .ok d := by
    unfold takeOrder
    rw [req_true ht, ok_bind, req_true hp, ok_bind]
    obtain ⟨t1, t2, t3, _⟩ := ht
    rcases hk with hk | hk | hk
    · rw [hk]
      obtain ⟨d, hd⟩ := fixedPriceData_some (p := marketOrderLimitForSide a.side) (by unfold marketOrderLimitForSide; cases a.side <;> decide)
      refine ⟨_, _, d, rfl, rfl, rfl, rfl, ⟨⟨t2.2, t3.2, ?_, ?_⟩, rfl, ?_, rfl⟩, rfl, ?_, hd⟩
      · intro p h; rcases h with h | h | ⟨_, h⟩ <;> cases h
      · intro x y z h; cases h
      · intro h; cases h
      · show 1 ≤ marketOrderLimitForSide a.side
        unfold marketOrderLimitForSide; cases a.side <;> decide
    · rw [hk]
      obtain ⟨d, hd⟩ := fixedPriceData_some hp
      refine ⟨_, _, d, rfl, rfl, rfl, rfl, ⟨⟨t2.2, t3.2, ?_, ?_⟩, rfl, ?_, rfl⟩, rfl, hp, hd⟩
      · intro p h; rcases h with h | h | ⟨_, h⟩ <;> cases h; exact t1.2
      · intro x y z h; cases h
      · intro h; cases h
    · rw [hk]
      obtain ⟨d, hd⟩ := fixedPriceData_some hp
      refine ⟨_, _, d, rfl, rfl, rfl, rfl, ⟨⟨t2.2, t3.2, ?_, ?_⟩, rfl, fun _ => rfl, rfl⟩, rfl, hp, hd⟩
      · intro p h; rcases h with h | h | ⟨_, h⟩ <;> cases h; exact t1.2
      · intro x y z h; cases h
  obtain ⟨o, p, d, ho, e1, e2, e3, hmade, hpl, hp1, hd⟩ := hord
  rw [ho, ok_bind]
  have := placeTakeOrder_ok (c := c) (limit := a.limit) hi hx hr hm hc (by rw [e1, e2, e3]; exact hf) ht.2.2.2.2.2 hmade (by rw [e1, e2, e3]; exact hget) hpl hp1 hd
  rw [e1, e2, e3] at this
  exact this

end OB
