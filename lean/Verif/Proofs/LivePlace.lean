import Verif.Proofs.LiveOrder
import Verif.Proofs.Extra
import Verif.Proofs.Posted
import Verif.Spec.Accept
/-! Placing an order: what can be refused. -/
namespace OB
open Spec

theorem req_false {p : Prop} [Decidable p] {e : Err} (h : ¬ p) : req p e = .error e := by unfold req; rw [if_neg h]

/-- The price of a slide order, or why there is none. -/
theorem slidePrice_ok {env : Env} {book : Book} {g : Ledger} {dB dQ : Int} (hc : Core g book dB dQ) {lim : Int} (h1 : 1 ≤ lim)
    (h2 : lim ≤ i64Max) (t : PostOrderType) :
    (∃ p, priceForOrderType env.order.side env.nowTs env.oracle lim t book = .ok p ∧ 1 ≤ p ∧ p ≤ i64Max) ∨
    (t = .postOnlySlide ∧ ∃ c l q, (env.order.side.invert, c, l) ∈ book.resting ∧
      TradableAt env.nowTs env.oracle env.order.side.invert c l q ∧
      ((env.order.side = .bid ∧ q ≤ 1 ∧ ∃ p, priceForOrderType env.order.side env.nowTs env.oracle lim t book = .ok p ∧ p < 1) ∨
       (env.order.side = .ask ∧ i64Max ≤ q ∧ priceForOrderType env.order.side env.nowTs env.oracle lim t book = .error .panic))) := by
  obtain ⟨ot, hot⟩ := hc.bookOk.ok env.order.side.invert
  have hbp := bestPrice_eq (env := env) hc (hc.bookOk.side env.order.side.invert) hot
  unfold priceForOrderType
  by_cases ht : t = .postOnlySlide
  · rw [if_pos ht, hbp, ok_bind]
    cases hf : (callItems env ot).find? (fun i => decide (i.state = .valid)) with
    | none => exact .inl ⟨lim, rfl, h1, h2⟩
    | some i =>
      have hs := item_spec hc hot (List.mem_of_find?_eq_some hf)
      have hv := List.find?_some hf
      have hpos := hs.pos
      have hval := hs.valid (by simpa using hv)
      simp only [Option.map_some]
      unfold postOnlySlideLimit
      cases hsd : env.order.side with
      | bid =>
        rw [hsd] at hval
        have hup : i.priceLots ≤ i64Max + 1 := by
          cases hcc : i.comp with
          | pegged => have := (hs.range hcc).2; omega
          | fixed =>
            obtain ⟨oo, hok, _, _⟩ := resting_ok hc hs.mem
            have hpr := hs.price
            rw [hcc] at hpr
            unfold priceOf at hpr
            simp only [Option.some.injEq] at hpr
            have hpd := priceData_eq i.leaf hok.key
            have := (hok.fixed hcc).2
            omega
        simp only
        rw [ckI64_eq (by unfold i64Min; omega) (by omega), ok_bind]
        by_cases hq : i.priceLots ≤ 1
        · refine .inr ⟨ht, i.comp, i.leaf, i.priceLots, ?_, hval, .inl ⟨trivial, hq, _, rfl, by omega⟩⟩
          rw [← hsd]; exact hs.mem
        · exact .inl ⟨_, rfl, by omega, by omega⟩
      | ask =>
        rw [hsd] at hval
        simp only
        by_cases hq : i64Max ≤ i.priceLots
        · refine .inr ⟨ht, i.comp, i.leaf, i.priceLots, ?_, hval, .inr ⟨trivial, hq, ?_⟩⟩
          · rw [← hsd]; exact hs.mem
          · unfold ckI64
            rw [if_neg (by omega)]; rfl
        · rw [ckI64_eq (by unfold i64Min; omega) (by omega), ok_bind]
          exact .inl ⟨_, rfl, by omega, by omega⟩
  · rw [if_neg ht]
    exact .inl ⟨lim, rfl, h1, h2⟩

theorem restingOn_length (s : State) (sd : Side) : (restingOn s sd).length = (s.book.sideRest sd).length := by
  unfold restingOn
  rw [Book.resting_eq, List.filter_append, List.length_append]
  have h1 : ∀ x : Side, (s.book.sideRest x).filter (fun y => decide (y.1 = x)) = s.book.sideRest x := by
    intro x
    rw [List.filter_eq_self]
    intro y hy
    unfold Book.sideRest sideRests at hy
    rw [List.mem_append, List.mem_map, List.mem_map] at hy
    rcases hy with ⟨l, _, rfl⟩ | ⟨l, _, rfl⟩ <;> simp
  have h2 : ∀ x y : Side, x ≠ y → (s.book.sideRest x).filter (fun z => decide (z.1 = y)) = [] := by
    intro x y hxy
    rw [List.filter_eq_nil_iff]
    intro z hz
    unfold Book.sideRest sideRests at hz
    rw [List.mem_append, List.mem_map, List.mem_map] at hz
    rcases hz with ⟨l, _, rfl⟩ | ⟨l, _, rfl⟩ <;> simpa using hxy
  cases sd with
  | bid => rw [h1, h2 .ask .bid (by decide)]; simp
  | ask => rw [h1, h2 .bid .ask (by decide)]; simp

theorem Spec.CountersFit.lroom {s : State} (h : CountersFit s) (hx : Extra s) {cnt tk : Nat} (hn : cnt + tk ≤ 2048) : LRoom s.g cnt tk := by
  have b1 : (cnt : Int) * i64Max ≤ 2048 * i64Max := Int.mul_le_mul_of_nonneg_right (by omega) (by decide)
  have b2 : (tk : Int) * i64Max ≤ 2048 * i64Max := Int.mul_le_mul_of_nonneg_right (by omega) (by decide)
  have b3 : ((cnt + tk : Nat) : Int) * i64Max ≤ 2048 * i64Max := Int.mul_le_mul_of_nonneg_right (by omega) (by decide)
  have b4 : (2 : Int) ^ 127 + 2048 * i64Max ≤ u128Max := by decide
  have e1 := h.maker; have e2 := h.fees; have e3 := h.taker
  refine ⟨fun k a ha => ?_, ⟨hx.volume, by omega⟩, ⟨hx.fees, by omega⟩, ⟨e3.1, by omega⟩⟩
  obtain ⟨a1, a2, _⟩ := h.accts k a ha
  obtain ⟨l1, l2⟩ := hx.lots k a ha
  exact ⟨l1, l2, by omega, a2.1, by omega⟩

theorem lockBid_ok {g : Ledger} {k : Pubkey} {amt : Int} {a : OOA} (ha : g.accts.get? k = some a) (h0 : 0 ≤ amt) (h1 : amt ≤ u64Max)
    (hf : inU64 a.position.quoteFreeNative) (ht : 0 ≤ g.market.quoteDepositTotal) (hd : g.market.quoteDepositTotal + amt ≤ u64Max) :
    ∃ g' dep, lockBid g k amt = .ok (g', dep) := by
  unfold lockBid
  have hf1 := hf.1; have hf2 := hf.2
  rw [(Accts.get_ok).mpr ha, ok_bind]
  simp only
  rw [ckU64_eq (by omega) (by omega), ok_bind, ckU64_eq (by omega) (by omega), ok_bind, ckU64_eq (by omega) (by omega), ok_bind]
  exact ⟨_, _, rfl⟩

theorem lockAsk_ok {g : Ledger} {k : Pubkey} {amt : Int} {a : OOA} (ha : g.accts.get? k = some a) (h0 : 0 ≤ amt) (h1 : amt ≤ u64Max)
    (hf : inU64 a.position.baseFreeNative) (ht : 0 ≤ g.market.baseDepositTotal) (hd : g.market.baseDepositTotal + amt ≤ u64Max) :
    ∃ g' dep, lockAsk g k amt = .ok (g', dep) := by
  unfold lockAsk
  have hf1 := hf.1; have hf2 := hf.2
  rw [(Accts.get_ok).mpr ha, ok_bind]
  simp only
  rw [ckU64_eq (by omega) (by omega), ok_bind, ckU64_eq (by omega) (by omega), ok_bind, ckU64_eq (by omega) (by omega), ok_bind]
  exact ⟨_, _, rfl⟩

theorem addPenalty_ok {g : Ledger} {k : Pubkey} {n : Nat} {a : OOA} (ha : g.accts.get? k = some a) (h0 : 0 ≤ a.position.penaltyHeapCount)
    (h1 : a.position.penaltyHeapCount < u64Max) : ∃ g', addPenalty g k n = .ok g' := by
  unfold addPenalty
  split
  · rw [(Accts.get_ok).mpr ha, ok_bind, ckU64_eq (by omega) (by omega), ok_bind]; exact ⟨_, rfl⟩
  · exact ⟨_, rfl⟩

theorem tokenTransfer_or {t : Tokens} {amt : Int} {src dst auth : Pubkey} (h0 : 0 ≤ (t dst).amount) (hm : (t src).mint = (t dst).mint)
    (ho : (t src).owner = auth) (hd : (t dst).amount + amt ≤ u64Max) :
    (∃ t', tokenTransfer t amt src dst auth = .ok t') ∨
    (0 < amt ∧ (t src).amount < amt ∧ tokenTransfer t amt src dst auth = .error .insufficientFunds) := by
  unfold tokenTransfer
  split
  · by_cases hf : (t src).amount ≥ amt
    · rw [req_true hf, ok_bind, req_true hm, ok_bind, req_true ho, ok_bind]
      split
      · exact .inl ⟨_, rfl⟩
      · rw [ckU64_eq (by omega) hd, ok_bind]; exact .inl ⟨_, rfl⟩
    · rw [req_false hf]; exact .inr ⟨by omega, by omega, rfl⟩
  · exact .inl ⟨_, rfl⟩

theorem CallRun.parts_nonneg {env : Env} {book book' : Book} {g g' : Ledger} {r : OrderResult} (C : CallRun env book g r book' g') :
    0 ≤ r.totalBaseTakenNative ∧ 0 ≤ r.postedBaseNative ∧ 0 ≤ r.totalQuoteTakenNative ∧ 0 ≤ r.postedQuoteNative ∧ 0 ≤ r.takerFees ∧
      0 ≤ r.makerFees := by
  have hb := C.core.bls
  have hq := C.core.qls
  have s1 := C.sumBase; have s2 := C.sumQuote
  have l1 := C.P.loop.baseLe; have l2 := C.P.loop.quoteLe
  have dd := C.P.loop.decrLe
  refine ⟨?_, ?_, ?_, ?_, C.fees_le.1, ?_⟩
  · rw [C.takenBase]; exact Int.mul_nonneg (by omega) (by omega)
  · cases hid : r.orderId with
    | none => obtain ⟨_, e1, _⟩ := C.target_none hid; omega
    | some id =>
      obtain ⟨c, hc, _⟩ := C.target_some hid
      obtain ⟨own, outs, _, _, _, _, hp⟩ := C.P.posted c hc
      obtain ⟨q1, q2, _, _⟩ := C.posted_qty hc
      have e := hp.pbEq
      rw [C.g1_market.2.2] at e
      rw [e]; exact Int.mul_nonneg (by omega) (by omega)
  · rw [C.takenQuote]; exact Int.mul_nonneg (by omega) (by omega)
  · cases hid : r.orderId with
    | none => obtain ⟨_, _, e1, _⟩ := C.target_none hid; omega
    | some id =>
      obtain ⟨c, hc, _⟩ := C.target_some hid
      obtain ⟨own, outs, _, _, _, _, hp⟩ := C.P.posted c hc
      obtain ⟨q1, q2, _, _⟩ := C.posted_qty hc
      have e := hp.pqEq
      have hl := lockPrice_pos C.valid.order.ok C.R.pricePos
      rw [C.g1_market.2.1] at e
      rw [e]; exact Int.mul_nonneg (Int.mul_nonneg (by omega) (by omega)) (by omega)
  · cases hid : r.orderId with
    | none => obtain ⟨_, _, _, e1, _⟩ := C.target_none hid; omega
    | some id =>
      obtain ⟨c, hc, _⟩ := C.target_some hid
      obtain ⟨own, outs, _, _, _, _, hp⟩ := C.P.posted c hc
      obtain ⟨q1, q2, _, _⟩ := C.posted_qty hc
      have hl := lockPrice_pos C.valid.order.ok C.R.pricePos
      have e := hp.mfEq
      rw [e]
      split
      · rw [C.g1_market.2.1]
        refine ceilFee_nonneg (Int.mul_nonneg (Int.mul_nonneg (by omega) (by omega)) (by omega))
      · exact Int.le_refl _

/-- The order that `place_order` builds. -/
structure OrderMade (o : Order) (t : PlaceOrderType) (stb : SelfTradeBehavior) : Prop where
  typed : OrderTyped o
  posts : o.postTarget ≠ none → t = .limit ∨ t = .postOnly ∨ t = .postOnlySlide
  kills : o.isFillOrKill = true → t = .fillOrKill
  self : o.selfTradeBehavior = stb

theorem placeOrder_ok {s : State} {c : PlaceCtx} {o : Order} {limit : Nat} {t : PlaceOrderType} {stb : SelfTradeBehavior}
    (hi : Inv s) (hx : Extra s) (hreach : Reachable s) (hm : MayPlace s c o.side) (hcf : CountersFit s)
    (ha : AmountsFit s o.side o.maxBaseLots o.maxQuoteLotsIncludingFees limit)
    (hlf : LotsFit s c.ooKey o.side o.maxBaseLots o.maxQuoteLotsIncludingFees) (hl : limit < 256) (hmade : OrderMade o t stb)
    (hprice : (∃ p d, o.priceLots c.now.toNat c.oracle s.book = .ok p ∧ 1 ≤ p ∧ o.priceData c.oracle p = .ok d) ∨
      (∃ e, Refusal s c o.side t stb (maxCost s o.side o.maxBaseLots o.maxQuoteLotsIncludingFees) e ∧
        o.price c.now.toNat c.oracle s.book = .error e)) :
    (∃ r, placeOrder s c o limit = .ok r) ∨
    (∃ e, Refusal s c o.side t stb (maxCost s o.side o.maxBaseLots o.maxQuoteLotsIncludingFees) e ∧ placeOrder s c o limit = .error e) := by
  have hok := hmade.typed.ok ha.base.1 ha.quote.1
  obtain ⟨a, haa, hsig⟩ := hm.signer
  have hctl := controls_owner haa ⟨a, haa, hsig⟩
  have hq2 : (limit : Int) ≤ 255 := by omega
  have hvault : vaultFor s o.side = s.g.market.vaultBySide o.side := by cases o.side <;> rfl
  have hexp : s.g.market.isExpired c.now = false := by
    unfold Market.isExpired
    rcases hm.live with h | h
    · simp [h]
    · simp [show ¬ s.g.market.timeExpiry < c.now by omega]
  have hauth : authPlace s c.signer c.ooKey c.admin = .ok () := by
    unfold authPlace State.open? signerOk
    rw [req_true hm.isOpen, ok_bind, req_true hm.notVault, ok_bind, (Accts.get_ok).mpr haa, ok_bind, req_true hctl, ok_bind,
      req_true hm.admin]
  have hnow : nowU64 c.now = .ok c.now.toNat := by
    unfold nowU64 assertR
    rw [req_true hm.clock, ok_bind]; rfl
  have hor : oracleOk s c.oracle = .ok () := by
    unfold oracleOk
    split
    · rfl
    · rename_i p hp; exact req_true (hm.oracle p hp)
  obtain ⟨res, hres⟩ : ∃ res, placeOrder s c o limit = res := ⟨_, rfl⟩
  have hm1 := hm.mint; rw [hvault] at hm1
  rw [hres]
  unfold placeOrder mintIs at hres
  simp only at hres
  rw [hauth, ok_bind, req_true hm1, ok_bind, req_true ha.base.1, ok_bind, req_true ha.quote.1, ok_bind, req_true hexp, ok_bind,
    hnow, ok_bind, hor, ok_bind] at hres
  rcases hprice with ⟨p, d, hp, hp1, hd⟩ | ⟨e, hre, he⟩
  swap
  · have hne : newOrder (placeEnv c o c.now.toNat limit) s.book s.g = .error e := by
      unfold newOrder
      show (o.price c.now.toNat c.oracle s.book >>= _) = _
      rw [he, err_bind]
    rw [show newOrder { order := o, oracle := c.oracle, hasOO := true, owner := c.ooKey, nowTs := c.now.toNat, limit := limit, rem := c.rem } s.book s.g = _ from hne, err_bind] at hres
    exact .inr ⟨e, hre, hres.symm⟩
  have hcov := hi.covered
  have hbls := hcov.bls; have hqls := hcov.qls
  have hcap : tokens s (vaultFor s o.side) + maxCost s o.side o.maxBaseLots o.maxQuoteLotsIncludingFees ≤ u64Max := ha.vault
  have hroom : OrderRoom (placeEnv c o c.now.toNat limit) s.g 0 0 0 0 0 := by
    refine ⟨by have := hcf.orders; omega, ha.base.2, ha.quote.2, ?_, ha.lot, fun _ => hm.rem, ?_, ?_, fun _ => ⟨a, haa, ?_⟩, fun _ => rfl,
      hcf.lroom hx (by show limit + 0 + (0 + 1) ≤ 2048; omega), ⟨?_, ?_⟩⟩
    · intro hs
      have := ha.fee hs
      show ceilTaker s.g.market.takerFee (o.maxQuoteLotsIncludingFees * s.g.market.quoteLotSize) + s.g.market.quoteLotSize ≤ i64Max
      unfold ceilTaker
      omega
    · show s.g.market.baseDepositTotal + 0 + (if o.side = .ask then o.maxBaseLots * s.g.market.baseLotSize else 0) ≤ u64Max
      cases hs : o.side with
      | bid => have := hi.vb.total.2; simp; omega
      | ask =>
        rw [hs] at hcap
        have := hi.vb.le
        simp only [vaultFor, maxCost, tokens] at hcap
        simp; omega
    · show s.g.market.quoteDepositTotal + 0 + (if o.side = .bid then o.maxQuoteLotsIncludingFees * s.g.market.quoteLotSize else 0) ≤ u64Max
      cases hs : o.side with
      | ask => have := hi.vq.total.2; simp; omega
      | bid =>
        rw [hs] at hcap
        have := hi.vq.le
        simp only [vaultFor, maxCost, tokens] at hcap
        simp; omega
    · obtain ⟨l1, l2⟩ := hlf a haa
      show match o.side with
        | .bid => _
        | .ask => _
      cases hs : o.side with
      | bid => exact l1 hs
      | ask => exact l2 hs
    · have := ha.queue
      show s.g.heap.events.length + (limit + 7 + 0) ≤ 600
      omega
    · have := hcf.events
      show s.g.heap.seqNum + (limit + 7 + 0) ≤ 18446744073709551615
      omega
  rcases newOrder_ok (env := placeEnv c o c.now.toNat limit) hi.core.bookOk hi.core.linv hcov hok (fun h => nomatch h) hroom hp hp1 hd with
    ⟨r, book', g1, hno, _, _⟩ | ⟨e, hf, hne⟩
  swap
  · rw [show newOrder { order := o, oracle := c.oracle, hasOO := true, owner := c.ooKey, nowTs := c.now.toNat, limit := limit, rem := c.rem } s.book s.g = _ from hne, err_bind] at hres
    refine .inr ⟨e, ?_, hres.symm⟩
    cases hf with
    | selfTrade l cp h1 h2 h3 h4 =>
      exact .selfTrade cp l (hmade.self.symm.trans h1) (mem_resting.mpr h3) h4
    | unfilled h => exact .unfilled (hmade.kills h)
    | crowded h hpt => exact .crowded _ (.inl rfl) (hmade.posts hpt) (by rw [restingOn_length]; exact h)
    | stuck h hpt => exact .crowded _ (.inr rfl) (hmade.posts hpt) (by rw [restingOn_length]; exact h)
    | slots a' h1 h2 hpt =>
      refine .slots a' h1 (hmade.posts hpt) (fun oo hoo => ?_)
      obtain ⟨i, hi'⟩ := List.getElem?_of_mem hoo
      exact h2 i oo hi'
  have hno' := hno
  rw [show newOrder { order := o, oracle := c.oracle, hasOO := true, owner := c.ooKey, nowTs := c.now.toNat, limit := limit, rem := c.rem } s.book s.g = _ from hno, ok_bind] at hres
  simp only at hres
  have hval : CallValid (placeEnv c o c.now.toNat limit) s.g :=
    ⟨⟨⟨hok.base0, hok.base1⟩, ⟨hok.quote0, hok.quote1⟩, hok.price, hok.peg⟩, by show (c.now.toNat : Int) ≤ i64Max; have := hm.clock; omega,
      fun p hp => (hm.oracle p hp).2, fun h => nomatch h⟩
  obtain ⟨C⟩ := callRun ⟨.reachable s hreach, hval, hno⟩
  obtain ⟨h1, h2, _⟩ := hi.core.newOrder (env := placeEnv c o c.now.toNat limit) hok (fun h => nomatch h) hno
  obtain ⟨p1, p2, p3, p4, p5, p6⟩ := C.parts_nonneg
  obtain ⟨a1, ha1, _, _, f1, f2, f3⟩ := h2.accts _ _ haa
  obtain ⟨O, q, hw⟩ := h1.linv
  have hacc := hw.ginv.acct _ _ ha1
  obtain ⟨O0, q0, hw0⟩ := hi.core.linv
  have hacc0 := hw0.ginv.acct _ _ haa
  have hpen := (hcf.accts _ _ haa).2.2
  have hv0 : 0 ≤ (s.tokens (s.g.market.vaultBySide o.side)).amount := by
    cases o.side with
    | bid => have := hi.vq.total.1; have := hi.vq.le; show 0 ≤ (s.tokens s.g.market.marketQuoteVault).amount; omega
    | ask => have := hi.vb.total.1; have := hi.vb.le; show 0 ≤ (s.tokens s.g.market.marketBaseVault).amount; omega
  have hi64 : i64Max ≤ u64Max := by decide
  have hcost : ∃ cost, orderCost o.side r = .ok cost ∧ 0 ≤ cost ∧ cost ≤ maxCost s o.side o.maxBaseLots o.maxQuoteLotsIncludingFees := by
    unfold orderCost maxCost
    cases hs : o.side with
    | bid =>
      have hbud : _ ≤ o.maxQuoteLotsIncludingFees * s.g.market.quoteLotSize := C.bid_budget hs
      have := ha.quote.2
      simp only
      rw [ckU64_eq (by omega) (by omega), ok_bind, ckU64_eq (by omega) (by omega), ok_bind, ckU64_eq (by omega) (by omega)]
      exact ⟨_, rfl, by omega, by omega⟩
    | ask =>
      have hbud : _ ≤ o.maxBaseLots * s.g.market.baseLotSize := C.base_budget
      have := ha.base.2
      simp only
      rw [ckU64_eq (by omega) (by omega)]
      exact ⟨_, rfl, by omega, by omega⟩
  obtain ⟨cost, hcost, c0, c1⟩ := hcost
  rw [hcost, ok_bind] at hres
  have hlock : ∃ g2 dep, (match o.side with
      | .bid => lockBid g1 c.ooKey cost
      | .ask => lockAsk g1 c.ooKey cost : R (Ledger × Int)) = .ok (g2, dep) ∧ dep ≤ cost ∧
      (dep ≤ 0 ∨ dep ≤ cost - freeFor s o.side c.ooKey) ∧
      ∃ a2, g2.accts.get? c.ooKey = some a2 ∧ a2.position.penaltyHeapCount = a.position.penaltyHeapCount := by
    cases hs : o.side with
    | bid =>
      rw [hs] at hcap c1
      simp only [vaultFor, tokens] at hcap
      have vle := hi.vq.le; have v0 := hi.vq.total.1
      obtain ⟨g2, dep, hlk⟩ := lockBid_ok (amt := cost) ha1 c0 (by omega) hacc.quoteFree (by rw [h2.quote]; exact hi.vq.total.1)
        (by rw [h2.quote]; omega)
      obtain ⟨b, hb⟩ := lockBid_inv hlk
      obtain rfl : b = a1 := by have := hb.acct; rw [ha1] at this; injection this with this; exact this.symm
      have := hb.depEq
      have hfr := hacc0.quoteFree.1
      refine ⟨g2, dep, hlk, by omega, ?_, ?_⟩
      · have hfree : freeFor s .bid c.ooKey = a.position.quoteFreeNative := by
          unfold freeFor freeQuote; rw [haa]; rfl
        rw [hfree]; omega
      · rw [hb.res]
        refine ⟨_, Accts.get?_set_self _ ha1, f3⟩
    | ask =>
      rw [hs] at hcap c1
      simp only [vaultFor, tokens] at hcap
      have vle := hi.vb.le; have v0 := hi.vb.total.1
      obtain ⟨g2, dep, hlk⟩ := lockAsk_ok (amt := cost) ha1 c0 (by omega) hacc.baseFree (by rw [h2.base]; exact hi.vb.total.1)
        (by rw [h2.base]; omega)
      obtain ⟨b, hb⟩ := lockAsk_inv hlk
      obtain rfl : b = a1 := by have := hb.acct; rw [ha1] at this; injection this with this; exact this.symm
      have := hb.depEq
      have hfr := hacc0.baseFree.1
      refine ⟨g2, dep, hlk, by omega, ?_, ?_⟩
      · have hfree : freeFor s .ask c.ooKey = a.position.baseFreeNative := by
          unfold freeFor freeBase; rw [haa]; rfl
        rw [hfree]; omega
      · rw [hb.res]
        refine ⟨_, Accts.get?_set_self _ ha1, f3⟩
  obtain ⟨g2, dep, hlk, d1, d2, a2, ha2, hpn⟩ := hlock
  replace hres := bind_eq_of hres hlk
  simp only at hres
  obtain ⟨g3, hg3⟩ := addPenalty_ok (n := s.g.heap.len) ha2 (by omega) (by unfold u64Max; omega)
  rw [hg3, ok_bind] at hres
  rw [hvault] at hcap
  simp only [tokens] at hcap
  rcases tokenTransfer_or (amt := dep) hv0 hm1.1 hm.wallet (by omega) with ⟨t', ht'⟩ | ⟨hpos, hlt, ht'⟩
  · rw [ht', ok_bind] at hres
    exact .inl ⟨_, hres.symm⟩
  · rw [ht', err_bind] at hres
    refine .inr ⟨_, .funds ?_, hres.symm⟩
    unfold tokens
    omega

end OB
