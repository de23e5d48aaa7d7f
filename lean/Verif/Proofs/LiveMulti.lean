import Verif.Spec.Batch
import Verif.Proofs.LivePlaceIx
import Verif.Proofs.Bridge
import Verif.Proofs.BookEv
import Verif.Proofs.Payable
/-! Batches of orders are sized to the funds: they do not fail for lack of money (C61). -/
namespace OB
open Spec

theorem sideRests_len (s : Side) (L : Comp → List LeafNode) : (sideRests s L).length = (L .fixed).length + (L .pegged).length := by
  simp [sideRests]

theorem virt_length (E : Comp → HL) (C : List (Nat × Int)) (D : List (Comp × Nat)) (c : Comp) : (virt E C D c).length ≤ (E c).length := by
  unfold virt
  refine Nat.le_trans (List.length_filter_le _ _) ?_
  rw [List.length_map]
  have h := congrArg List.length (setQs_handles C (E c))
  rw [List.length_map, List.length_map] at h
  exact Nat.le_of_eq h

/-- A call adds at most one order to the side of the order and none to the other side. -/
theorem CallRun.lengths {env : Env} {book book' : Book} {g g' : Ledger} {r : OrderResult} (C : CallRun env book g r book' g') (s : Side) :
    (book'.sideRest s).length ≤ (book.sideRest s).length + (if s = env.order.side then 1 else 0) := by
  by_cases hs : s = env.order.side
  · subst hs
    rw [if_pos rfl]
    unfold Book.sideRest
    cases hid : r.orderId with
    | none => rw [C.ownSide_none hid]; omega
    | some id =>
      obtain ⟨c0, hc, _⟩ := C.target_some hid
      obtain ⟨own, e1, outs, _, hP⟩ := C.ownOf hc
      obtain ⟨rm, b1, slot, _, _, h1, h2⟩ := hP.room
      rw [e1]
      have l1 := h1.length_eq; have l2 := h2.length_eq
      rw [List.length_append] at l1
      rw [List.length_cons] at l2
      omega
  · rw [if_neg hs]
    have hs' : s = env.order.side.invert := by cases s <;> cases h : env.order.side <;> simp_all [Side.invert]
    subst hs'
    unfold Book.sideRest
    rw [C.oppSide]
    obtain ⟨_, _, _, hp⟩ := C.P.opp2
    have l1 := (hp .fixed).length_eq; have l2 := (hp .pegged).length_eq
    have v1 := virt_length (oppL C.ot) C.R.s.changes C.R.s.deletes .fixed
    have v2 := virt_length (oppL C.ot) C.R.s.changes C.R.s.deletes .pegged
    have e : ∀ c, (oppL C.ot c).length = ((book.side env.order.side.invert).orders c).length := by
      intro c
      rw [C.P.opp.orders, OT.lvs_eq, List.length_map]; rfl
    rw [sideRests_len, sideRests_len]
    have e1 := e .fixed; have e2 := e .pegged
    omega

/-- The order that a batch builds from one of its entries, before its size is bounded by the funds. -/
structure BatchOrder (t : PlaceOrderType) (qls tf : Int) (o : Order) : Prop where
  typed : OrderTyped o
  posts : o.postTarget ≠ none → t = .limit ∨ t = .postOnly ∨ t = .postOnlySlide
  kills : o.isFillOrKill = true → t = .fillOrKill
  self : o.selfTradeBehavior = .cancelProvide
  quote0 : 0 ≤ o.maxQuoteLotsIncludingFees
  ask : o.side = .ask → o.maxQuoteLotsIncludingFees * qls ≤ i64Max ∧ ceilTaker tf (o.maxQuoteLotsIncludingFees * qls) + qls ≤ i64Max
  price : ∀ (o' : Order), o'.side = o.side → o'.params = o.params → ∀ now oracle book, ∃ p d, o'.priceLots now oracle book = .ok p ∧ 1 ≤ p ∧
    o'.priceData oracle p = .ok d

/-- Room for `n` orders of a batch that owes `b` and `q` so far. -/
structure BatchRoom (c : MultiCtx) (limit : Nat) (ub uq : Int) (n : Nat) (g : Ledger) (b q : Int) : Prop where
  seq : g.market.seqNum + n ≤ 18446744073709551615
  lot : g.market.quoteLotSize ≤ i64Max
  rem : c.ooKey ∉ c.rem
  ub0 : 0 ≤ ub
  uq0 : 0 ≤ uq
  depB : b + (n + 1) * (ub + g.market.baseDepositTotal) ≤ u64Max
  depQ : q + (n + 1) * (uq + g.market.quoteDepositTotal) ≤ u64Max
  acct : ∃ a, g.accts.get? c.ooKey = some a ∧ b ≤ ub + a.position.baseFreeNative ∧ q ≤ uq + a.position.quoteFreeNative ∧
    a.position.bidsBaseLots + n * (uq + g.market.quoteDepositTotal) ≤ i64Max ∧
    a.position.bidsQuoteLots + n * (uq + g.market.quoteDepositTotal) ≤ i64Max ∧
    a.position.asksBaseLots + n * (ub + g.market.baseDepositTotal) ≤ i64Max
  counters : LRoom g (n * limit) n
  heap : HRoom g.heap (n * (limit + 7))

/-- The failures that remain. -/
inductive BatchFails (c : MultiCtx) (os : List Order) (book : Book) (g : Ledger) : Err → Prop
  | unfilled (o : Order) (h : o ∈ os) (hk : o.isFillOrKill = true) : BatchFails c os book g .wouldExecutePartially
  | crowded (e : Err) (o : Order) (kind : e = .someError ∨ e = .panic) (h : o ∈ os) (hp : o.postTarget ≠ none)
      (many : 512 < (book.sideRest o.side).length + os.countP (fun x => x.side = o.side)) : BatchFails c os book g e
  | slots (a : OOA) (o : Order) (h : o ∈ os) (hp : o.postTarget ≠ none) (ha : g.accts.get? c.ooKey = some a)
      (few : freeSlots a < os.length) : BatchFails c os book g .openOrdersFull

theorem mul_div_le {x y : Int} (h : 0 < y) : x / y * y ≤ x := Int.ediv_mul_le x (by omega)

theorem multiLoop_ok {c : MultiCtx} {nowTs limit : Nat} {ub uq : Int} {t : PlaceOrderType} {qls tf : Int} (hnow : (nowTs : Int) ≤ i64Max)
    (hor : ∀ p, c.oracle = some p → i64Min ≤ p ∧ p ≤ i64Max) (os : List Order) {book : Book} {g : Ledger} {b q : Int}
    (hst : EngineState book g) (hcore : Core g book b q) (hcov : Covered g.market) (hb : 0 ≤ b) (hq : 0 ≤ q)
    (hD : 0 ≤ g.market.baseDepositTotal) (hDq : 0 ≤ g.market.quoteDepositTotal) (eq1 : g.market.quoteLotSize = qls) (eq2 : g.market.takerFee = tf)
    (ho : ∀ o ∈ os, BatchOrder t qls tf o) (hr : BatchRoom c limit ub uq os.length g b q) :
    (∃ rs book' g' b' q', multiLoop c nowTs limit ub uq os book g b q = .ok (rs, book', g', b', q') ∧
      BatchRoom c limit ub uq 0 g' b' q') ∨
    (∃ e, BatchFails c os book g e ∧ multiLoop c nowTs limit ub uq os book g b q = .error e) := by
  induction os generalizing book g b q with
  | nil => exact .inl ⟨_, _, _, _, _, rfl, hr⟩
  | cons o os ih =>
    have hbo := ho o (by simp)
    obtain ⟨a, ha, f1, f2, f3, f4, f5⟩ := hr.acct
    obtain ⟨O, ql, hw⟩ := hcore.linv
    obtain ⟨cv1, cv2, _⟩ := hw.ginv.covers0 hcore.bls hcore.qls hcore.avail.1 ha
    have hacc := hw.ginv.acct _ _ ha
    have hbf := hacc.baseFree.1; have hqf := hacc.quoteFree.1; have hlk := hacc.locked.1; have hrf := hacc.refs.1
    have hra : 0 ≤ g.market.referrerRebatesAccrued := by
      have := hw.ginv.covers0 hcore.bls hcore.qls hcore.avail.1 ha; omega
    have hbls := hcore.bls; have hqls := hcore.qls
    obtain ⟨n, hn⟩ : ∃ n, os.length = n := ⟨_, rfl⟩
    have hlen : (o :: os).length = n + 1 := by rw [List.length_cons, hn]
    obtain ⟨KB, hKB⟩ : ∃ KB, ub + g.market.baseDepositTotal = KB := ⟨_, rfl⟩
    obtain ⟨KQ, hKQ⟩ : ∃ KQ, uq + g.market.quoteDepositTotal = KQ := ⟨_, rfl⟩
    have u0 := hr.ub0; have u1 := hr.uq0
    have kb0 : 0 ≤ KB := by omega
    have kq0 : 0 ≤ KQ := by omega
    have nb : 0 ≤ (n : Int) * KB := Int.mul_nonneg (by omega) kb0
    have nq : 0 ≤ (n : Int) * KQ := Int.mul_nonneg (by omega) kq0
    have dB := hr.depB; have dQ := hr.depQ
    rw [hlen, hKB] at dB f5
    rw [hlen, hKQ] at dQ f3 f4
    have x1 : (((n + 1 : Nat) : Int) + 1) * KB = n * KB + KB + KB := by push_cast; rw [Int.add_mul, Int.add_mul]; omega
    have x2 : (((n + 1 : Nat) : Int) + 1) * KQ = n * KQ + KQ + KQ := by push_cast; rw [Int.add_mul, Int.add_mul]; omega
    have x3 : ((n + 1 : Nat) : Int) * KB = n * KB + KB := by push_cast; rw [Int.add_mul]; omega
    have x4 : ((n + 1 : Nat) : Int) * KQ = n * KQ + KQ := by push_cast; rw [Int.add_mul]; omega
    rw [x1] at dB; rw [x2] at dQ; rw [x3] at f5; rw [x4] at f3 f4
    -- the bounded order
    have hbound : ∃ o', boundOrder g c.ooKey ub uq b q o = .ok o' ∧ o'.side = o.side ∧ o'.params = o.params ∧
        o'.selfTradeBehavior = o.selfTradeBehavior ∧ OrderOk o' ∧ o'.maxBaseLots * g.market.baseLotSize ≤ i64Max ∧
        o'.maxQuoteLotsIncludingFees * g.market.quoteLotSize ≤ i64Max ∧
        (o.side = .ask → o'.maxQuoteLotsIncludingFees = o.maxQuoteLotsIncludingFees ∧
          o'.maxBaseLots * g.market.baseLotSize ≤ ub + a.position.baseFreeNative - b) ∧
        (o.side = .bid → o'.maxQuoteLotsIncludingFees * g.market.quoteLotSize ≤ uq + a.position.quoteFreeNative - q) := by
      have m1 : g.market.maxBaseLots * g.market.baseLotSize ≤ i64Max := mul_div_le hbls
      have m2 : g.market.maxQuoteLots * g.market.quoteLotSize ≤ i64Max := mul_div_le hqls
      obtain ⟨mb0, mb1⟩ := maxBaseLots_range hbls
      obtain ⟨mq0, mq1⟩ := maxQuoteLots_range hqls
      unfold boundOrder
      rw [(Accts.get_ok).mpr ha, ok_bind, req_true hbo.quote0, ok_bind]
      cases hs : o.side with
      | ask =>
        simp only
        rw [ckU64_eq (by omega) (by omega), ok_bind, ckU64_eq (by omega) (by omega), ok_bind]
        obtain ⟨av, hav⟩ : ∃ av, ub + a.position.baseFreeNative - b = av := ⟨_, rfl⟩
        rw [hav]
        have d1 : av / g.market.baseLotSize * g.market.baseLotSize ≤ av := mul_div_le hbls
        have d0 : 0 ≤ av / g.market.baseLotSize := Int.ediv_nonneg (by omega) (by omega)
        have d2 : min g.market.maxBaseLots (g.market.maxBaseLotsFromLamports av) ≤ g.market.maxBaseLots ∧
            min g.market.maxBaseLots (g.market.maxBaseLotsFromLamports av) ≤ av / g.market.baseLotSize ∧
            0 ≤ min g.market.maxBaseLots (g.market.maxBaseLotsFromLamports av) := by
          unfold Market.maxBaseLotsFromLamports; omega
        have := (hbo.ask hs).1
        rw [← eq1] at this
        refine ⟨_, rfl, rfl, rfl, rfl, ⟨d2.2.2, ?_, hbo.quote0, hbo.typed.quote1, hbo.typed.price, hbo.typed.peg⟩, ?_, this,
          fun _ => ⟨rfl, ?_⟩, (fun h => nomatch h)⟩
        · exact Int.le_trans d2.1 mb1
        · exact Int.le_trans (Int.mul_le_mul_of_nonneg_right d2.1 (by omega)) m1
        · exact Int.le_trans (Int.mul_le_mul_of_nonneg_right d2.2.1 (by omega)) d1
      | bid =>
        simp only
        rw [ckU64_eq (by omega) (by omega), ok_bind, ckU64_eq (by omega) (by omega), ok_bind]
        obtain ⟨av, hav⟩ : ∃ av, uq + a.position.quoteFreeNative - q = av := ⟨_, rfl⟩
        rw [hav]
        have d1 : av / g.market.quoteLotSize * g.market.quoteLotSize ≤ av := mul_div_le hqls
        have d0 : 0 ≤ av / g.market.quoteLotSize := Int.ediv_nonneg (by omega) (by omega)
        have q0 := hbo.quote0
        have d2 : min o.maxQuoteLotsIncludingFees (g.market.maxQuoteLotsFromLamports av) ≤ g.market.maxQuoteLots ∧
            min o.maxQuoteLotsIncludingFees (g.market.maxQuoteLotsFromLamports av) ≤ av / g.market.quoteLotSize ∧
            0 ≤ min o.maxQuoteLotsIncludingFees (g.market.maxQuoteLotsFromLamports av) := by
          unfold Market.maxQuoteLotsFromLamports; omega
        refine ⟨_, rfl, rfl, rfl, rfl, ⟨mb0, mb1, d2.2.2, ?_, hbo.typed.price, hbo.typed.peg⟩, m1, ?_, (fun h => nomatch h), fun _ => ?_⟩
        · exact Int.le_trans d2.1 mq1
        · exact Int.le_trans (Int.mul_le_mul_of_nonneg_right d2.1 (by omega)) m2
        · exact Int.le_trans (Int.mul_le_mul_of_nonneg_right d2.2.1 (by omega)) d1
    obtain ⟨o', hbd, s1, s2, s3, s4, s5, s6, s7, s8⟩ := hbound
    obtain ⟨res, hres⟩ : ∃ res, multiLoop c nowTs limit ub uq (o :: os) book g b q = res := ⟨_, rfl⟩
    rw [hres]
    unfold multiLoop at hres
    rw [hbd, ok_bind] at hres
    simp only at hres
    have hpost : o'.postTarget = o.postTarget := by unfold Order.postTarget; rw [s2]
    have hfok : o'.isFillOrKill = o.isFillOrKill := by unfold Order.isFillOrKill; rw [s2]
    have t1 := s4.base0; have t2 := s4.quote0
    have l1 : o'.maxBaseLots * 1 ≤ o'.maxBaseLots * g.market.baseLotSize := Int.mul_le_mul_of_nonneg_left (by omega) t1
    have l2 : o'.maxQuoteLotsIncludingFees * 1 ≤ o'.maxQuoteLotsIncludingFees * g.market.quoteLotSize := Int.mul_le_mul_of_nonneg_left (by omega) t2
    have hseq := hr.seq
    rw [hlen] at hseq
    have hcnt := hr.counters; have hhp := hr.heap
    rw [hlen] at hcnt hhp
    have y1 : (n + 1) * limit = limit + n * limit := by rw [Nat.add_mul]; omega
    have y2 : (n + 1) * (limit + 7) = limit + 7 + n * (limit + 7) := by rw [Nat.add_mul]; omega
    rw [y1] at hcnt; rw [y2] at hhp
    have hroom : OrderRoom (multiEnv c o' nowTs limit) g b q (n * limit) n (n * (limit + 7)) := by
      refine ⟨by omega, s5, s6, ?_, hr.lot, fun _ => hr.rem, ?_, ?_, fun _ => ⟨a, ha, ?_⟩, fun _ => rfl, hcnt, hhp⟩
      · intro hs
        have hs' : o.side = .ask := s1.symm.trans hs
        show ceilTaker g.market.takerFee (o'.maxQuoteLotsIncludingFees * g.market.quoteLotSize) + g.market.quoteLotSize ≤ i64Max
        rw [(s7 hs').1, eq1, eq2]
        exact (hbo.ask hs').2
      · show g.market.baseDepositTotal + b + (if o'.side = .ask then o'.maxBaseLots * g.market.baseLotSize else 0) ≤ u64Max
        rw [s1]
        split
        · rename_i hs; have := (s7 hs).2; omega
        · omega
      · show g.market.quoteDepositTotal + q + (if o'.side = .bid then o'.maxQuoteLotsIncludingFees * g.market.quoteLotSize else 0) ≤ u64Max
        rw [s1]
        split
        · rename_i hs; have := s8 hs; omega
        · omega
      · show match o'.side with
          | .bid => a.position.bidsBaseLots + min o'.maxBaseLots o'.maxQuoteLotsIncludingFees ≤ i64Max ∧
              a.position.bidsQuoteLots + o'.maxQuoteLotsIncludingFees ≤ i64Max
          | .ask => a.position.asksBaseLots + o'.maxBaseLots ≤ i64Max
        rw [s1]
        cases hs : o.side with
        | bid => have := s8 hs; simp only; omega
        | ask => have := (s7 hs).2; simp only; omega
    obtain ⟨p, d, hp, hp1, hd⟩ := hbo.price o' s1 s2 nowTs c.oracle book
    rcases newOrder_ok (env := multiEnv c o' nowTs limit) hcore.bookOk hcore.linv hcov s4 (fun h => nomatch h) hroom hp hp1 hd with
      ⟨r, book1, g1, hno, hr1, hh1, hgr⟩ | ⟨e, hf, hne⟩
    swap
    · rw [show newOrder { order := o', oracle := c.oracle, hasOO := true, owner := c.ooKey, nowTs := nowTs, limit := limit, rem := c.rem } book g = _ from hne, err_bind] at hres
      refine .inr ⟨e, ?_, hres.symm⟩
      have hcr : ∀ e, (e = Err.someError ∨ e = Err.panic) → 512 ≤ (book.sideRest o'.side).length → o'.postTarget ≠ none →
          BatchFails c (o :: os) book g e := by
        intro e he h hpt
        rw [hpost] at hpt; rw [s1] at h
        refine .crowded e o he (by simp) hpt ?_
        rw [List.countP_cons, if_pos (by simp)]; omega
      cases hf with
      | selfTrade l cp h1 h2 h3 h4 =>
        have h1' : o'.selfTradeBehavior = .abortTransaction := h1
        rw [s3, hbo.self] at h1'; cases h1'
      | unfilled h => exact .unfilled o (by simp) (hfok.symm.trans h)
      | crowded h hpt => exact hcr _ (.inl rfl) h hpt
      | stuck h hpt => exact hcr _ (.inr rfl) h hpt
      | slots a' h1 h2 hpt =>
        refine .slots a' o (by simp) (by rw [← hpost]; exact hpt) h1 ?_
        rw [h2.slots]; simp
    have hval : CallValid (multiEnv c o' nowTs limit) g :=
      ⟨⟨⟨s4.1, s4.2⟩, ⟨s4.3, s4.4⟩, s4.5, s4.6⟩, hnow, hor, (fun h => nomatch h)⟩
    obtain ⟨C⟩ := callRun ⟨hst, hval, hno⟩
    obtain ⟨hc1, hfr1, RR, ot, hP⟩ := hcore.newOrder (env := multiEnv c o' nowTs limit) s4 (fun h => nomatch h) hno
    obtain ⟨p1, p2, p3, p4, p5, p6⟩ := C.parts_nonneg
    have hbb : _ ≤ o'.maxBaseLots * g.market.baseLotSize := C.base_budget
    have hqb : o.side = .bid → _ ≤ o'.maxQuoteLotsIncludingFees * g.market.quoteLotSize := fun hs => C.bid_budget (s1.trans hs)
    rw [show newOrder { order := o', oracle := c.oracle, hasOO := true, owner := c.ooKey, nowTs := nowTs, limit := limit, rem := c.rem } book g = _ from hno, ok_bind] at hres
    simp only at hres
    obtain ⟨a1, ha1, hg1⟩ := hgr rfl a ha
    have hg1' : Grown o.side r.postedBaseNative r.postedQuoteNative a a1 := by rw [← s1]; exact hg1
    obtain ⟨a1', ha1', _, _, g1b, g1q, _⟩ := hfr1.accts _ _ ha
    rw [show g1.accts.get? c.ooKey = _ from ha1] at ha1'
    cases ha1'
    have hsz := C.lengths
    -- the amounts after this order
    have hstep : ∃ cost b1 q1, orderCost o.side r = .ok cost ∧
        ((match o.side with
          | .bid => do return (b, ← addAmt q cost)
          | .ask => do return (← addAmt b cost, q) : R (Int × Int)) = .ok (b1, q1)) ∧ 0 ≤ b1 ∧ 0 ≤ q1 ∧ Core g1 book1 b1 q1 ∧
        b1 ≤ ub + a1.position.baseFreeNative ∧ q1 ≤ uq + a1.position.quoteFreeNative ∧ b1 ≤ b + KB ∧ q1 ≤ q + KQ ∧
        a1.position.bidsBaseLots ≤ a.position.bidsBaseLots + KQ ∧ a1.position.bidsQuoteLots ≤ a.position.bidsQuoteLots + KQ ∧
        a1.position.asksBaseLots ≤ a.position.asksBaseLots + KB := by
      have r1 := hg1'.bids; have r2 := hg1'.quote; have r3 := hg1'.asks
      unfold orderCost addAmt
      cases hs : o.side with
      | bid =>
        have hqb := hqb hs
        have s8 := s8 hs
        rw [hs] at r1 r2 r3
        simp only [if_true] at r1 r2
        rw [if_neg (by decide)] at r3
        simp only
        rw [ckU64_eq (by omega) (by omega), ok_bind, ckU64_eq (by omega) (by omega), ok_bind, ckU64_eq (by omega) (by omega)]
        have k2 : o'.side = .bid := s1.trans hs
        have e1 : r.costB b o'.side true = b := by simp [OrderResult.costB, takeB, k2]
        have e2 : r.costQ q o'.side true = q + (r.totalQuoteTakenNative + r.postedQuoteNative + r.takerFees + r.makerFees) := by
          simp only [OrderResult.costQ, takeQ, k2, if_true]; omega
        have hc1' : Core g1 book1 (r.costB b o'.side true) (r.costQ q o'.side true) := hc1
        rw [e1, e2] at hc1'
        refine ⟨_, _, _, rfl, by rw [req_true (by omega), ok_bind]; rfl, hb, by omega, hc1', by omega, by omega, by omega, by omega, by omega, by omega, by omega⟩
      | ask =>
        have s7 := (s7 hs).2
        rw [hs] at r1 r2 r3
        simp only [if_true] at r3
        rw [if_neg (by decide)] at r1 r2
        simp only
        rw [ckU64_eq (by omega) (by omega)]
        have k2 : o'.side = .ask := s1.trans hs
        have hmf := orderMakerFees_ask hP k2
        have hc1' : Core g1 book1 (r.costB b o'.side true) (r.costQ q o'.side true) := hc1
        have e1 : r.costB b o'.side true = b + (r.totalBaseTakenNative + r.postedBaseNative) := by
          simp only [OrderResult.costB, takeB, k2, if_true]; omega
        have e2 : r.costQ q o'.side true = q := by simp [OrderResult.costQ, takeQ, k2, hmf]
        rw [e1, e2] at hc1'
        refine ⟨_, _, _, rfl, by rw [req_true (by omega), ok_bind]; rfl, by omega, hq, hc1', by omega, by omega, by omega, by omega, by omega, by omega, by omega⟩
    obtain ⟨cost, b1, q1, hcost, hadd, b10, q10, hcore1, i1, i2, i3, i4, i5, i6, i7⟩ := hstep
    rw [hcost, ok_bind] at hres
    replace hres := bind_eq_of hres hadd
    simp only at hres
    have hroom1 : BatchRoom c limit ub uq os.length g1 b1 q1 := by
      have e1 := hfr1.base; have e2 := hfr1.quote
      rw [hn]
      refine ⟨?_, ?_, hr.rem, u0, u1, ?_, ?_, ⟨a1, ha1, i1, i2, ?_, ?_, ?_⟩, hr1, hh1⟩
      · have := C.P.seq; omega
      · rw [hfr1.qls]; exact hr.lot
      · rw [e1, hKB, Int.add_mul]; omega
      · rw [e2, hKQ, Int.add_mul]; omega
      · rw [e2, hKQ]; omega
      · rw [e2, hKQ]; omega
      · rw [e1, hKB]; omega
    have hst1 : EngineState book1 g1 := .next _ _ _ _ _ _ hst hval hno
    rcases ih hst1 hcore1 (hfr1.covered hcov) b10 q10 (by rw [hfr1.base]; exact hD) (by rw [hfr1.quote]; exact hDq) (hfr1.qls.trans eq1) (by rw [congrArg Market.takerFee hfr1.cfg]; exact eq2)
      (fun o h => ho o (by simp [h])) hroom1 with ⟨rs, book', g', b', q', hrec, hfin⟩ | ⟨e, hf, hrec⟩
    · rw [hrec, ok_bind] at hres
      exact .inl ⟨_, _, _, _, _, hres.symm, hfin⟩
    · rw [hrec, err_bind] at hres
      refine .inr ⟨e, ?_, hres.symm⟩
      cases hf with
      | unfilled x h hk => exact .unfilled x (by simp [h]) hk
      | crowded _ x he h hpt hm =>
        refine .crowded e x he (by simp [h]) hpt ?_
        have := hsz x.side
        have e3 : (multiEnv c o' nowTs limit).order.side = o.side := s1
        rw [e3] at this
        rw [List.countP_cons]
        by_cases hx : x.side = o.side
        · rw [if_pos hx] at this; rw [if_pos (by simp [hx])]; omega
        · rw [if_neg hx] at this; rw [if_neg (by simp; exact fun h => hx h.symm)]; omega
      | slots x y h hpt hx few =>
        rw [show g1.accts.get? c.ooKey = _ from ha1] at hx; cases hx
        refine .slots a y (by simp [h]) hpt ha ?_
        have := hg1'.slots
        rw [List.length_cons]; omega

/-! ### the orders of a batch -/

theorem multiOrders_ok {s : State} {t : PlaceOrderType} (htt : t ≠ .postOnlySlide) {now : Nat} {side : Side} (as : List MultiArgs) (i : Nat)
    (h : ∀ a ∈ as, EntryOk s side a) : ∃ os, multiOrders t now side i as = .ok os ∧ os.length ≤ as.length ∧
      ∀ o ∈ os, BatchOrder t s.g.market.quoteLotSize s.g.market.takerFee o ∧ o.side = side := by
  induction as generalizing i with
  | nil => exact ⟨[], rfl, Nat.le_refl _, fun _ hx => nomatch hx⟩
  | cons a as ih =>
    obtain ⟨os, hos, hl, hall⟩ := ih (i + 1) (fun x hx => h x (by simp [hx]))
    have ha := h a (by simp)
    unfold multiOrders
    rw [req_true ha.typed, ok_bind, req_true ha.price, ok_bind]
    cases htif : tifFromExpiry now a.expiry with
    | none => exact ⟨os, hos, by rw [List.length_cons]; omega, hall⟩
    | some tif =>
      have hpar : ∃ p, orderParams t a.priceLots = .ok p := by
        unfold orderParams PlaceOrderType.toPost
        cases t <;> exact ⟨_, rfl⟩
      obtain ⟨p, hpar⟩ := hpar
      simp only
      rw [hpar, ok_bind, hos, ok_bind]
      have htyped := multiOrders_typed (t := t) (now := now) (side := side) (i := i) (as := [a])
        (os := [{ side, maxBaseLots := 0, maxQuoteLotsIncludingFees := a.maxQuoteLots, clientOrderId := i, timeInForce := tif, selfTradeBehavior := .cancelProvide, params := p }])
        (by unfold multiOrders; rw [req_true ha.typed, ok_bind, req_true ha.price, ok_bind, htif]; simp only; rw [hpar, ok_bind]; rfl)
      refine ⟨_, rfl, by rw [List.length_cons, List.length_cons]; omega, fun o ho => ?_⟩
      rcases List.mem_cons.mp ho with rfl | ho
      swap
      · exact hall o ho
      have hty := (htyped _ (List.mem_cons_self)).1
      refine ⟨⟨hty, ?_, ?_, rfl, ha.quote, ?_, ?_⟩, rfl⟩
      · unfold orderParams PlaceOrderType.toPost at hpar
        unfold Order.postTarget
        cases t <;> first | (injection hpar with hpar; subst hpar; intro hne; exact absurd rfl hne) | simp
      · unfold orderParams PlaceOrderType.toPost at hpar
        unfold Order.isFillOrKill
        cases t <;> first | (intro _; rfl) | (injection hpar with hpar; subst hpar; intro hk; cases hk)
      · intro hs
        obtain ⟨e1, e2⟩ := ha.ask hs
        refine ⟨e1, ?_⟩
        show ceilTaker _ (a.maxQuoteLots * _) + _ ≤ _
        unfold ceilTaker
        omega
      · intro o' h1 h2 now oracle book
        have h2' : o'.params = p := h2
        have imm : ∀ x, o'.priceLots now oracle book = .ok x → 1 ≤ x → (∀ x y z, o'.params ≠ .oraclePegged x y z) →
            ∃ p d, o'.priceLots now oracle book = .ok p ∧ 1 ≤ p ∧ o'.priceData oracle p = .ok d := by
          intro x h1 h2 h3
          obtain ⟨d, hd⟩ := fixedPriceData_some h2
          refine ⟨x, d, h1, h2, ?_⟩
          unfold Order.priceData
          split
          · rename_i x y z hh; exact absurd hh (h3 x y z)
          · exact hd
        have hp := ha.price
        unfold orderParams PlaceOrderType.toPost at hpar
        cases t with
        | market =>
          injection hpar with hpar
          refine imm (marketOrderLimitForSide o'.side) (by unfold Order.priceLots; rw [h2', ← hpar]) ?_ (by rw [h2', ← hpar]; intros; simp)
          unfold marketOrderLimitForSide; cases o'.side <;> decide
        | immediateOrCancel =>
          injection hpar with hpar
          exact imm a.priceLots (by unfold Order.priceLots; rw [h2', ← hpar]) hp (by rw [h2', ← hpar]; intros; simp)
        | fillOrKill =>
          injection hpar with hpar
          exact imm a.priceLots (by unfold Order.priceLots; rw [h2', ← hpar]) hp (by rw [h2', ← hpar]; intros; simp)
        | limit =>
          injection hpar with hpar
          exact imm a.priceLots (by unfold Order.priceLots; rw [h2', ← hpar]; rfl) hp (by rw [h2', ← hpar]; intros; simp)
        | postOnly =>
          injection hpar with hpar
          exact imm a.priceLots (by unfold Order.priceLots; rw [h2', ← hpar]; rfl) hp (by rw [h2', ← hpar]; intros; simp)
        | postOnlySlide => exact absurd rfl htt

end OB
