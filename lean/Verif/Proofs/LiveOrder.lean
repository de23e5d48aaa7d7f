import Verif.Proofs.LivePost
import Verif.Proofs.PostRest
/-! Placing an order on the book succeeds, apart from the failures named in the statement. -/
namespace OB
open OB.Spec

theorem makerFeesCeilI_total {m : Market} {x : Int} (h0 : -i64Max ≤ x) (h1 : x ≤ i64Max) (hm : m.makerFee ≤ 1000000) :
    ∃ f, m.makerFeesCeilI x = .ok f ∧ i64Min ≤ x - f ∧ x - f ≤ i64Max := by
  have hmin : i64Min ≤ -i64Max := by decide
  by_cases hx : 0 ≤ x
  · refine ⟨_, makerFeesCeilI_ok hx h1 hm, ?_⟩
    have h2 := ceilFee_nonneg (mf := m.makerFee) hx
    have h3 := ceilFee_le hx hm
    omega
  · unfold Market.makerFeesCeilI
    split
    · rename_i hp
      rw [natAbs_pos hp]
      unfold Market.ceilFeeDivision feesScale
      have e1 : x * 1000000 ≤ x * m.makerFee := Int.mul_le_mul_of_nonpos_left (by omega) hm
      have e2 : x * m.makerFee ≤ 0 := Int.mul_nonpos_of_nonpos_of_nonneg (by omega) (by omega)
      generalize x * m.makerFee = y at *
      have e3 : x ≤ (y + (1000000 - 1)).tdiv 1000000 ∧ (y + (1000000 - 1)).tdiv 1000000 ≤ 0 := by
        by_cases h0 : 0 ≤ y + (1000000 - 1)
        · rw [Int.tdiv_eq_ediv_of_nonneg h0]; omega
        · have : (y + (1000000 - 1)).tdiv 1000000 = -((-(y + (1000000 - 1))) / 1000000) := by
            rw [← Int.tdiv_eq_ediv_of_nonneg (show 0 ≤ -(y + (1000000 - 1)) by omega), Int.neg_tdiv]; omega
          rw [this]; omega
      refine ⟨_, ckI64_eq (by omega) (by omega), by omega, by omega⟩
    · exact ⟨0, rfl, by omega, by omega⟩

theorem postDecision_ok {env : Env} {m : Market} {priceLots remBase remQuote0 : Int} {pt : Option Comp}
    (h0 : -i64Max ≤ remQuote0) (h1 : remQuote0 ≤ i64Max) (hm : m.makerFee ≤ 1000000) (hp : 1 ≤ lockPrice env.order priceLots) :
    (∃ t q, postDecision env m priceLots remBase remQuote0 pt = .ok (t, q)) ∨
    (env.order.isFillOrKill = true ∧ postDecision env m priceLots remBase remQuote0 pt = .error .wouldExecutePartially) := by
  obtain ⟨f, hf, r1, r2⟩ := makerFeesCeilI_total h0 h1 hm
  unfold postDecision
  simp only [hf, ok_bind, ckI64_eq r1 r2, assertR]
  rw [req_true (by omega), ok_bind]
  by_cases hk : ¬ (env.order.isFillOrKill = true ∧ remBase > 0)
  · left; rw [req_true hk, ok_bind]; exact ⟨_, _, rfl⟩
  · right
    have hk' := Classical.not_not.mp hk
    refine ⟨hk'.1, ?_⟩
    unfold req
    rw [if_neg (by simpa using hk')]
    rfl

/-- Everything that must have room when an order is placed. -/
structure OrderRoom (env : Env) (g : Ledger) (B0 Q0 : Int) (cnt tk k : Nat) : Prop where
  seq : g.market.seqNum < 18446744073709551615
  base : env.order.maxBaseLots * g.market.baseLotSize ≤ i64Max
  quote : env.order.maxQuoteLotsIncludingFees * g.market.quoteLotSize ≤ i64Max
  feeLots : env.order.side = .ask →
    ceilTaker g.market.takerFee (env.order.maxQuoteLotsIncludingFees * g.market.quoteLotSize) + g.market.quoteLotSize ≤ i64Max
  lotI64 : g.market.quoteLotSize ≤ i64Max
  rem : env.hasOO = true → env.owner ∉ env.rem
  depB : g.market.baseDepositTotal + B0 + (if env.order.side = .ask then env.order.maxBaseLots * g.market.baseLotSize else 0) ≤ u64Max
  depQ : g.market.quoteDepositTotal + Q0 +
    (if env.order.side = .bid then env.order.maxQuoteLotsIncludingFees * g.market.quoteLotSize else 0) ≤ u64Max
  own : env.hasOO = true → ∃ a, g.accts.get? env.owner = some a ∧ match env.order.side with
    | .bid => a.position.bidsBaseLots + min env.order.maxBaseLots env.order.maxQuoteLotsIncludingFees ≤ i64Max ∧
        a.position.bidsQuoteLots + env.order.maxQuoteLotsIncludingFees ≤ i64Max
    | .ask => a.position.asksBaseLots + env.order.maxBaseLots ≤ i64Max
  posts : env.order.postTarget ≠ none → env.hasOO = true
  counters : LRoom g (env.limit + cnt) (tk + 1)
  heap : HRoom g.heap (env.limit + 7 + k)

/-- The failures that remain. -/
inductive OrderFails (env : Env) (book : Book) (g : Ledger) : Err → Prop
  | selfTrade (l : LeafNode) (c : Comp) (h1 : env.order.selfTradeBehavior = .abortTransaction) (h2 : env.hasOO = true)
      (h3 : l ∈ (book.side env.order.side.invert).orders c) (h4 : l.owner = env.owner) : OrderFails env book g .wouldSelfTrade
  | unfilled (h : env.order.isFillOrKill = true) : OrderFails env book g .wouldExecutePartially
  | crowded (h : 512 ≤ (book.sideRest env.order.side).length) (hp : env.order.postTarget ≠ none) : OrderFails env book g .someError
  | stuck (h : 512 ≤ (book.sideRest env.order.side).length) (hp : env.order.postTarget ≠ none) : OrderFails env book g .panic
  | slots (a : OOA) (h1 : g.accts.get? env.owner = some a) (h2 : NoSlot a) (hp : env.order.postTarget ≠ none) :
      OrderFails env book g .openOrdersFull

theorem bid_loop_budget {tf incl qls maxQ taken : Int} (t0 : 0 ≤ tf) (hq : 0 < qls)
    (hm : maxQ = incl * 1000000 / (1000000 + tf)) (h1 : taken ≤ maxQ) :
    taken * qls + ceilTaker tf (taken * qls) ≤ incl * qls := by
  have e1 := Int.ediv_mul_le (incl * 1000000) (show 1000000 + tf ≠ 0 by omega)
  rw [← hm] at e1
  have e2 : taken * (1000000 + tf) ≤ maxQ * (1000000 + tf) := Int.mul_le_mul_of_nonneg_right h1 (by omega)
  have e3 : taken * (1000000 + tf) * qls ≤ incl * 1000000 * qls := Int.mul_le_mul_of_nonneg_right (by omega) (by omega)
  have e5 : taken * (1000000 + tf) * qls = taken * qls * 1000000 + taken * qls * tf := by
    rw [Int.mul_add, Int.add_mul, Int.mul_right_comm _ 1000000, Int.mul_right_comm _ tf]
  have e6 : incl * 1000000 * qls = incl * qls * 1000000 := by rw [Int.mul_right_comm]
  rw [e5, e6] at e3
  unfold ceilTaker
  omega

theorem newOrder_ok {env : Env} {book : Book} {g : Ledger} (hb : BookOk book)
    {B0 Q0 : Int} (hl : LInv g book.resting B0 Q0 (fun _ => 0) g.market.seqNum) (hc : Covered g.market) (ho : OrderOk env.order)
    (hnt : env.hasOO = false → g.accts.get? env.owner = none) {cnt tk k : Nat} (hr : OrderRoom env g B0 Q0 cnt tk k)
    {p : Int} {d : Nat} (hp : env.order.priceLots env.nowTs env.oracle book = .ok p) (hp1 : 1 ≤ p)
    (hd : env.order.priceData env.oracle p = .ok d) :
    (∃ r book' g', newOrder env book g = .ok (r, book', g') ∧ LRoom g' cnt tk ∧ HRoom g'.heap k ∧
      (env.hasOO = true → ∀ a, g.accts.get? env.owner = some a → ∃ a', g'.accts.get? env.owner = some a' ∧
        Grown env.order.side r.postedBaseNative r.postedQuoteNative a a')) ∨
    (∃ e, OrderFails env book g e ∧ newOrder env book g = .error e) := by
  have hbls := hc.bls
  have hqls := hc.qls
  have hfo := hc.fees
  have i1 := hr.quote; have i2 := hr.base
  have q0 := ho.quote0; have b0 := ho.base0
  have hmin : i64Min ≤ -i64Max := by decide
  -- the limit after fees
  have hmq : ∃ maxQ, (if env.order.side = .bid ∧ env.order.isPostOnly = false
    then g.market.subtractTakerFees env.order.maxQuoteLotsIncludingFees else .ok env.order.maxQuoteLotsIncludingFees) = .ok maxQ ∧
      0 ≤ maxQ ∧ maxQ ≤ env.order.maxQuoteLotsIncludingFees ∧ (env.order.side = .bid → env.order.isPostOnly = false →
        maxQ = env.order.maxQuoteLotsIncludingFees * 1000000 / (1000000 + g.market.takerFee)) := by
    split
    · rename_i hsp
      have hx : ∃ x, g.market.subtractTakerFees env.order.maxQuoteLotsIncludingFees = .ok x := by
        unfold Market.subtractTakerFees feesScale
        have e : (env.order.maxQuoteLotsIncludingFees * 1000000).tdiv (1000000 + g.market.takerFee) =
            env.order.maxQuoteLotsIncludingFees * 1000000 / (1000000 + g.market.takerFee) := Int.tdiv_eq_ediv_of_nonneg (by omega)
        rw [e]
        have t0 := hfo.t0
        have e1 : 0 ≤ env.order.maxQuoteLotsIncludingFees * 1000000 / (1000000 + g.market.takerFee) := Int.ediv_nonneg (by omega) (by omega)
        have e2 : env.order.maxQuoteLotsIncludingFees * 1000000 / (1000000 + g.market.takerFee) ≤ env.order.maxQuoteLotsIncludingFees := by
          apply Int.ediv_le_of_le_mul (by omega)
          rw [Int.mul_add]
          have := Int.mul_nonneg q0 t0
          omega
        have := ho.quote1
        exact ⟨_, ckI64_eq (by omega) (by omega)⟩
      obtain ⟨x, hx⟩ := hx
      obtain ⟨y1, y2, y3⟩ := subtractTakerFees_inv hfo.t0 q0 hx
      exact ⟨x, hx, y2, y3, fun _ _ => y1⟩
    · rename_i hsp
      exact ⟨_, rfl, q0, Int.le_refl _, fun h1 h2 => absurd ⟨h1, h2⟩ hsp⟩
  obtain ⟨maxQ, hmQ, mq0, mq1, mqb⟩ := hmq
  have hmqm : maxQ * g.market.quoteLotSize ≤ i64Max :=
    Int.le_trans (Int.mul_le_mul_of_nonneg_right mq1 (by omega)) i1
  have hlb : env.order.maxBaseLots ≤ g.market.maxBaseLots := by
    unfold Market.maxBaseLots; exact (Int.le_ediv_iff_mul_le hbls).mpr i2
  have hlq0 : env.order.maxQuoteLotsIncludingFees ≤ g.market.maxQuoteLots := by
    unfold Market.maxQuoteLots; exact (Int.le_ediv_iff_mul_le hqls).mpr i1
  have hp2 : p ≤ i64Max := priceLots_le ho hp
  obtain ⟨hd1, hd2⟩ := priceData_facts hp1 hp2 hd
  have hlp := lockPrice_pos ho hp1
  -- the loop
  obtain ⟨ot, hot⟩ := hb.ok env.order.side.invert
  have hsi := hb.side env.order.side.invert
  have hent := hot.entries
  have hord := hot.orders_fun
  have hl0 : LInv { g with market := { g.market with seqNum := g.market.seqNum + 1 } }
      (sideRests env.order.side.invert (virt (oppL ot) [] []) ++ book.sideRest env.order.side) B0 Q0 (fun _ => 0) g.market.seqNum := by
    have h1 := hl.market (m' := { g.market with seqNum := g.market.seqNum + 1 }) ⟨rfl, rfl, rfl⟩ (dB' := B0) (dQ' := Q0) rfl rfl rfl
    have e : virt (oppL ot) [] [] = (book.side env.order.side.invert).orders := by
      funext c; rw [virt_nil, hot.orders, OT.lvs_eq]; rfl
    rw [e]
    exact h1.perm (book.resting_perm _)
  have hF : ∀ f ∈ OT.ord env.order.side.invert (ot .fixed), FixedOk f.2 := by
    intro f hf
    have hf' : f.2 ∈ (book.side env.order.side.invert).orders .fixed := by
      rw [hot.orders, OT.lvs_eq]
      exact List.mem_map_of_mem ((OT.ord_perm _ _).mem_iff.mp hf)
    have hm : (env.order.side.invert, Comp.fixed, f.2) ∈ book.resting := by
      rw [(book.resting_perm env.order.side).mem_iff]
      exact List.mem_append_left _ (List.mem_append_left _ (List.mem_map.mpr ⟨f.2, hf', rfl⟩))
    obtain ⟨oo, a, hok, _⟩ := hl.restOk hm
    have hr := hok.rest _ _ _ _ rfl
    obtain ⟨k1, k2, _⟩ := hr.fixed rfl
    exact ⟨hr.key, k1, k2⟩
  have hlen := hot.lengths
  have lF := (OT.ord_perm env.order.side.invert (ot .fixed)).length_eq
  have lP := (OT.ord_perm env.order.side.invert (ot .pegged)).length_eq
  obtain ⟨it, hit, hi1, hi2⟩ := bs_iter hot
  rw [hsi] at hi1 hi2
  have hns : (book.side env.order.side.invert).nodes.side = env.order.side.invert := hsi
  have hE : LoopEnv env (oppL ot) { g with market := { g.market with seqNum := g.market.seqNum + 1 } } maxQ :=
    ⟨hbls, hqls, hmqm, hent, hnt⟩
  have hI0 : LoopI env p (oppL ot) (book.sideRest env.order.side)
      { g with market := { g.market with seqNum := g.market.seqNum + 1 } } env.order.maxBaseLots maxQ B0 Q0 g.market.seqNum
      (items env.order.side.invert env.nowTs env.oracle (OT.ord env.order.side.invert (ot .fixed))
        (OT.ord env.order.side.invert (ot .pegged)))
      { remBase := env.order.maxBaseLots, remQuote := maxQ, decr := 0, rebates := 0, changes := [], deletes := [],
        dropped := 0, processed := 0, limit := env.limit, postTarget := env.order.postTarget,
        g := { g with market := { g.market with seqNum := g.market.seqNum + 1 } }, fills := [], outs := [] } := by
    have hitems := items_ok (s := env.order.side.invert) (now := env.nowTs) (oracle := env.oracle)
      (OT.ord env.order.side.invert (ot .fixed)) (OT.ord env.order.side.invert (ot .pegged))
    refine
      { frame := LFrame.refl _, seq := rfl, fits := Fits.nil _, fresh := ?_, items := fun i hi => (hitems i hi).1, nodup := ?_,
        linv := ?_, base0 := ho.base0, baseLe := Int.le_refl _, quote0 := mq0, quoteLe := Int.le_refl _, decr0 := Int.le_refl _,
        decrLe := by simp, noSelf := fun _ => rfl, reb0 := Int.le_refl _, reb := by simp, lim := rfl, dropped := by simp,
        post := fun _ => rfl, target := .inl rfl, fills := by simp, outs := by simp, sumB := by simp, sumQ := by simp,
        events := ⟨[], by simp, by simp, by simp⟩ }
    · intro i hi
      refine ⟨?_, by simp, by simp⟩
      rcases (hitems i hi).2 with ⟨hc, hm⟩ | ⟨hc, hm⟩ <;> rw [hc] <;> exact (OT.ord_perm _ _).mem_iff.mp hm
    · refine items_handles _ _ ?_
      refine List.Perm.nodup ?_ hot.handles
      exact ((OT.ord_perm _ _).map _).symm.append ((OT.ord_perm _ _).map _).symm
    · have e1 : loopB B0 env.order.side g.market.baseLotSize (env.order.maxBaseLots - env.order.maxBaseLots) = B0 := by
        unfold loopB; cases env.order.side <;> simp
      have e2 : loopQ Q0 env.order.side g.market.quoteLotSize (maxQ - maxQ) 0 = Q0 := by
        unfold loopQ; cases env.order.side <;> simp
      show LInv _ _ (loopB B0 env.order.side g.market.baseLotSize (env.order.maxBaseLots - env.order.maxBaseLots))
        (loopQ Q0 env.order.side g.market.quoteLotSize (maxQ - maxQ) 0) _ _
      rw [e1, e2]
      exact hl0
  have hbid : ∀ taken, env.order.side = .bid → (env.order.isPostOnly = true → taken = 0) → taken ≤ maxQ →
      taken * g.market.quoteLotSize + ceilTaker g.market.takerFee (taken * g.market.quoteLotSize) ≤
        env.order.maxQuoteLotsIncludingFees * g.market.quoteLotSize := by
    intro taken hs hpo hle
    cases hpost : env.order.isPostOnly with
    | true =>
      rw [hpo hpost, Int.zero_mul, ceilTaker_zero]
      have := Int.mul_nonneg q0 (show 0 ≤ g.market.quoteLotSize by omega); omega
    | false => exact bid_loop_budget hfo.t0 hqls (mqb hs hpost) hle
  have hlr : LoopRoom env { g with market := { g.market with seqNum := g.market.seqNum + 1 } } env.order.maxBaseLots maxQ B0 Q0 := by
    refine ⟨ho.base1, ⟨hbls, hqls, ⟨hfo.t0, hfo.t1, hfo.m0, hfo.m1⟩, hc.avail, hc.base, hc.quote⟩, hr.rem, ?_, ?_⟩
    · intro taken t0 t1
      have hx := hr.depB
      show g.market.baseDepositTotal + loopB B0 env.order.side g.market.baseLotSize taken ≤ u64Max
      have h1 : 0 ≤ taken * g.market.baseLotSize := Int.mul_nonneg t0 (by omega)
      have h2 : taken * g.market.baseLotSize ≤ env.order.maxBaseLots * g.market.baseLotSize := Int.mul_le_mul_of_nonneg_right t1 (by omega)
      unfold loopB
      cases hs : env.order.side <;> rw [hs] at hx <;> simp only [reduceCtorEq, if_true, if_false] at hx ⊢ <;> omega
    · intro taken reb t0 t1 t2 r0 r1
      have hx := hr.depQ
      show g.market.quoteDepositTotal + loopQ Q0 env.order.side g.market.quoteLotSize taken reb ≤ u64Max
      replace r1 : reb ≤ ceilTaker g.market.takerFee (taken * g.market.quoteLotSize) := r1
      have h1 : 0 ≤ taken * g.market.quoteLotSize := Int.mul_nonneg t0 (by omega)
      have h2 := ceilTaker_le h1 hfo.t1
      have h3 := fun hs => hbid taken hs t2 t1
      unfold loopQ
      cases hs : env.order.side <;> rw [hs] at hx <;> simp only [reduceCtorEq, if_true, if_false] at hx ⊢
      · have := h3 hs; omega
      · omega
  have hbud : Budget { g with market := { g.market with seqNum := g.market.seqNum + 1 } } cnt (tk + 1) (2 + k)
      { remBase := env.order.maxBaseLots, remQuote := maxQ, decr := 0, rebates := 0, changes := [], deletes := [],
        dropped := 0, processed := 0, limit := env.limit, postTarget := env.order.postTarget,
        g := { g with market := { g.market with seqNum := g.market.seqNum + 1 } }, fills := [], outs := [] } := by
    refine ⟨LightFrame.refl _, ⟨hr.counters.accts, hr.counters.volume, hr.counters.fees, hr.counters.woOo⟩, ?_⟩
    exact hr.heap.mono (by simp only; omega)
  obtain ⟨res, hres⟩ : ∃ res, newOrder env book g = res := ⟨_, rfl⟩
  rw [hres]
  unfold newOrder at hres
  simp only [ite_bind] at hres
  have hprice : env.order.price env.nowTs env.oracle book = .ok (p, d) := by
    unfold Order.price
    rw [hp, ok_bind, req_true hp1, ok_bind, hd, ok_bind]; rfl
  rw [hprice, ok_bind] at hres
  simp only at hres
  rw [assertR, req_true hr.seq, ok_bind] at hres
  replace hres := bind_eq_of hres hmQ
  rw [req_true (by exact hlb), ok_bind, req_true (by exact Int.le_trans mq1 hlq0), ok_bind, hit, ok_bind,
    matchLoop_eq (2 * Nodes.fuel) _ ⟨hi1, hi2⟩ hF (by omega) (by unfold Nodes.fuel; omega), hns] at hres
  rcases foldItems_ok hE hlr _ _ hI0 hbud with ⟨s, hs, hB⟩ | ⟨f1, ⟨i, f2, f3⟩, f4⟩
  · rw [hs, ok_bind] at hres
    have hI := LoopI.fold hE hI0 hs
    obtain ⟨a0, hown⟩ : ∃ a0 : OOA, env.hasOO = true → g.accts.get? env.owner = some a0 ∧ match env.order.side with
        | .bid => a0.position.bidsBaseLots + min env.order.maxBaseLots env.order.maxQuoteLotsIncludingFees ≤ i64Max ∧
          a0.position.bidsQuoteLots + env.order.maxQuoteLotsIncludingFees ≤ i64Max
        | .ask => a0.position.asksBaseLots + env.order.maxBaseLots ≤ i64Max := by
      cases hoo : env.hasOO with
      | true => obtain ⟨a, h1, h2⟩ := hr.own hoo; exact ⟨a, fun _ => ⟨h1, h2⟩⟩
      | false => exact ⟨OOA.fresh env.owner env.owner, fun h => by cases h⟩
    obtain ⟨bN, qN, fees, ref, qt, g1, ht, hr1, hh1, hlf1⟩ := takerAccounting_ok hE hlr hI rfl i2 (fun h => ⟨a0, (hown h).1⟩) hB
    rw [ht, ok_bind] at hres
    simp only at hres
    have hT := takerAccounting_res hE ⟨hfo.t0, hfo.t1, hfo.m0, hfo.m1⟩ hI rfl ht
    have z1 := hI.quote0; have z2 := hI.quoteLe; have z3 := hI.decr0; have z4 := hI.decrLe; have z5 := hI.base0; have z6 := hI.baseLe
    have hqt := hT.qt
    have hfees : fees = ceilTaker g.market.takerFee ((maxQ - s.remQuote - s.decr) * g.market.quoteLotSize) := hT.hfees
    have hqN : qN = qt * g.market.quoteLotSize := by rw [hqt]; exact hT.quote
    have w0 : 0 ≤ (maxQ - s.remQuote - s.decr) * g.market.quoteLotSize := Int.mul_nonneg (by omega) (by omega)
    have w1 : (maxQ - s.remQuote - s.decr) * g.market.quoteLotSize ≤ qt * g.market.quoteLotSize :=
      Int.mul_le_mul_of_nonneg_right (by omega) (by omega)
    have f0 : 0 ≤ fees := by rw [hfees]; exact ceilTaker_nonneg w0 hfo.t0
    have f1 : fees ≤ ceilTaker g.market.takerFee (qt * g.market.quoteLotSize) := by rw [hfees]; exact ceilTaker_mono hfo.t0 w1
    have f2 : fees ≤ qt * g.market.quoteLotSize := by
      have := ceilTaker_le w0 hfo.t1
      rw [← hfees] at this; omega
    have qtm : qt * g.market.quoteLotSize ≤ i64Max := by
      have := hT.quoteLe; rw [← hqN]; exact this
    have qtp : env.order.isPostOnly = true → qt = 0 := fun h => by have := hI.takenPost h; omega
    have f3 : fees + g.market.quoteLotSize ≤ i64Max := by
      cases hs : env.order.side with
      | ask =>
        refine Int.le_trans (Int.add_le_add_right (Int.le_trans f1 (ceilTaker_mono hfo.t0 ?_)) _) (hr.feeLots hs)
        exact Int.mul_le_mul_of_nonneg_right (by omega) (by omega)
      | bid =>
        have h1 := hbid qt hs qtp (by omega)
        by_cases hz : qt = 0
        · rw [hz, Int.zero_mul] at f2
          have := hr.lotI64; omega
        · have : 1 * g.market.quoteLotSize ≤ qt * g.market.quoteLotSize := Int.mul_le_mul_of_nonneg_right (by omega) (by omega)
          omega
    have easi : asI64 fees = fees := by
      unfold asI64
      have : fees % 18446744073709551616 = fees := by
        apply Int.emod_eq_of_lt f0
        unfold i64Max at f3; omega
      simp only [this]
      rw [if_pos (by omega)]
    rw [easi, ckI64_eq (by omega) f3, ok_bind, ckI64_eq (by omega) (by omega), ok_bind, Int.tdiv_eq_ediv_of_nonneg (by omega)] at hres
    obtain ⟨fl, efl⟩ : ∃ fl, (fees + g.market.quoteLotSize - 1) / g.market.quoteLotSize = fl := ⟨_, rfl⟩
    rw [efl] at hres
    have fl0 : 0 ≤ fl := by rw [← efl]; exact Int.ediv_nonneg (by omega) (by omega)
    have fl1 : fl ≤ qt := by
      rw [← efl]
      have : fees + g.market.quoteLotSize - 1 < (qt + 1) * g.market.quoteLotSize := by rw [Int.add_mul]; omega
      have := Int.ediv_lt_of_lt_mul hqls this
      omega
    have fl2 : fees ≤ fl * g.market.quoteLotSize := by
      have := Int.emod_add_mul_ediv (fees + g.market.quoteLotSize - 1) g.market.quoteLotSize
      have h3 := Int.emod_lt_of_pos (fees + g.market.quoteLotSize - 1) hqls
      rw [efl, Int.mul_comm] at this
      omega
    have hin1 := ho.quote1
    rw [ckI64_eq (by omega) (by omega), ok_bind, ckI64_eq (by omega) (by omega), ok_bind] at hres
    obtain ⟨rq, erq⟩ : ∃ rq, env.order.maxQuoteLotsIncludingFees - qt - fl = rq := ⟨_, rfl⟩
    rw [erq] at hres
    obtain ⟨b1, b2, ot2, hb1, hb2, hbok, hbp, hbs⟩ := virt_spec hot hI.fits
    rw [hb1, ok_bind, hb2, ok_bind] at hres
    have hfr1 : LFrame g g1 := by
      have : LFrame g { g with market := { g.market with seqNum := g.market.seqNum + 1 } } :=
        ⟨rfl, rfl, fun _ a h => ⟨a, h, rfl, rfl, Int.le_refl _, Int.le_refl _, rfl⟩, fun _ _ _ => refs_same, by simp only; omega,
          Int.le_refl _, Int.le_refl _⟩
      exact (this.trans hI.frame).trans hT.frame
    have hc1 := hfr1.covered hc
    rcases postDecision_ok (env := env) (m := g1.market) (priceLots := p) (remBase := s.remBase) (remQuote0 := rq) (pt := s.postTarget)
      (by omega) (by omega) hc1.fees.m1 hlp with ⟨tg, q, hdec⟩ | ⟨k1, k2⟩
    · rw [hdec, ok_bind] at hres
      simp only at hres
      have hh2 : HRoom g1.heap (k + 2) := by rw [hh1]; exact hB.heap.mono (by omega)
      have hr2 : LRoom g1 cnt tk := hr1.mono (by omega) (Nat.le_refl _)
      cases tg with
      | none =>
        refine .inl ⟨_, _, _, hres.symm, hr2, hh2.mono (by omega), fun _ a ha => ?_⟩
        obtain ⟨a', h1, h2⟩ := (hB.light.trans hlf1) env.owner a ha
        exact ⟨a', h1, h2.grown (Int.le_refl _) (Int.le_refl _)⟩
      | some c =>
        simp only at hres
        obtain ⟨_, htgt, fee, hfee, hqty⟩ := postDecision_inv hdec
        obtain ⟨htg, hq1⟩ : s.postTarget = some c ∧ 1 ≤ q := by
          rcases htgt with h | h
          · cases h
          · exact ⟨h.1.symm, h.2.1⟩
        have htg' : env.order.postTarget = some c := by
          rcases hI.target with h | h
          · rw [← h]; exact htg
          · rw [h] at htg; cases htg
        have hne : env.order.postTarget ≠ none := by rw [htg']; simp
        have hoo := hr.posts hne
        obtain ⟨ha0, hlots⟩ := hown hoo
        obtain ⟨a1, ha1, hli1⟩ := (hB.light.trans hlf1) env.owner a0 ha0
        -- how much is posted
        have hposted : q ≤ s.remBase ∧ q * lockPrice env.order p + ceilFee g.market.makerFee (q * lockPrice env.order p) ≤ rq := by
          have hdiv : 1 ≤ (rq - fee).tdiv (lockPrice env.order p) := by omega
          have hpos : 1 ≤ rq - fee := by
            by_contra hx
            have := tdiv_nonpos (a := rq - fee) (b := lockPrice env.order p) (by omega) (by omega)
            omega
          have hr1 : 1 ≤ rq := by
            by_contra hx
            have := makerFeesCeilI_neg (by omega) hc1.fees.m1 hfee
            omega
          have hfe : fee = ceilFee g.market.makerFee rq := by
            rw [← hfr1.maker]; exact makerFeesCeilI_inv (by omega) hfee
          rw [Int.tdiv_eq_ediv_of_nonneg (by omega)] at hqty
          have h2 := Int.ediv_mul_le (rq - fee) (show lockPrice env.order p ≠ 0 by omega)
          have h3 : q * lockPrice env.order p ≤ (rq - fee) / lockPrice env.order p * lockPrice env.order p :=
            Int.mul_le_mul_of_nonneg_right (by omega) (by omega)
          have h4 : 0 ≤ ceilFee g.market.makerFee rq := ceilFee_nonneg (by omega)
          have h5 := ceilFee_mono (mf := g.market.makerFee) (show q * lockPrice env.order p ≤ rq by omega)
          exact ⟨by omega, by omega⟩
        obtain ⟨hq2, hq3⟩ := hposted
        have hp0 : 0 ≤ q * lockPrice env.order p := Int.mul_nonneg (by omega) (by omega)
        have hcf0 := ceilFee_nonneg (mf := g.market.makerFee) hp0
        have hlinv : LInv g1 (sideRests env.order.side (book.side env.order.side).orders ++
            sideRests env.order.side.invert (virt (oppL ot) s.changes s.deletes)) (takeB B0 env.order.side env.hasOO bN)
            (takeQ Q0 env.order.side env.hasOO qN fees ref) (fun _ => 0) g.market.seqNum :=
          hT.linv.perm List.perm_append_comm
        obtain ⟨ots, hots⟩ := hb.ok env.order.side
        have hn64 : g.market.seqNum + 1 < two64 := by have := hr.seq; unfold two64; omega
        have hseqOf : seqOf env.order.side (newNodeKey env.order.side d (g.market.seqNum + 1)) = g.market.seqNum + 1 := by
          have hm := @newNodeKey_mod env.order.side d (g.market.seqNum + 1) hn64
          unfold seqOf
          cases hs : env.order.side with
          | bid => rw [hs] at hm; simp only [hm, seqPart, if_true]; unfold two64 at *; omega
          | ask => rw [hs] at hm; simp only [hm, seqPart]; simp
        rw [Book.side_setSide_invert] at hres
        have hpo := postOrder_ok (env := env) (priceLots := p) (target := c) hots (hb.side _) hlinv hc1 (newNodeKey_lt hd1 hn64) hseqOf hq1 hlp hoo ha1
          (cnt := cnt) (tk := tk) (k := k) (by
            have : g1.market.maxQuoteLots = g.market.maxQuoteLots := by unfold Market.maxQuoteLots; rw [hfr1.qls]
            rw [this]; omega)
          (by
            rw [hfr1.bls]
            exact Int.le_trans (Int.mul_le_mul_of_nonneg_right (by omega) (by omega)) i2)
          (by
            rw [hfr1.deposits.1]
            have hx := hr.depB
            have h1 : bN = (env.order.maxBaseLots - s.remBase) * g.market.baseLotSize := hT.base
            have h2 : (env.order.maxBaseLots - s.remBase) * g.market.baseLotSize ≤ env.order.maxBaseLots * g.market.baseLotSize :=
              Int.mul_le_mul_of_nonneg_right (by omega) (by omega)
            unfold takeB
            rw [hoo]
            cases hs : env.order.side <;> rw [hs] at hx <;> simp only [reduceCtorEq, if_true, if_false] at hx ⊢ <;> omega)
          (by
            rw [hfr1.deposits.2, hfr1.maker, hfr1.qls]
            have hx := hr.depQ
            unfold takeQ
            rw [hoo]
            have h1 := ceilFee_scale (mf := g.market.makerFee) (a := q * lockPrice env.order p) (n := g.market.quoteLotSize) hp0 (by omega)
            have h3 : (q * lockPrice env.order p + ceilFee g.market.makerFee (q * lockPrice env.order p)) * g.market.quoteLotSize ≤ rq * g.market.quoteLotSize :=
              Int.mul_le_mul_of_nonneg_right hq3 (by omega)
            rw [Int.add_mul] at h3
            have h4 : rq * g.market.quoteLotSize = env.order.maxQuoteLotsIncludingFees * g.market.quoteLotSize -
                qt * g.market.quoteLotSize - fl * g.market.quoteLotSize := by
              rw [← erq, Int.sub_mul, Int.sub_mul]
            have h5 : 0 ≤ q * lockPrice env.order p * g.market.quoteLotSize := Int.mul_nonneg hp0 (by omega)
            cases hs : env.order.side <;> rw [hs] at hx <;> simp only [reduceCtorEq, if_true, if_false] at hx ⊢ <;> omega)
          (by
            have x1 := hli1.bids; have x2 := hli1.asks; have x3 := hli1.quote
            have x4 : q * 1 ≤ q * lockPrice env.order p := Int.mul_le_mul_of_nonneg_left hlp (by omega)
            have x5 := ceilFee_nonneg (mf := g.market.makerFee) hp0
            have x6 : 0 ≤ fl * 1 := by omega
            revert hlots
            cases env.order.side <;> simp only <;> omega)
          hr2 hh2
        rcases hpo with ⟨⟨own, g2, pb, pq, mf, outs⟩, k1, k2, k3, a2, k4, k5⟩ | ⟨k1, k2⟩ | ⟨k1, k2⟩
        · rw [k1, ok_bind] at hres
          refine .inl ⟨_, _, _, hres.symm, k2, k3, fun _ a ha => ?_⟩
          rw [ha0] at ha
          cases ha
          exact ⟨a2, k4, hli1.trans_grown k5⟩
        · right
          rcases k2 with k2 | k2
          · rw [k2] at hres
            exact ⟨_, .crowded k1 hne, hres.symm⟩
          · rw [k2] at hres
            exact ⟨_, .stuck k1 hne, hres.symm⟩
        · right
          rw [k2] at hres
          exact ⟨_, .slots a0 ha0 (hli1.noSlot k1) hne, hres.symm⟩
    · rw [k2] at hres
      exact .inr ⟨_, .unfilled k1, hres.symm⟩
  · rw [f4] at hres
    right
    refine ⟨_, ?_, hres.symm⟩
    have hitems := items_ok (s := env.order.side.invert) (now := env.nowTs) (oracle := env.oracle)
      (OT.ord env.order.side.invert (ot .fixed)) (OT.ord env.order.side.invert (ot .pegged)) i f2
    refine .selfTrade i.leaf i.comp f1 f3.1 ?_ f3.2.symm
    rw [hot.orders, OT.lvs_eq]
    rcases hitems.2 with ⟨hc, hm⟩ | ⟨hc, hm⟩
    · rw [hc]; exact List.mem_map.mpr ⟨_, (OT.ord_perm _ _).mem_iff.mp hm, rfl⟩
    · rw [hc]; exact List.mem_map.mpr ⟨_, (OT.ord_perm _ _).mem_iff.mp hm, rfl⟩

end OB
