import Verif.Proofs.Post
import Verif.Proofs.Trace
/-! The whole of `new_order`. -/
namespace OB

/-- What the instructions guarantee of an order. -/
structure OrderOk (o : Order) : Prop where
  base0 : 0 ≤ o.maxBaseLots
  base1 : o.maxBaseLots ≤ i64Max
  quote0 : 0 ≤ o.maxQuoteLotsIncludingFees
  quote1 : o.maxQuoteLotsIncludingFees ≤ i64Max
  price : ∀ p, o.params = .immediateOrCancel p ∨ o.params = .fillOrKill p ∨ (∃ t, o.params = .fixed p t) → p ≤ i64Max
  peg : ∀ off t l, o.params = .oraclePegged off t l → 1 ≤ l ∧ l ≤ i64Max

theorem ckI64_range {x y : Int} (h : ckI64 x = .ok y) : y = x ∧ i64Min ≤ x ∧ x ≤ i64Max := by
  rw [ckI64_ok] at h; exact ⟨h.2.symm, h.1.1, h.1.2⟩

theorem priceForOrderType_le {side : Side} {now : Nat} {oracle : Option Int} {p q : Int} {t : PostOrderType} {book : Book}
    (hp : p ≤ i64Max) (h : priceForOrderType side now oracle p t book = .ok q) : q ≤ i64Max := by
  unfold priceForOrderType at h
  split at h
  · simp only [bind_ok] at h
    obtain ⟨best, _, h⟩ := h
    cases best with
    | none => cases h; exact hp
    | some best =>
      unfold postOnlySlideLimit at h
      cases side with
      | bid =>
        simp only [bind_ok, pure_ok] at h
        obtain ⟨x, hx, h⟩ := h
        have := ckI64_range hx
        cases h; omega
      | ask =>
        simp only [bind_ok, pure_ok] at h
        obtain ⟨x, hx, h⟩ := h
        have := ckI64_range hx
        cases h; omega
  · cases h; exact hp

theorem priceLots_le {o : Order} (ho : OrderOk o) {now : Nat} {oracle : Option Int} {book : Book} {p : Int}
    (h : o.priceLots now oracle book = .ok p) : p ≤ i64Max := by
  unfold Order.priceLots at h
  split at h
  · cases h; unfold marketOrderLimitForSide; cases o.side <;> decide
  · rename_i q hq; cases h; exact ho.price _ (.inl hq)
  · rename_i q hq; cases h; exact ho.price _ (.inr (.inl hq))
  · rename_i q t hq; exact priceForOrderType_le (ho.price _ (.inr (.inr ⟨t, hq⟩))) h
  · split at h
    · cases h
    · simp only [bind_ok, req_ok] at h
      obtain ⟨_, hr, h⟩ := h
      exact priceForOrderType_le hr.2 h

theorem priceData_facts {o : Order} {oracle : Option Int} {p : Int} {d : Nat} (hp1 : 1 ≤ p) (hp2 : p ≤ i64Max)
    (h : o.priceData oracle p = .ok d) : d < two64 ∧ (o.postTarget = some .fixed → (d : Int) = p) := by
  have fix : fixedPriceData p = .ok d → d < two64 ∧ (d : Int) = p := by
    intro h
    rw [fixedPriceData_ok hp1 hp2] at h
    cases h
    have : ((p.toNat : Nat) : Int) = p := Int.toNat_of_nonneg (by omega)
    refine ⟨?_, this⟩
    unfold i64Max at hp2; unfold two64; omega
  unfold Order.priceData at h
  split at h
  · rename_i a b c hq
    simp only [bind_ok, pure_ok] at h
    obtain ⟨op, _, x, _, h⟩ := h
    cases h
    refine ⟨?_, ?_⟩
    · unfold oraclePeggedPriceData; exact Nat.mod_lt _ (by decide)
    · unfold Order.postTarget; rw [hq]; intro hx; cases hx
  · exact ⟨(fix h).1, fun _ => (fix h).2⟩

theorem postTarget_fixed {o : Order} (h : o.postTarget = some .fixed) : o.pegLimit = -1 := by
  unfold Order.postTarget at h
  unfold Order.pegLimit
  split at h <;> simp_all

theorem postTarget_pegged {o : Order} (ho : OrderOk o) (h : o.postTarget = some .pegged) : 1 ≤ o.pegLimit ∧ o.pegLimit ≤ i64Max := by
  unfold Order.postTarget at h
  unfold Order.pegLimit
  split at h
  · cases h
  · rename_i a b c hq; rw [hq]; exact ho.peg _ _ _ hq
  · cases h

theorem pegLimit_cases {o : Order} (ho : OrderOk o) : o.pegLimit = -1 ∨ 1 ≤ o.pegLimit := by
  unfold Order.pegLimit
  split
  · rename_i a b c hq; exact .inr (ho.peg _ _ _ hq).1
  · exact .inl rfl

theorem lockPrice_pos {o : Order} (ho : OrderOk o) {p : Int} (hp : 1 ≤ p) : 1 ≤ lockPrice o p := by
  unfold lockPrice
  split
  · rename_i h; rcases pegLimit_cases ho with h' | h'
    · exact absurd h' h.1
    · exact h'
  · exact hp

theorem postDecision_inv {env : Env} {m : Market} {priceLots remBase remQuote0 : Int} {pt target : Option Comp} {qty : Int}
    (h : postDecision env m priceLots remBase remQuote0 pt = .ok (target, qty)) :
    (env.order.isFillOrKill = true → remBase ≤ 0) ∧
    (target = none ∨ (target = pt ∧ 1 ≤ qty ∧
      ¬ (env.order.pegLimit ≠ -1 ∧ env.order.side.isPriceBetter priceLots env.order.pegLimit = true))) ∧
    ∃ fee, m.makerFeesCeilI remQuote0 = .ok fee ∧
      qty = min remBase ((remQuote0 - fee).tdiv (lockPrice env.order priceLots)) := by
  unfold postDecision at h
  simp only [bind_ok, pure_ok, ckI64_ok, req_ok, assertR] at h
  obtain ⟨fee, hfee, _, ⟨_, rfl⟩, _, _, _, hfok, h⟩ := h
  cases h
  refine ⟨?_, ?_, fee, hfee, rfl⟩
  · intro hf
    by_cases hx : remBase > 0
    · exact absurd ⟨hf, hx⟩ hfok
    · omega
  · split
    · exact .inl rfl
    · rename_i hc
      split
      · exact .inl rfl
      · rename_i hq; exact .inr ⟨rfl, by omega, hc⟩

theorem subtractTakerFees_inv {m : Market} {q x : Int} (hf : 0 ≤ m.takerFee) (hq : 0 ≤ q) (h : m.subtractTakerFees q = .ok x) :
    x = q * 1000000 / (1000000 + m.takerFee) ∧ 0 ≤ x ∧ x ≤ q := by
  unfold Market.subtractTakerFees feesScale at h
  rw [ckI64_ok] at h
  have e : (q * 1000000).tdiv (1000000 + m.takerFee) = q * 1000000 / (1000000 + m.takerFee) :=
    Int.tdiv_eq_ediv_of_nonneg (by omega)
  rw [e] at h
  obtain ⟨_, rfl⟩ := h
  refine ⟨rfl, Int.ediv_nonneg (by omega) (by omega), ?_⟩
  apply Int.ediv_le_of_le_mul (by omega)
  rw [Int.mul_add]
  have := Int.mul_nonneg hq hf
  omega

theorem maxQuote_mul {m : Market} (h : 0 < m.quoteLotSize) {q : Int} (hq : q ≤ m.maxQuoteLots) : q * m.quoteLotSize ≤ i64Max := by
  unfold Market.maxQuoteLots at hq
  exact Int.le_trans (Int.mul_le_mul_of_nonneg_right hq (by omega)) (Int.ediv_mul_le _ (by omega))

theorem maxBase_mul {m : Market} (h : 0 < m.baseLotSize) {q : Int} (hq : q ≤ m.maxBaseLots) : q * m.baseLotSize ≤ i64Max := by
  unfold Market.maxBaseLots at hq
  exact Int.le_trans (Int.mul_le_mul_of_nonneg_right hq (by omega)) (Int.ediv_mul_le _ (by omega))

/-- What an order costs in total: deposits owed to the market. -/
def OrderResult.costB (B0 : Int) (side : Side) (hasOO : Bool) (r : OrderResult) : Int :=
  takeB B0 side hasOO r.totalBaseTakenNative + if side = .ask then r.postedBaseNative else 0
def OrderResult.costQ (Q0 : Int) (side : Side) (hasOO : Bool) (r : OrderResult) : Int :=
  takeQ Q0 side hasOO r.totalQuoteTakenNative r.takerFees r.referrerAmount + (if side = .bid then r.postedQuoteNative else 0) + r.makerFees

/-- Book entries of the side an order matches against. -/
def oppL (ot : Comp → Option T) : Comp → HL := fun c => OT.leaves (ot c)

/-- Everything known of a successful order. -/
structure PlaceRes (env : Env) (book : Book) (g : Ledger) (r : OrderResult) (book' : Book) (g' : Ledger)
    (R : NewOrderRun env book g r book' g') (ot : Comp → Option T) (B0 Q0 : Int) : Prop where
  opp : BSOk (book.side env.order.side.invert) ot
  maxQ0 : 0 ≤ R.maxQ
  maxQle : R.maxQ ≤ env.order.maxQuoteLotsIncludingFees
  priceLe : R.priceLots ≤ i64Max
  fold : foldItems env R.priceLots (items env.order.side.invert env.nowTs env.oracle (OT.ord env.order.side.invert (ot .fixed))
      (OT.ord env.order.side.invert (ot .pegged)))
    { remBase := env.order.maxBaseLots, remQuote := R.maxQ, decr := 0, rebates := 0, changes := [], deletes := [],
      dropped := 0, processed := 0, limit := env.limit, postTarget := env.order.postTarget,
      g := { g with market := { g.market with seqNum := g.market.seqNum + 1 } }, fills := [], outs := [] } = .ok R.s
  loop : LoopI env R.priceLots (oppL ot) (book.sideRest env.order.side)
    { g with market := { g.market with seqNum := g.market.seqNum + 1 } } env.order.maxBaseLots R.maxQ B0 Q0 g.market.seqNum [] R.s
  loopEnv : LoopEnv env (oppL ot) { g with market := { g.market with seqNum := g.market.seqNum + 1 } } R.maxQ
  loop0 : LoopI env R.priceLots (oppL ot) (book.sideRest env.order.side)
    { g with market := { g.market with seqNum := g.market.seqNum + 1 } } env.order.maxBaseLots R.maxQ B0 Q0 g.market.seqNum
    (items env.order.side.invert env.nowTs env.oracle (OT.ord env.order.side.invert (ot .fixed))
      (OT.ord env.order.side.invert (ot .pegged)))
    { remBase := env.order.maxBaseLots, remQuote := R.maxQ, decr := 0, rebates := 0, changes := [], deletes := [],
      dropped := 0, processed := 0, limit := env.limit, postTarget := env.order.postTarget,
      g := { g with market := { g.market with seqNum := g.market.seqNum + 1 } }, fills := [], outs := [] }
  trace : ∃ tr todo, LoopTrace env R.priceLots { g.market with seqNum := g.market.seqNum + 1 }
    (items env.order.side.invert env.nowTs env.oracle (OT.ord env.order.side.invert (ot .fixed))
      (OT.ord env.order.side.invert (ot .pegged))) R.s tr todo
  taker : TakerRes env { g with market := { g.market with seqNum := g.market.seqNum + 1 } } R.s
    (sideRests env.order.side.invert (virt (oppL ot) R.s.changes R.s.deletes) ++ book.sideRest env.order.side)
    env.order.maxBaseLots R.maxQ B0 Q0 g.market.seqNum r.totalBaseTakenNative r.totalQuoteTakenNative r.takerFees r.referrerAmount
    R.quoteTaken R.g1
  opp2 : ∃ ot2, BSOk R.opp2 ot2 ∧ R.opp2.side = env.order.side.invert ∧
    ∀ c, (R.opp2.orders c).Perm (virt (oppL ot) R.s.changes R.s.deletes c)
  posted : ∀ c, R.target = some c → ∃ own outs, env.order.postTarget = some c ∧ 1 ≤ R.qty ∧
    book' = (book.setSide env.order.side.invert R.opp2).setSide env.order.side own ∧ r.outs = R.s.outs ++ outs ∧
    PostRes env (newNodeKey env.order.side R.priceData (g.market.seqNum + 1)) R.priceLots (lockPrice env.order R.priceLots) R.qty c
      (book.side env.order.side) R.g1 (sideRests env.order.side.invert R.opp2.orders)
      (takeB B0 env.order.side env.hasOO r.totalBaseTakenNative)
      (takeQ Q0 env.order.side env.hasOO r.totalQuoteTakenNative r.takerFees r.referrerAmount) g.market.seqNum own g'
      r.postedBaseNative r.postedQuoteNative r.makerFees outs
  postKey : newNodeKey env.order.side R.priceData (g.market.seqNum + 1) < 2 ^ 128 ∧
    seqOf env.order.side (newNodeKey env.order.side R.priceData (g.market.seqNum + 1)) = g.market.seqNum + 1
  postLock : ∀ c, R.target = some c →
    (c = .fixed → lockPrice env.order R.priceLots =
      ((newNodeKey env.order.side R.priceData (g.market.seqNum + 1) >>> 64) % two64 : Nat)) ∧
    (c = .pegged → env.order.side = .bid → lockPrice env.order R.priceLots = env.order.pegLimit)
  book : BookOk book'
  linv : LInv g' book'.resting (r.costB B0 env.order.side env.hasOO) (r.costQ Q0 env.order.side env.hasOO) (fun _ => 0)
    (g.market.seqNum + 1)
  frame : LFrame g g'
  seq : g'.market.seqNum = g.market.seqNum + 1

theorem newOrder_res {env : Env} {book book' : Book} {g g' : Ledger} {r : OrderResult} (hb : BookOk book)
    {B0 Q0 : Int} (hl : LInv g book.resting B0 Q0 (fun _ => 0) g.market.seqNum) (hbls : 0 < g.market.baseLotSize)
    (hqls : 0 < g.market.quoteLotSize) (hfo : FeesOk g.market) (ho : OrderOk env.order)
    (hnt : env.hasOO = false → g.accts.get? env.owner = none)
    (R : NewOrderRun env book g r book' g') : ∃ ot, PlaceRes env book g r book' g' R ot B0 Q0 := by
  obtain ⟨ot, hot⟩ := hb.ok env.order.side.invert
  have hsi := hb.side env.order.side.invert
  have hent := hot.entries
  have hord := hot.orders_fun
  have hmQ : 0 ≤ R.maxQ ∧ R.maxQ ≤ env.order.maxQuoteLotsIncludingFees := by
    have h := R.maxQEq
    split at h
    · exact (subtractTakerFees_inv hfo.t0 ho.quote0 h).2
    · injection h with h; rw [← h]; exact ⟨ho.quote0, Int.le_refl _⟩
  have hp2 : R.priceLots ≤ i64Max := priceLots_le ho R.price
  obtain ⟨hd1, hd2⟩ := priceData_facts R.pricePos hp2 R.data
  -- the initial loop state
  have hl0 : LInv { g with market := { g.market with seqNum := g.market.seqNum + 1 } }
      (sideRests env.order.side.invert (virt (oppL ot) [] []) ++ book.sideRest env.order.side) B0 Q0 (fun _ => 0) g.market.seqNum := by
    have h1 := hl.market (m' := { g.market with seqNum := g.market.seqNum + 1 }) ⟨rfl, rfl, rfl⟩ (dB' := B0) (dQ' := Q0) rfl rfl rfl
    have e : virt (oppL ot) [] [] = (book.side env.order.side.invert).orders := by
      funext c; rw [virt_nil, hot.orders, OT.lvs_eq]; rfl
    rw [e]
    exact h1.perm (book.resting_perm _)
  have hF : ∀ f ∈ OT.ord env.order.side.invert (ot .fixed), FixedOk f.2 := by
    intro f hf
    have hf' : f.2 ∈ (book.side env.order.side.invert).orders .fixed := by
      rw [hot.orders, OT.lvs_eq]
      exact List.mem_map_of_mem ((OT.ord_perm _ _).mem_iff.mp hf)
    have hm : (env.order.side.invert, Comp.fixed, f.2) ∈ book.resting := by
      rw [(book.resting_perm env.order.side).mem_iff]
      exact List.mem_append_left _ (List.mem_append_left _ (List.mem_map.mpr ⟨f.2, hf', rfl⟩))
    obtain ⟨oo, a, hok, _⟩ := hl.restOk hm
    have hr := hok.rest _ _ _ _ rfl
    obtain ⟨k1, k2, _⟩ := hr.fixed rfl
    exact ⟨hr.key, k1, k2⟩
  have hlen := hot.lengths
  have lF := (OT.ord_perm env.order.side.invert (ot .fixed)).length_eq
  have lP := (OT.ord_perm env.order.side.invert (ot .pegged)).length_eq
  have hfold := R.loop
  obtain ⟨it, hit, hi1, hi2⟩ := bs_iter hot
  have hit' : it = R.it := by have := R.iter; rw [hit] at this; injection this
  rw [hsi] at hi1 hi2
  rw [← hit', matchLoop_eq (2 * Nodes.fuel) _ ⟨hi1, hi2⟩ hF (by omega) (by unfold Nodes.fuel; omega)] at hfold
  have hns : (book.side env.order.side.invert).nodes.side = env.order.side.invert := hsi
  rw [hns] at hfold
  have hE : LoopEnv env (oppL ot) { g with market := { g.market with seqNum := g.market.seqNum + 1 } } R.maxQ :=
    ⟨hbls, hqls, maxQuote_mul hqls R.maxQ_le, hent, hnt⟩
  have hI0 : LoopI env R.priceLots (oppL ot) (book.sideRest env.order.side)
      { g with market := { g.market with seqNum := g.market.seqNum + 1 } } env.order.maxBaseLots R.maxQ B0 Q0 g.market.seqNum
      (items env.order.side.invert env.nowTs env.oracle (OT.ord env.order.side.invert (ot .fixed))
        (OT.ord env.order.side.invert (ot .pegged)))
      { remBase := env.order.maxBaseLots, remQuote := R.maxQ, decr := 0, rebates := 0, changes := [], deletes := [],
        dropped := 0, processed := 0, limit := env.limit, postTarget := env.order.postTarget,
        g := { g with market := { g.market with seqNum := g.market.seqNum + 1 } }, fills := [], outs := [] } := by
    have hitems := items_ok (s := env.order.side.invert) (now := env.nowTs) (oracle := env.oracle)
      (OT.ord env.order.side.invert (ot .fixed)) (OT.ord env.order.side.invert (ot .pegged))
    refine
      { frame := LFrame.refl _, seq := rfl, fits := Fits.nil _, fresh := ?_, items := fun i hi => (hitems i hi).1, nodup := ?_,
        linv := ?_, base0 := ho.base0, baseLe := Int.le_refl _, quote0 := hmQ.1, quoteLe := Int.le_refl _, decr0 := Int.le_refl _,
        decrLe := by simp, noSelf := fun _ => rfl, reb0 := Int.le_refl _, reb := by simp, lim := rfl, dropped := by simp,
        post := fun _ => rfl, target := .inl rfl, fills := by simp, outs := by simp, sumB := by simp, sumQ := by simp,
        events := ⟨[], by simp, by simp, by simp⟩ }
    · intro i hi
      refine ⟨?_, by simp, by simp⟩
      rcases (hitems i hi).2 with ⟨hc, hm⟩ | ⟨hc, hm⟩ <;> rw [hc] <;> exact (OT.ord_perm _ _).mem_iff.mp hm
    · refine items_handles _ _ ?_
      refine List.Perm.nodup ?_ hot.handles
      exact ((OT.ord_perm _ _).map _).symm.append ((OT.ord_perm _ _).map _).symm
    · have e1 : loopB B0 env.order.side g.market.baseLotSize (env.order.maxBaseLots - env.order.maxBaseLots) = B0 := by
        unfold loopB; cases env.order.side <;> simp
      have e2 : loopQ Q0 env.order.side g.market.quoteLotSize (R.maxQ - R.maxQ) 0 = Q0 := by
        unfold loopQ; cases env.order.side <;> simp
      show LInv _ _ (loopB B0 env.order.side g.market.baseLotSize (env.order.maxBaseLots - env.order.maxBaseLots))
        (loopQ Q0 env.order.side g.market.quoteLotSize (R.maxQ - R.maxQ) 0) _ _
      rw [e1, e2]
      exact hl0
  have hI := LoopI.fold hE hI0 hfold
  have htr := hI0.trace hE ⟨rfl, rfl, rfl, rfl, rfl, rfl, rfl, by simp, by simp, by simp, rfl⟩ hfold
  have hT := takerAccounting_res hE ⟨hfo.t0, hfo.t1, hfo.m0, hfo.m1⟩ hI rfl R.taker
  obtain ⟨b1, b2, ot2, hb1, hb2, hbok, hbp, hbs⟩ := virt_spec hot hI.fits
  have e1 : b1 = R.opp1 := by have := R.chg; rw [hb1] at this; injection this
  subst e1
  have e2 : b2 = R.opp2 := by have := R.del; rw [hb2] at this; injection this
  rw [e2] at hbok hbs
  have hs2 : R.opp2.side = env.order.side.invert := hbs.trans hsi
  have hord2 := hbok.orders_fun
  have hperm2 : ∀ c, (R.opp2.orders c).Perm (virt (oppL ot) R.s.changes R.s.deletes c) := by
    intro c; rw [hord2]; exact hbp c
  have hbook1 := hb.setSide hbok hs2
  have hfr1 : LFrame g R.g1 := by
    have : LFrame g { g with market := { g.market with seqNum := g.market.seqNum + 1 } } :=
      ⟨rfl, rfl, fun _ a h => ⟨a, h, rfl, rfl, Int.le_refl _, Int.le_refl _, rfl⟩, fun _ _ _ => refs_same, by simp only; omega,
        Int.le_refl _, Int.le_refl _⟩
    exact (this.trans hI.frame).trans hT.frame
  have hl1 : LInv R.g1 (sideRests env.order.side.invert R.opp2.orders ++ book.sideRest env.order.side)
      (takeB B0 env.order.side env.hasOO r.totalBaseTakenNative)
      (takeQ Q0 env.order.side env.hasOO r.totalQuoteTakenNative r.takerFees r.referrerAmount) (fun _ => 0) g.market.seqNum :=
    hT.linv.perm ((sideRests_perm hperm2).symm.append_right _)
  have hseq1 : R.g1.market.seqNum = g.market.seqNum + 1 := hT.seq.trans hI.seq
  obtain ⟨hfok, htgt, fee, hfee, hqty⟩ := postDecision_inv R.decision
  have hkeys : newNodeKey env.order.side R.priceData (g.market.seqNum + 1) < 2 ^ 128 ∧
      seqOf env.order.side (newNodeKey env.order.side R.priceData (g.market.seqNum + 1)) = g.market.seqNum + 1 := by
    have hsq := R.seq
    have hn64 : g.market.seqNum + 1 < two64 := by unfold two64; omega
    refine ⟨newNodeKey_lt hd1 hn64, ?_⟩
    have hm := @newNodeKey_mod env.order.side R.priceData (g.market.seqNum + 1) hn64
    unfold seqOf
    cases hs : env.order.side with
    | bid => rw [hs] at hm; simp only [hm, seqPart, if_true]; unfold two64 at *; omega
    | ask => rw [hs] at hm; simp only [hm, seqPart]; simp
  have hlock : ∀ c, R.target = some c →
      (c = .fixed → lockPrice env.order R.priceLots =
        ((newNodeKey env.order.side R.priceData (g.market.seqNum + 1) >>> 64) % two64 : Nat)) ∧
      (c = .pegged → env.order.side = .bid → lockPrice env.order R.priceLots = env.order.pegLimit) := by
    intro c hc
    rw [hc] at htgt
    rcases htgt with htgt | ⟨htgt, hq1, _⟩
    · cases htgt
    · have htg : env.order.postTarget = some c := by
        rcases hI.target with h | h
        · rw [← h, ← htgt]
        · rw [h] at htgt; cases htgt
      have hsq := R.seq
      have hn64 : g.market.seqNum + 1 < two64 := by unfold two64; omega
      have hkd := @newNodeKey_div env.order.side R.priceData (g.market.seqNum + 1) hd1 hn64
      refine ⟨?_, ?_⟩
      · intro hc; subst hc
        rw [hkd]
        have hpl := postTarget_fixed htg
        have hdp := hd2 htg
        rw [hdp]; unfold lockPrice; rw [hpl]; simp
      · intro hc hs; subst hc
        have hpl := postTarget_pegged ho htg
        unfold lockPrice; rw [if_pos ⟨by omega, hs⟩]
  have hpost : ∀ c, R.target = some c → ∃ own outs, env.order.postTarget = some c ∧ 1 ≤ R.qty ∧
      book' = (book.setSide env.order.side.invert R.opp2).setSide env.order.side own ∧ r.outs = R.s.outs ++ outs ∧
      PostRes env (newNodeKey env.order.side R.priceData (g.market.seqNum + 1)) R.priceLots (lockPrice env.order R.priceLots) R.qty c
        (book.side env.order.side) R.g1 (sideRests env.order.side.invert R.opp2.orders)
        (takeB B0 env.order.side env.hasOO r.totalBaseTakenNative)
        (takeQ Q0 env.order.side env.hasOO r.totalQuoteTakenNative r.takerFees r.referrerAmount) g.market.seqNum own g'
        r.postedBaseNative r.postedQuoteNative r.makerFees outs := by
    intro c hc
    rcases R.post with ⟨hn, _⟩ | ⟨c', own, outs, hc', hid, hpo, houts, hbk⟩
    · rw [hn] at hc; cases hc
    · rw [hc'] at hc; injection hc with hc; subst hc
      rw [hc'] at htgt
      rcases htgt with htgt | ⟨htgt, hq1, _⟩
      · cases htgt
      · have htg : env.order.postTarget = some c' := by
          rcases hI.target with h | h
          · rw [← h, ← htgt]
          · rw [h] at htgt; cases htgt
        refine ⟨own, outs, htg, hq1, hbk, houts, ?_⟩
        rw [Book.side_setSide_invert] at hpo
        obtain ⟨ots, hots⟩ := hb.ok env.order.side
        have hsq := R.seq
        have hn64 : g.market.seqNum + 1 < two64 := by unfold two64; omega
        have hkd := @newNodeKey_div env.order.side R.priceData (g.market.seqNum + 1) hd1 hn64
        refine postOrder_res hots (hb.side _) ?_ (by rw [hfr1.bls]; exact hbls) (by rw [hfr1.qls]; exact hqls) (newNodeKey_lt hd1 hn64) ?_ hq1
          (lockPrice_pos ho R.pricePos) ?_ ?_ hpo
        · exact hl1.perm List.perm_append_comm
        · have hm := @newNodeKey_mod env.order.side R.priceData (g.market.seqNum + 1) hn64
          unfold seqOf
          cases hs : env.order.side with
          | bid => rw [hs] at hm; simp only [hm, seqPart, if_true]; unfold two64 at *; omega
          | ask => rw [hs] at hm; simp only [hm, seqPart]; simp
        · intro hc
          subst hc
          rw [hkd]
          have hpl := postTarget_fixed htg
          have hdp := hd2 htg
          have hp1 := R.pricePos
          refine ⟨by omega, by rw [hdp]; exact hp2, hpl, ?_⟩
          rw [hdp]; unfold lockPrice; rw [hpl]; simp
        · intro hc
          subst hc
          have hpl := postTarget_pegged ho htg
          refine ⟨hpl.1, fun hs => ?_⟩
          unfold lockPrice; rw [if_pos ⟨by omega, hs⟩]
  refine ⟨ot, hot, hmQ.1, hmQ.2, hp2, hfold, hI, hE, hI0, htr, hT, ⟨ot2, hbok, hs2, hperm2⟩, hpost, hkeys, hlock, ?_, ?_, ?_, ?_⟩
  all_goals rcases R.post with ⟨hn, hid, h1, h2, h3, h4, h5, h6⟩ | ⟨c', own, outs, hc', hid, hpo, houts, hbk⟩
  · rw [h5]; exact hbook1
  · obtain ⟨own, outs, _, _, hbk, _, hP⟩ := hpost c' hc'
    rw [hbk]
    obtain ⟨o3, ho3⟩ := hP.ok
    exact hbook1.setSide ho3 (hP.bside.trans (hb.side _))
  · have cg : ∀ {x y : Ledger} {b c : Book} {dB dQ : Int} {ex : Pubkey → Int} {n : Nat}, x = y → b = c → LInv y c.resting dB dQ ex n →
        LInv x b.resting dB dQ ex n := by
      intro x y b c dB dQ ex n h1 h2 h; rw [h1, h2]; exact h
    refine cg h6 h5 ?_
    have := hl1.mono (Nat.le_succ g.market.seqNum)
    unfold OrderResult.costB OrderResult.costQ
    rw [h1, h2, h3]
    simp only [ite_self, Int.add_zero]
    refine this.perm ?_
    refine List.Perm.trans ?_ ((Book.resting_perm (book.setSide env.order.side.invert R.opp2) env.order.side).symm)
    unfold Book.sideRest
    rw [Book.side_setSide, Book.side_setSide_invert]
  · obtain ⟨own, outs, _, _, hbk, _, hP⟩ := hpost c' hc'
    have := hP.linv
    unfold OrderResult.costB OrderResult.costQ
    rw [hbk]
    refine this.perm ?_
    refine List.Perm.trans ?_ ((Book.resting_perm ((book.setSide env.order.side.invert R.opp2).setSide env.order.side own)
      env.order.side).symm)
    unfold Book.sideRest
    rw [Book.side_setSide, Book.side_setSide_invert', Book.side_setSide]
    exact List.perm_append_comm
  · rw [h6]; exact hfr1
  · obtain ⟨own, outs, _, _, hbk, _, hP⟩ := hpost c' hc'
    exact hfr1.trans hP.frame
  · rw [h6]; exact hseq1
  · obtain ⟨own, outs, _, _, hbk, _, hP⟩ := hpost c' hc'
    rw [hP.mkt]; exact hseq1

end OB
