import Verif.Model.Client
import Verif.Proofs.TakeIx
/-! The client's iteration over the book does what the matching engine does. -/
namespace OB
open Spec
namespace Client

/-- The client's loop as a fold over a list of items. -/
def foldIter (m : Market) : List IterItem → St → R St
  | [], s => .ok s
  | i :: is, s => do
    let (go, s') ← iterStep m i s
    if go then foldIter m is s' else return s'

theorem iterLoop_eq {m : Market} {t : Nodes} {now : Nat} {oracle : Option Int} (n : Nat) {it : SideIter} {F P : HL} (st : St)
    (h : SIterAt t it F P) (hF : ∀ f ∈ F, FixedOk f.2) (hl : P.length ≤ 1024) (hn : F.length + P.length + 1 ≤ n) :
    iterLoop m t now oracle n it st = foldIter m (items t.side now oracle F P) st := by
  induction n generalizing it F P st with
  | zero => omega
  | succ n ih =>
    rw [iterLoop, items_eq]
    rcases sideIter_next now oracle h hF hl with ⟨h1, h2⟩ | ⟨item, it', F', P', h1, h2, h3⟩
    · rw [h1, h2]; rfl
    · rw [h1, h2]
      simp only [ok_bind, foldIter]
      have hlen := nextL_length h1
      obtain ⟨s1, s2⟩ := nextL_subset h1
      cases hm : iterStep m item st with
      | error e => rfl
      | ok x =>
        obtain ⟨go, st'⟩ := x
        simp only [ok_bind]
        cases go with
        | false => rfl
        | true =>
          simp only [if_true]
          exact ih st' h3 (fun f hf => hF f (s1.subset hf)) (by have := s2.length_le; omega) (by omega)

/-- Nothing more is taken once the budget is spent. -/
theorem foldIter_spent {m : Market} (its : List IterItem) (s : St) (h : s.remBase = 0 ∨ s.remQuote = 0) :
    ∃ s', foldIter m its s = .ok s' ∧ s'.remBase = s.remBase ∧ s'.remQuote = s.remQuote ∧ s'.rebates = s.rebates := by
  induction its generalizing s with
  | nil => exact ⟨s, rfl, rfl, rfl, rfl⟩
  | cons i its ih =>
    rw [foldIter, iterStep]
    split
    · split
      · simp only [ok_bind, if_true]
        exact ih _ h
      · simp only [ok_bind, if_true]
        exact ih _ h
    · rw [if_pos (by rcases h with h | h <;> simp [h])]
      exact ⟨s, rfl, rfl, rfl, rfl⟩

theorem processFill_static {ev : FillEvent} {b : Bool} {o : Pubkey} {rem : List Pubkey} {g g' : Ledger} {p p' : Nat}
    (h : processFillEvent ev b o rem g p = .ok (g', p')) :
    g'.market.makerFee = g.market.makerFee ∧ g'.market.quoteLotSize = g.market.quoteLotSize := by
  unfold processFillEvent at h
  split at h
  · split at h
    · cases h
    · simp only [bind_ok, pure_ok] at h
      obtain ⟨a, _, ⟨a', m'⟩, hm, h⟩ := h
      cases h
      obtain ⟨_, _, _, _, M⟩ := executeMaker_inv hm
      rw [M.mkt]
      exact ⟨rfl, rfl⟩
  · simp only [bind_ok, pure_ok] at h
    obtain ⟨_, _, h⟩ := h
    cases h
    exact ⟨rfl, rfl⟩

theorem processOut_static {ev : OutEvent} {b : Bool} {o : Pubkey} {rem : List Pubkey} {g g' : Ledger}
    (h : processOutEvent ev b o rem g = .ok g') : g'.market = g.market := by
  unfold processOutEvent at h
  split at h
  · simp only [bind_ok, pure_ok] at h
    obtain ⟨_, _, _, _, rfl⟩ := h
    rfl
  · split at h <;> (simp only [bind_ok, pure_ok] at h)
    · obtain ⟨_, _, _, _, rfl⟩ := h; rfl
    · obtain ⟨_, _, rfl⟩ := h; rfl

/-- Variables that agree. -/
structure Sim (m : Market) (s : MatchSt) (c : St) : Prop where
  base : c.remBase = s.remBase
  quote : c.remQuote = s.remQuote
  rebates : c.rebates = s.rebates
  limit : c.limit = s.limit
  fee : s.g.market.makerFee = m.makerFee
  qls : s.g.market.quoteLotSize = m.quoteLotSize

/-- The client's step for an item that the engine fills. -/
theorem iterStep_fill {env : Env} {price : Int} {m : Market} {i : IterItem} {s : MatchSt} {c : St} {g : Ledger} {p : Nat} {rb : Int}
    (hs : Sim m s c) (hm : Matchable env price i s) (hf : Filled env i s g p)
    (hq : i64Min ≤ matchQty i s * i.priceLots * s.g.market.quoteLotSize ∧ matchQty i s * i.priceLots * s.g.market.quoteLotSize ≤ i64Max)
    (hrb : s.g.market.makerRebateFloor (asU64 (matchQty i s * i.priceLots * s.g.market.quoteLotSize)) = .ok rb)
    (hr : 0 ≤ s.rebates + rb ∧ s.rebates + rb ≤ u64Max) :
    iterStep m i c = .ok (true, { c with
      remBase := c.remBase - matchQty i s, remQuote := c.remQuote - matchQty i s * i.priceLots, rebates := c.rebates + rb,
      limit := c.limit - 1
      accounts := if c.processed < fillEventRemainingLimit then c.accounts ++ [i.leaf.owner] else c.accounts
      processed := if c.processed < fillEventRemainingLimit then c.processed + 1 else c.processed }) := by
  have hmq : min (min c.remBase i.leaf.quantity) (c.remQuote.tdiv i.priceLots) = matchQty i s := by
    rw [hs.base, hs.quote]; rfl
  have hrb' : m.makerRebateFloor (asU64 (matchQty i s * i.priceLots * m.quoteLotSize)) = .ok rb := by
    rw [← hrb, hs.qls]
    unfold Market.makerRebateFloor Market.unsignedMakerFeesFloor
    rw [hs.fee]
  have k1 : ckI64 (matchQty i s * i.priceLots) = .ok (matchQty i s * i.priceLots) := ckI64_ok.mpr ⟨hm.range, rfl⟩
  have k2 : ckI64 (matchQty i s * i.priceLots * m.quoteLotSize) = .ok (matchQty i s * i.priceLots * m.quoteLotSize) :=
    ckI64_ok.mpr ⟨by rw [← hs.qls]; exact hq, rfl⟩
  have k3 : ckU64 (c.rebates + rb) = .ok (c.rebates + rb) := ckU64_ok.mpr ⟨by rw [hs.rebates]; exact hr, rfl⟩
  have k4 : ckI64 (c.remBase - matchQty i s) = .ok (c.remBase - matchQty i s) := ckI64_ok.mpr ⟨by rw [hs.base]; exact hf.rb, rfl⟩
  have k5 : ckI64 (c.remQuote - matchQty i s * i.priceLots) = .ok (c.remQuote - matchQty i s * i.priceLots) :=
    ckI64_ok.mpr ⟨by rw [hs.quote]; exact ⟨by have := hf.rq.1; unfold i64Min; omega, hf.rq.2⟩, rfl⟩
  have k6 : assertR (c.limit ≥ 1) = .ok () := by
    have := hm.lim; rw [← hs.limit] at this
    simp only [assertR, req]; rw [if_pos (by omega)]
  have k7 : assertR (i.priceLots ≠ 0) = .ok () := by simp only [assertR, req, if_pos hm.price0]
  have hqn := hm.quote
  rw [← hs.quote] at hqn
  have hz : ¬ (c.remBase = 0 ∨ c.remQuote = 0 ∨ c.limit = 0) := by
    rw [hs.base, hs.quote, hs.limit]
    rintro (h | h | h)
    · exact hm.rb h
    · exact hm.rq h
    · exact hm.lim h
  rw [iterStep, if_neg (by simp [hm.valid]), if_neg hz]
  simp only [k7, ok_bind, hmq, k1, k2, hrb', k3, k4, k5, k6]
  rw [if_neg hqn]
  split <;> rfl

theorem fold_sim {env : Env} {price : Int} {m : Market} (its : List IterItem) {s s' : MatchSt} {c : St}
    (hw : ∀ i ∈ its, env.order.side.isPriceWithinLimit i.priceLots price = true) (hpo : env.order.isPostOnly = false)
    (hself : ∀ i ∈ its, ¬ selfTrade env i) (hs : Sim m s c) (h : foldItems env price its s = .ok s') :
    ∃ c', foldIter m its c = .ok c' ∧ c'.remBase = s'.remBase ∧ c'.remQuote = s'.remQuote ∧ c'.rebates = s'.rebates := by
  induction its generalizing s c with
  | nil => cases h; exact ⟨c, rfl, hs.base, hs.quote, hs.rebates⟩
  | cons i its ih =>
    rw [foldItems] at h
    simp only [bind_ok] at h
    obtain ⟨⟨go, s1⟩, h1, h⟩ := h
    have hwi := hw i (by simp)
    have hsi := hself i (by simp)
    have hw' : ∀ j ∈ its, env.order.side.isPriceWithinLimit j.priceLots price = true := fun j hj => hw j (by simp [hj])
    have hs' : ∀ j ∈ its, ¬ selfTrade env j := fun j hj => hself j (by simp [hj])
    cases matchStep_inv h1 with
    | done hz =>
      cases h
      obtain ⟨c', k1, k2, k3, k4⟩ := foldIter_spent (m := m) (i :: its) c (by rw [hs.base, hs.quote]; exact hz)
      exact ⟨c', k1, by rw [k2, hs.base], by rw [k3, hs.quote], by rw [k4, hs.rebates]⟩
    | drop g rb rq hst hd hp =>
      have hm := processOut_static hp
      simp only [if_true] at h
      rw [foldIter, iterStep, if_pos hst]
      split
      · simp only [ok_bind, if_true]
        refine ih hw' hs' (s := { s with dropped := _, deletes := _, g := g, outs := _ }) ⟨hs.base, hs.quote, hs.rebates, hs.limit, by show g.market.makerFee = _; rw [hm, hs.fee], by show g.market.quoteLotSize = _; rw [hm, hs.qls]⟩ h
      · simp only [ok_bind, if_true]
        refine ih hw' hs' (s := { s with dropped := _, deletes := _, g := g, outs := _ }) ⟨hs.base, hs.quote, hs.rebates, hs.limit, by show g.market.makerFee = _; rw [hm, hs.fee], by show g.market.quoteLotSize = _; rw [hm, hs.qls]⟩ h
    | ignore rb rq hst hd =>
      simp only [if_true] at h
      rw [foldIter, iterStep, if_pos hst]
      split
      · simp only [ok_bind, if_true]
        exact ih hw' hs' ⟨hs.base, hs.quote, hs.rebates, hs.limit, hs.fee, hs.qls⟩ h
      · simp only [ok_bind, if_true]
        exact ih hw' hs' hs h
    | stop rb rq hst hwn => rw [hwi] at hwn; cases hwn
    | block rb rq hst _ hr =>
      cases h
      refine ⟨c, ?_, hs.base, hs.quote, hs.rebates⟩
      rw [foldIter, iterStep, if_neg (by simp [hst])]
      rcases hr with hr | hr | ⟨hr1, hr2⟩
      · rw [hpo] at hr; cases hr
      · rw [if_pos (by rw [hs.limit]; exact .inr (.inr hr))]; rfl
      · split
        · rfl
        · rw [← hs.quote] at hr2
          simp only [assertR, req, if_pos hr1, hr2, if_true]
          rfl
    | cancelOwn a a' hm hself' _ _ _ => exact absurd hself' hsi
    | fillSelf g p hm hself' _ _ _ => exact absurd hself' hsi
    | fill g p rb hm hself' hq hrb hr hf =>
      simp only [if_true] at h
      obtain ⟨e1, e2⟩ := processFill_static hf.proc
      have hstep := iterStep_fill hs hm hf hq hrb hr
      rw [foldIter, hstep]
      simp only [ok_bind, if_true]
      refine ih hw' hs' ⟨?_, ?_, ?_, ?_, ?_, ?_⟩ h
      · show c.remBase - _ = s.remBase - _; rw [hs.base]
      · show c.remQuote - _ = s.remQuote - _; rw [hs.quote]
      · show c.rebates + _ = s.rebates + _; rw [hs.rebates]
      · show c.limit - 1 = s.limit - 1; rw [hs.limit]
      · show g.market.makerFee = _; rw [e1, hs.fee]
      · show g.market.quoteLotSize = _; rw [e2, hs.qls]

theorem call_fixed {env : Env} {book : Book} {g : Ledger} {dB dQ : Int} {ot : Comp → Option T} (hc : Core g book dB dQ)
    (ho : BSOk (book.side env.order.side.invert) ot) : ∀ f ∈ OT.ord env.order.side.invert (ot .fixed), FixedOk f.2 := by
  intro f hf
  have hm : (env.order.side.invert, Comp.fixed, f.2) ∈ book.resting := by
    rw [mem_resting, mem_oppL ho]; exact ⟨_, mem_ord.mp hf, rfl⟩
  obtain ⟨oo, hok, _⟩ := resting_ok hc hm
  obtain ⟨k1, k2, _⟩ := hok.fixed rfl
  exact ⟨hok.key, k1, k2⟩

/-- Every order lies within the limit of a market order. -/
theorem call_within {env : Env} {book book' : Book} {g g' : Ledger} {r : OrderResult} (C : CallRun env book g r book' g')
    (hm : env.order.params = .market) {i : IterItem} (hi : i ∈ callItems env C.ot) :
    env.order.side.isPriceWithinLimit i.priceLots C.R.priceLots = true := by
  have hs := item_spec C.core C.P.opp hi
  obtain ⟨h1, h2⟩ := items_ok _ _ i hi
  have hp : C.R.priceLots = marketOrderLimitForSide env.order.side := by
    have := C.R.price
    unfold Order.priceLots at this
    rw [hm] at this
    injection this with this
    exact this.symm
  have hle : i.priceLots ≤ i64Max := by
    cases hcc : i.comp with
    | pegged => have := (hs.range hcc).2; omega
    | fixed =>
      obtain ⟨oo, hok, _⟩ := resting_ok C.core hs.mem
      rw [h1.fixed hcc]
      exact (hok.fixed hcc).2.1
  rw [hp]
  have := hs.pos
  cases hsd : env.order.side
  · exact decide_eq_true hle
  · exact decide_eq_true this

/-- The client's iteration is its loop over the items of the call. -/
theorem iterate_fold {env : Env} {book book' : Book} {g g' : Ledger} {r : OrderResult} (C : CallRun env book g r book' g')
    (hpo : env.order.isPostOnly = false) {x : IterRes}
    (hx : iterateBook book env.order.side env.order.maxBaseLots env.order.maxQuoteLotsIncludingFees g.market env.oracle env.nowTs = .ok x) :
    ∃ c, foldIter g.market (callItems env C.ot)
      { remBase := env.order.maxBaseLots, remQuote := C.R.maxQ, rebates := 0, limit := maximumTakenOrders, processed := 0,
        dropped := 0, accounts := [] } = .ok c ∧ x.accounts = c.accounts := by
  have hmq : maxQuoteLots g.market env.order.maxQuoteLotsIncludingFees env.order.side = .ok C.R.maxQ := by
    have := C.R.maxQEq
    rw [hpo] at this
    cases hs : env.order.side <;> rw [hs] at this <;> simpa [maxQuoteLots] using this
  obtain ⟨it, hit, hi1, hi2⟩ := bs_iter C.P.opp
  have hsi : (book.side env.order.side.invert).side = env.order.side.invert := C.side
  rw [hsi] at hi1 hi2
  have hlen := C.P.opp.lengths
  have lF := (OT.ord_perm env.order.side.invert (C.ot .fixed)).length_eq
  have lP := (OT.ord_perm env.order.side.invert (C.ot .pegged)).length_eq
  have hns : (book.side env.order.side.invert).nodes.side = env.order.side.invert := hsi
  have hloop := iterLoop_eq (m := g.market) (now := env.nowTs) (oracle := env.oracle) (2 * Nodes.fuel)
    { remBase := env.order.maxBaseLots, remQuote := C.R.maxQ, rebates := 0, limit := maximumTakenOrders, processed := 0,
      dropped := 0, accounts := [] } ⟨hi1, hi2⟩ (call_fixed C.core C.P.opp) (by omega) (by unfold Nodes.fuel; omega)
  rw [hns] at hloop
  unfold iterateBook at hx
  rw [hmq] at hx
  simp only [ok_bind, hit, hloop, bind_ok, ckI64_ok, pure_ok] at hx
  obtain ⟨c, hc, _, _, _, _, hx⟩ := hx
  cases hx
  exact ⟨c, hc, rfl⟩

theorem iterate_eq {env : Env} {book book' : Book} {g g' : Ledger} {r : OrderResult} (C : CallRun env book g r book' g')
    (hm : env.order.params = .market) (hlim : env.limit = maximumTakenOrders)
    (hself : ∀ c l, (env.order.side.invert, c, l) ∈ book.resting → env.hasOO = true → l.owner ≠ env.owner) :
    ∃ x, iterateBook book env.order.side env.order.maxBaseLots env.order.maxQuoteLotsIncludingFees g.market env.oracle env.nowTs = .ok x ∧
      x.baseLots = sumQty r.fills ∧ x.quoteLots = Spec.sumQuote r.fills ∧ x.rebates = (r.fills.map (fillRebate g.market)).sum ∧
      x.notEnough = env.order.side.pick (decide (C.R.maxQ ≠ Spec.sumQuote r.fills)) (decide (env.order.maxBaseLots ≠ sumQty r.fills)) := by
  have hpo : env.order.isPostOnly = false := by unfold Order.isPostOnly; rw [hm]
  have hmq : maxQuoteLots g.market env.order.maxQuoteLotsIncludingFees env.order.side = .ok C.R.maxQ := by
    have := C.R.maxQEq
    rw [hpo] at this
    cases hs : env.order.side <;> rw [hs] at this <;> simpa [maxQuoteLots] using this
  obtain ⟨it, hit, hi1, hi2⟩ := bs_iter C.P.opp
  have hsi : (book.side env.order.side.invert).side = env.order.side.invert := C.side
  rw [hsi] at hi1 hi2
  have hlen := C.P.opp.lengths
  have lF := (OT.ord_perm env.order.side.invert (C.ot .fixed)).length_eq
  have lP := (OT.ord_perm env.order.side.invert (C.ot .pegged)).length_eq
  have hns : (book.side env.order.side.invert).nodes.side = env.order.side.invert := hsi
  obtain ⟨c, k1, k2, k3, k4⟩ := fold_sim (m := g.market) (callItems env C.ot)
    (c := { remBase := env.order.maxBaseLots, remQuote := C.R.maxQ, rebates := 0, limit := maximumTakenOrders, processed := 0,
            dropped := 0, accounts := [] })
    (fun i hi => call_within C hm hi) hpo
    (fun i hi hs => hself _ _ (item_spec C.core C.P.opp hi).mem hs.1 hs.2.symm)
    ⟨rfl, rfl, rfl, hlim.symm, rfl, rfl⟩ C.P.fold
  have hb := C.sumBase
  have hq := C.sumQuote
  have b0 := C.P.loop.base0
  have b1 := C.valid.order.base.2
  have q0 := C.P.loop.quote0
  have q1 := C.P.maxQle
  have q2 := C.valid.order.quote.2
  have b2 := C.P.loop.baseLe
  have q3 := C.P.loop.quoteLe
  have hloop := iterLoop_eq (m := g.market) (now := env.nowTs) (oracle := env.oracle) (2 * Nodes.fuel)
    { remBase := env.order.maxBaseLots, remQuote := C.R.maxQ, rebates := 0, limit := maximumTakenOrders, processed := 0,
      dropped := 0, accounts := [] } ⟨hi1, hi2⟩ (call_fixed C.core C.P.opp) (by omega) (by unfold Nodes.fuel; omega)
  rw [hns] at hloop
  rw [show items env.order.side.invert env.nowTs env.oracle (OT.ord env.order.side.invert (C.ot .fixed)) (OT.ord env.order.side.invert (C.ot .pegged)) = callItems env C.ot from rfl, k1] at hloop
  have c1 : ckI64 (env.order.maxBaseLots - c.remBase) = .ok (env.order.maxBaseLots - c.remBase) :=
    ckI64_ok.mpr ⟨by rw [k2]; unfold i64Min; omega, rfl⟩
  have c2 : ckI64 (C.R.maxQ - c.remQuote) = .ok (C.R.maxQ - c.remQuote) :=
    ckI64_ok.mpr ⟨by rw [k3]; unfold i64Min; omega, rfl⟩
  refine ⟨IterRes.mk (env.order.maxBaseLots - c.remBase) (C.R.maxQ - c.remQuote) c.rebates
    (match env.order.side with | .ask => decide (c.remBase ≠ 0) | .bid => decide (c.remQuote ≠ 0)) c.accounts, ?_, ?_, ?_, ?_, ?_⟩
  rotate_left
  · show env.order.maxBaseLots - c.remBase = _; omega
  · show C.R.maxQ - c.remQuote = _; omega
  · show c.rebates = _; rw [k4, C.rebates_eq]
  rotate_left
  · unfold iterateBook
    rw [hmq]
    simp only [ok_bind, hit, hloop, c1, c2]
    rfl
  · cases env.order.side
    · show decide _ = decide _
      apply decide_eq_decide.mpr; omega
    · show decide _ = decide _
      apply decide_eq_decide.mpr; omega

theorem amounts_eq {env : Env} {book book' : Book} {g g' : Ledger} {r : OrderResult} (C : CallRun env book g r book' g')
    (hm : env.order.params = .market) (hlim : env.limit = maximumTakenOrders)
    (hself : ∀ c l, (env.order.side.invert, c, l) ∈ book.resting → env.hasOO = true → l.owner ≠ env.owner) :
    amountsFromBook book env.order.side env.order.maxBaseLots env.order.maxQuoteLotsIncludingFees g.market env.oracle env.nowTs =
      .ok { base := sumQty r.fills * g.market.baseLotSize, quote := Spec.sumQuote r.fills * g.market.quoteLotSize,
            fee := (r.fills.map (fillRebate g.market)).sum,
            notEnough := env.order.side.pick (decide (C.R.maxQ ≠ Spec.sumQuote r.fills)) (decide (env.order.maxBaseLots ≠ sumQty r.fills)) } := by
  obtain ⟨x, h1, h2, h3, h4, h5⟩ := iterate_eq C hm hlim hself
  have hb := C.sumBase
  have hq := C.sumQuote
  have b0 := C.P.loop.base0
  have q0 := C.P.loop.quote0
  have b2 := C.P.loop.baseLe
  have q3 := C.P.loop.quoteLe
  have m1 := maxBase_mul C.core.bls (q := sumQty r.fills) (by have := C.R.maxB_le; omega)
  have m2 := maxQuote_mul C.core.qls (q := Spec.sumQuote r.fills) (by have := C.R.maxQ_le; omega)
  have n1 : 0 ≤ sumQty r.fills * g.market.baseLotSize := Int.mul_nonneg (by omega) (by have := C.core.bls; omega)
  have n2 : 0 ≤ Spec.sumQuote r.fills * g.market.quoteLotSize := Int.mul_nonneg (by omega) (by have := C.core.qls; omega)
  unfold amountsFromBook
  rw [h1]
  simp only [ok_bind, h2, h3, h4, h5]
  rw [ckI64_ok.mpr ⟨⟨by unfold i64Min; omega, m1⟩, rfl⟩, ckI64_ok.mpr ⟨⟨by unfold i64Min; omega, m2⟩, rfl⟩]
  simp only [ok_bind]
  rw [asU64_eq n1 (by unfold i64Max at m1; unfold u64Max; omega), asU64_eq n2 (by unfold i64Max at m2; unfold u64Max; omega)]
  rfl

theorem nextL_now {s : Side} {now now' : Nat} {oracle : Option Int} {F P : HL}
    (hF : ∀ f ∈ F, f.2.isExpired now = f.2.isExpired now') (hP : ∀ f ∈ P, f.2.isExpired now = f.2.isExpired now') :
    nextL s now oracle F P = nextL s now' oracle F P := by
  have hf : ∀ f ∈ F, fixedItem now f = fixedItem now' f := by
    intro f h; unfold fixedItem; rw [hF f h]
  have hp : ∀ o, ∀ p ∈ P, peggedItem s now o p = peggedItem s now' o p := by
    intro o p h; unfold peggedItem peggedToResult; rw [hP p h]
  unfold nextL
  cases oracle with
  | none => cases F with
    | nil => rfl
    | cons f F => simp only [hf f (by simp)]
  | some o =>
    cases hx : (pegPeek (some o) s P).1 with
    | none => cases F with
      | nil => rfl
      | cons f F => simp only [hf f (by simp)]
    | some p =>
      have hm : p ∈ P := by
        unfold pegPeek at hx
        cases P with
        | nil => cases hx
        | cons q qs =>
          simp only at hx
          split at hx
          · obtain ⟨A, hA, _⟩ := skipAhead_some (L' := (skipAhead o s qs).2) (Prod.ext hx rfl)
            rw [hA]; simp
          · cases hx; simp
      cases F with
      | nil => simp only [hp o p hm]
      | cons f F => simp only [hp o p hm, hf f (by simp)]

theorem items_now {s : Side} {now now' : Nat} {oracle : Option Int} (F P : HL)
    (hF : ∀ f ∈ F, f.2.isExpired now = f.2.isExpired now') (hP : ∀ f ∈ P, f.2.isExpired now = f.2.isExpired now') :
    items s now oracle F P = items s now' oracle F P := by
  unfold items
  generalize F.length + P.length = n
  induction n generalizing F P with
  | zero => rfl
  | succ n ih =>
    rw [itemsL, itemsL, nextL_now hF hP]
    cases hx : nextL s now' oracle F P with
    | none => rfl
    | some x =>
      obtain ⟨i, F', P'⟩ := x
      obtain ⟨s1, s2⟩ := nextL_subset hx
      simp only
      rw [ih _ _ (fun f h => hF f (s1.subset h)) (fun f h => hP f (s2.subset h))]

/-- The amounts do not depend on the time as long as no order of the side expires. -/
theorem amounts_now {g : Ledger} {book : Book} {dB dQ : Int} (hc : Core g book dB dQ) {side : Side} {mb mq : Int} {m : Market}
    {oracle : Option Int} {now now' : Nat}
    (h : ∀ c l, (side.invert, c, l) ∈ book.resting → l.isExpired now = l.isExpired now') :
    amountsFromBook book side mb mq m oracle now = amountsFromBook book side mb mq m oracle now' := by
  obtain ⟨ot, ho⟩ := hc.bookOk.ok side.invert
  obtain ⟨it, hit, hi1, hi2⟩ := bs_iter ho
  have hsi := hc.bookOk.side side.invert
  rw [hsi] at hi1 hi2
  have hlen := ho.lengths
  have lF := (OT.ord_perm side.invert (ot .fixed)).length_eq
  have lP := (OT.ord_perm side.invert (ot .pegged)).length_eq
  have hns : (book.side side.invert).nodes.side = side.invert := hsi
  have hmem : ∀ c, ∀ f ∈ OT.ord side.invert (ot c), (side.invert, c, f.2) ∈ book.resting := by
    intro c f hf
    rw [mem_resting, mem_oppL ho]
    exact ⟨_, mem_ord.mp hf, rfl⟩
  have hF : ∀ f ∈ OT.ord side.invert (ot .fixed), FixedOk f.2 := by
    intro f hf
    obtain ⟨oo, hok, _⟩ := resting_ok hc (hmem _ f hf)
    obtain ⟨k1, k2, _⟩ := hok.fixed rfl
    exact ⟨hok.key, k1, k2⟩
  have key : ∀ st, iterLoop m (book.side side.invert).nodes now oracle (2 * Nodes.fuel) it st =
      iterLoop m (book.side side.invert).nodes now' oracle (2 * Nodes.fuel) it st := by
    intro st
    rw [iterLoop_eq (2 * Nodes.fuel) st ⟨hi1, hi2⟩ hF (by omega) (by unfold Nodes.fuel; omega),
      iterLoop_eq (2 * Nodes.fuel) st ⟨hi1, hi2⟩ hF (by omega) (by unfold Nodes.fuel; omega), hns,
      items_now _ _ (fun f hf => h _ _ (hmem _ f hf)) (fun f hf => h _ _ (hmem _ f hf))]
  unfold amountsFromBook iterateBook
  simp only [hit, ok_bind, key]

end Client
end OB
