import Verif.Proofs.Basic
import Verif.Model.Book
/-! Inversion of one iteration of the matching loop, and induction over the loop. -/
namespace OB

/-- The out event of a dropped order. -/
def dropEvent (env : Env) (i : IterItem) (s : MatchSt) : OutEvent :=
  { side := env.order.side.invert, ownerSlot := i.leaf.ownerSlot, timestamp := env.nowTs,
    seqNum := s.g.heap.seqNum, owner := i.leaf.owner, quantity := i.leaf.quantity }

/-- The taker owns the resting order. -/
def selfTrade (env : Env) (i : IterItem) : Prop := env.hasOO = true ∧ env.owner = i.leaf.owner

instance (env : Env) (i : IterItem) : Decidable (selfTrade env i) := by unfold selfTrade; infer_instance

/-- Base lots matched against an item. -/
def matchQty (i : IterItem) (s : MatchSt) : Int := min (min s.remBase i.leaf.quantity) (s.remQuote.tdiv i.priceLots)

/-- Common facts about an item that is matched. -/
structure Matchable (env : Env) (price : Int) (i : IterItem) (s : MatchSt) : Prop where
  rb : s.remBase ≠ 0
  rq : s.remQuote ≠ 0
  valid : i.state = .valid
  within : env.order.side.isPriceWithinLimit i.priceLots price = true
  notPost : env.order.isPostOnly = false
  lim : s.limit ≠ 0
  price0 : i.priceLots ≠ 0
  quote : s.remQuote.tdiv i.priceLots ≠ 0
  range : i64Min ≤ matchQty i s * i.priceLots ∧ matchQty i s * i.priceLots ≤ i64Max

/-- State after a fill. -/
def afterFill (env : Env) (i : IterItem) (s : MatchSt) (g : Ledger) (processed : Nat) : MatchSt :=
  { s with
    remBase := s.remBase - matchQty i s
    remQuote := s.remQuote - matchQty i s * i.priceLots
    changes := if i.leaf.quantity - matchQty i s = 0 then s.changes
      else s.changes ++ [(i.handle, i.leaf.quantity - matchQty i s)]
    deletes := if i.leaf.quantity - matchQty i s = 0 then s.deletes ++ [(i.comp, i.leaf.key)] else s.deletes
    processed := processed
    limit := s.limit - 1
    g := g
    fills := s.fills ++ [mkFill env s.g.market.seqNum i (i.leaf.quantity - matchQty i s = 0) (matchQty i s)] }

/-- Facts about a successful `matchFill`. -/
structure Filled (env : Env) (i : IterItem) (s : MatchSt) (g : Ledger) (processed : Nat) : Prop where
  rb : i64Min ≤ s.remBase - matchQty i s ∧ s.remBase - matchQty i s ≤ i64Max
  rq : 0 ≤ s.remQuote - matchQty i s * i.priceLots ∧ s.remQuote - matchQty i s * i.priceLots ≤ i64Max
  nq : i64Min ≤ i.leaf.quantity - matchQty i s ∧ i.leaf.quantity - matchQty i s ≤ i64Max
  proc : processFillEvent (mkFill env s.g.market.seqNum i (i.leaf.quantity - matchQty i s = 0) (matchQty i s)) env.hasOO env.owner
    env.rem s.g s.processed = .ok (g, processed)

inductive StepOut (env : Env) (price : Int) (i : IterItem) (s : MatchSt) : Bool → MatchSt → Prop
  | done (h : s.remBase = 0 ∨ s.remQuote = 0) : StepOut env price i s false s
  | drop (g : Ledger) (rb : s.remBase ≠ 0) (rq : s.remQuote ≠ 0) (hs : i.state ≠ .valid) (hd : s.dropped < dropExpiredOrderLimit)
      (hp : processOutEvent (dropEvent env i s) env.hasOO env.owner env.rem s.g = .ok g) :
      StepOut env price i s true
        { s with dropped := s.dropped + 1, deletes := s.deletes ++ [(i.comp, i.leaf.key)], g := g,
                 outs := s.outs ++ [dropEvent env i s] }
  | ignore (rb : s.remBase ≠ 0) (rq : s.remQuote ≠ 0) (hs : i.state ≠ .valid) (hd : ¬ s.dropped < dropExpiredOrderLimit) :
      StepOut env price i s true s
  | stop (rb : s.remBase ≠ 0) (rq : s.remQuote ≠ 0) (hs : i.state = .valid)
      (hw : env.order.side.isPriceWithinLimit i.priceLots price = false) : StepOut env price i s false s
  | block (rb : s.remBase ≠ 0) (rq : s.remQuote ≠ 0) (hs : i.state = .valid)
      (hw : env.order.side.isPriceWithinLimit i.priceLots price = true)
      (hr : env.order.isPostOnly = true ∨ s.limit = 0 ∨ (i.priceLots ≠ 0 ∧ s.remQuote.tdiv i.priceLots = 0)) :
      StepOut env price i s false { s with postTarget := none }
  | cancelOwn (a a' : OOA) (hm : Matchable env price i s) (hself : selfTrade env i)
      (hb : env.order.selfTradeBehavior = .cancelProvide) (ha : s.g.accts.get env.owner = .ok a)
      (hc : a.cancelOrder i.leaf.ownerSlot i.leaf.quantity s.g.market = .ok a') :
      StepOut env price i s true { s with deletes := s.deletes ++ [(i.comp, i.leaf.key)],
                                          g := { s.g with accts := s.g.accts.set env.owner a' } }
  | fillSelf (g : Ledger) (processed : Nat) (hm : Matchable env price i s) (hself : selfTrade env i)
      (hb : env.order.selfTradeBehavior = .decrementTake)
      (hdr : i64Min ≤ s.decr + matchQty i s * i.priceLots ∧ s.decr + matchQty i s * i.priceLots ≤ i64Max)
      (hf : Filled env i s g processed) :
      StepOut env price i s true { afterFill env i s g processed with decr := s.decr + matchQty i s * i.priceLots }
  | fill (g : Ledger) (processed : Nat) (rb : Int) (hm : Matchable env price i s) (hself : ¬ selfTrade env i)
      (hq : i64Min ≤ matchQty i s * i.priceLots * s.g.market.quoteLotSize ∧
        matchQty i s * i.priceLots * s.g.market.quoteLotSize ≤ i64Max)
      (hrb : s.g.market.makerRebateFloor (asU64 (matchQty i s * i.priceLots * s.g.market.quoteLotSize)) = .ok rb)
      (hr : 0 ≤ s.rebates + rb ∧ s.rebates + rb ≤ u64Max)
      (hf : Filled env i s g processed) :
      StepOut env price i s true { afterFill env i s g processed with rebates := s.rebates + rb }

theorem matchFill_inv {env : Env} {i : IterItem} {s s0 s' : MatchSt}
    (e1 : s.remBase = s0.remBase) (e2 : s.remQuote = s0.remQuote) (e3 : s.g = s0.g) (e4 : s.processed = s0.processed)
    (h : matchFill env i (matchQty i s0) (matchQty i s0 * i.priceLots) s = .ok s') :
    ∃ g processed, Filled env i s0 g processed ∧ s.limit ≠ 0 ∧
      s' = { s with
        remBase := s0.remBase - matchQty i s0
        remQuote := s0.remQuote - matchQty i s0 * i.priceLots
        changes := if i.leaf.quantity - matchQty i s0 = 0 then s.changes
          else s.changes ++ [(i.handle, i.leaf.quantity - matchQty i s0)]
        deletes := if i.leaf.quantity - matchQty i s0 = 0 then s.deletes ++ [(i.comp, i.leaf.key)] else s.deletes
        processed := processed
        limit := s.limit - 1
        g := g
        fills := s.fills ++ [mkFill env s0.g.market.seqNum i (i.leaf.quantity - matchQty i s0 = 0) (matchQty i s0)] } := by
  unfold matchFill at h
  simp only [bind_ok, pure_ok, ckI64_ok, req_ok, assertR] at h
  rw [e1, e2, e3, e4] at h
  obtain ⟨_, ⟨a1, rfl⟩, _, ⟨a2, rfl⟩, _, a3, _, ⟨a4, rfl⟩, ⟨g, p⟩, a5, _, a6, rfl⟩ := h
  refine ⟨g, p, ⟨a1, ⟨by omega, a2.2⟩, a4, a5⟩, by omega, ?_⟩
  simp only [decide_eq_true_eq]

theorem matchStep_inv {env : Env} {price : Int} {i : IterItem} {s s' : MatchSt} {go : Bool}
    (h : matchStep env price i s = .ok (go, s')) : StepOut env price i s go s' := by
  unfold matchStep at h
  simp only at h
  split at h
  · rename_i hz; cases h; exact .done hz
  rename_i hz
  rw [not_or] at hz
  obtain ⟨hz1, hz2⟩ := hz
  split at h
  · rename_i hs
    split at h
    · rename_i hd
      simp only [bind_ok, pure_ok] at h
      obtain ⟨g, hg, h⟩ := h
      cases h
      exact .drop g hz1 hz2 hs hd hg
    · rename_i hd; cases h; exact .ignore hz1 hz2 hs hd
  rename_i hs
  have hs : i.state = .valid := by simpa using hs
  split at h
  · rename_i hw; cases h; exact .stop hz1 hz2 hs hw
  rename_i hw
  have hw : env.order.side.isPriceWithinLimit i.priceLots price = true := by simpa using hw
  split at h
  · rename_i hp; cases h; exact .block hz1 hz2 hs hw (.inl hp)
  rename_i hp
  have hp : env.order.isPostOnly = false := by simpa using hp
  split at h
  · rename_i hl; cases h; exact .block hz1 hz2 hs hw (.inr (.inl hl))
  rename_i hl
  simp only [bind_ok, assertR, req_ok] at h
  obtain ⟨_, hp0, h⟩ := h
  split at h
  · rename_i hq; cases h; exact .block hz1 hz2 hs hw (.inr (.inr ⟨hp0, hq⟩))
  rename_i hq
  simp only [bind_ok, ckI64_ok] at h
  obtain ⟨_, ⟨hr, rfl⟩, h⟩ := h
  have hm : Matchable env price i s := ⟨hz1, hz2, hs, hw, hp, hl, hp0, hq, hr⟩
  split at h
  · rename_i hself
    split at h
    · rename_i hb
      simp only [bind_ok, ckI64_ok, pure_ok] at h
      obtain ⟨_, ⟨hd, rfl⟩, s1, h1, h⟩ := h
      cases h
      obtain ⟨g, p, hf, hl', he⟩ := matchFill_inv (i := i) (s0 := s) (s := { s with decr := s.decr + matchQty i s * i.priceLots })
        rfl rfl rfl rfl h1
      subst he
      exact .fillSelf g p hm hself hb hd hf
    · rename_i hb
      simp only [bind_ok, pure_ok] at h
      obtain ⟨a, ha, a', ha', h⟩ := h
      cases h
      exact .cancelOwn a a' hm hself hb ha ha'
    · cases h
  · rename_i hself
    simp only [bind_ok, ckI64_ok, ckU64_ok, pure_ok] at h
    obtain ⟨_, ⟨h2, rfl⟩, rb, hrb, _, ⟨h3, rfl⟩, s1, h1, h⟩ := h
    cases h
    obtain ⟨g, p, hf, hl', he⟩ := matchFill_inv (i := i) (s0 := s) (s := { s with rebates := s.rebates + rb })
      rfl rfl rfl rfl h1
    subst he
    exact .fill g p rb hm hself h2 hrb h3 hf

/-- Induction over the matching loop, for any book. -/
theorem matchLoop_induct {env : Env} {price : Int} {t : Nodes} {I J : MatchSt → Prop}
    (h0 : ∀ s, I s → J s)
    (h1 : ∀ i s s', I s → StepOut env price i s true s' → I s')
    (h2 : ∀ i s s', I s → StepOut env price i s false s' → J s') :
    ∀ n it s s', I s → matchLoop env price t n it s = .ok s' → J s' := by
  intro n
  induction n with
  | zero => intro it s s' _ h; cases h
  | succ n ih =>
    intro it s s' hI h
    rw [matchLoop] at h
    simp only [bind_ok] at h
    obtain ⟨o, _, h⟩ := h
    cases o with
    | none => cases h; exact h0 s hI
    | some x =>
      obtain ⟨item, it'⟩ := x
      simp only [bind_ok] at h
      obtain ⟨⟨go, s1⟩, hm, h⟩ := h
      have hs := matchStep_inv hm
      cases go with
      | false => cases h; exact h2 item s s1 hI hs
      | true => exact ih it' s1 s' (h1 item s s1 hI hs) h

/-- All facts about a successful order. -/
structure NewOrderRun (env : Env) (book : Book) (g0 : Ledger) (r : OrderResult) (book' : Book) (g' : Ledger) where
  priceLots : Int
  priceData : Nat
  price : env.order.priceLots env.nowTs env.oracle book = .ok priceLots
  pricePos : 1 ≤ priceLots
  data : env.order.priceData env.oracle priceLots = .ok priceData
  seq : g0.market.seqNum < 18446744073709551615
  maxQ : Int
  maxQEq : (if env.order.side = .bid ∧ env.order.isPostOnly = false
    then g0.market.subtractTakerFees env.order.maxQuoteLotsIncludingFees else .ok env.order.maxQuoteLotsIncludingFees) = .ok maxQ
  maxB_le : env.order.maxBaseLots ≤ g0.market.maxBaseLots
  maxQ_le : maxQ ≤ g0.market.maxQuoteLots
  it : SideIter
  iter : (book.side env.order.side.invert).iter = .ok it
  s : MatchSt
  loop : matchLoop env priceLots (book.side env.order.side.invert).nodes (2 * Nodes.fuel) it
    { remBase := env.order.maxBaseLots, remQuote := maxQ, decr := 0, rebates := 0, changes := [], deletes := [],
      dropped := 0, processed := 0, limit := env.limit, postTarget := env.order.postTarget,
      g := { g0 with market := { g0.market with seqNum := g0.market.seqNum + 1 } }, fills := [], outs := [] } = .ok s
  quoteTaken : Int
  g1 : Ledger
  taker : takerAccounting env maxQ s =
    .ok (r.totalBaseTakenNative, r.totalQuoteTakenNative, r.takerFees, r.referrerAmount, quoteTaken, g1)
  remQuote : Int
  remQuoteEq : remQuote = env.order.maxQuoteLotsIncludingFees - quoteTaken -
    (asI64 r.takerFees + g0.market.quoteLotSize - 1).tdiv g0.market.quoteLotSize
  opp1 : BookSide
  opp2 : BookSide
  chg : applyChanges (book.side env.order.side.invert) s.changes = .ok opp1
  del : applyDeletes opp1 s.deletes = .ok opp2
  target : Option Comp
  qty : Int
  decision : postDecision env g1.market priceLots s.remBase remQuote s.postTarget = .ok (target, qty)
  fills : r.fills = s.fills
  post : (target = none ∧ r.orderId = none ∧ r.postedBaseNative = 0 ∧ r.postedQuoteNative = 0 ∧ r.makerFees = 0 ∧
      r.outs = s.outs ∧ book' = book.setSide env.order.side.invert opp2 ∧ g' = g1) ∨
    ∃ c own outs, target = some c ∧ r.orderId = some (newNodeKey env.order.side priceData (g0.market.seqNum + 1)) ∧
      postOrder env (newNodeKey env.order.side priceData (g0.market.seqNum + 1)) priceLots (lockPrice env.order priceLots) qty c
        ((book.setSide env.order.side.invert opp2).side env.order.side) g1 =
        .ok (own, g', r.postedBaseNative, r.postedQuoteNative, r.makerFees, outs) ∧
      r.outs = s.outs ++ outs ∧ book' = (book.setSide env.order.side.invert opp2).setSide env.order.side own

theorem newOrder_inv {env : Env} {book book' : Book} {g0 g' : Ledger} {r : OrderResult}
    (h : newOrder env book g0 = .ok (r, book', g')) : Nonempty (NewOrderRun env book g0 r book' g') := by
  unfold newOrder at h
  simp only [ite_bind] at h
  simp only [bind_ok] at h
  obtain ⟨⟨p, d⟩, hp, h⟩ := h
  unfold Order.price at hp
  simp only [bind_ok, req_ok, pure_ok] at hp
  obtain ⟨p', hp1, _, hp2, d', hp3, hp4⟩ := hp
  cases hp4
  simp only [assertR, bind_ok, req_ok, ckI64_ok] at h
  obtain ⟨_, hseq, maxQ, hmq, _, hb, _, hq, it, hit, s, hl, ⟨bn, qn, fees, ref, qt, g1⟩, ht, h⟩ := h
  simp only at h
  obtain ⟨_, ⟨_, rfl⟩, _, ⟨_, rfl⟩, _, ⟨_, rfl⟩, _, ⟨_, rfl⟩, opp1, ho1, opp2, ho2, ⟨tg, qty⟩, hd, h⟩ := h
  cases tg with
  | none =>
    simp only [pure_ok, Except.ok.injEq, Prod.mk.injEq] at h
    obtain ⟨rfl, rfl, rfl⟩ := h
    exact ⟨⟨p, d, hp1, hp2, hp3, hseq, maxQ, hmq, hb, hq, it, hit, s, hl, qt, g1, ht, _, rfl, opp1, opp2, ho1, ho2, none, qty, hd,
      rfl, .inl ⟨rfl, rfl, rfl, rfl, rfl, rfl, rfl, rfl⟩⟩⟩
  | some c =>
    simp only [pure_ok, bind_ok] at h
    obtain ⟨⟨own, g2, pb, pq, mf, outs⟩, hpo, h⟩ := h
    simp only [Except.ok.injEq, Prod.mk.injEq] at h
    obtain ⟨rfl, rfl, rfl⟩ := h
    exact ⟨⟨p, d, hp1, hp2, hp3, hseq, maxQ, hmq, hb, hq, it, hit, s, hl, qt, g1, ht, _, rfl, opp1, opp2, ho1, ho2, some c, qty, hd,
      rfl, .inr ⟨c, own, outs, rfl, rfl, hpo, rfl, rfl⟩⟩⟩

end OB
