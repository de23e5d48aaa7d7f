import Verif.Proofs.Funds
/-! The placement instructions: inversion, and preservation of the invariant. -/
namespace OB

/-! ### the invariant of reachable states -/

structure Inv (s : State) : Prop where
  core : Core s.g s.book 0 0
  vaults : s.g.market.marketBaseVault ≠ s.g.market.marketQuoteVault
  vb : VaultOk s.tokens s.g.market.marketBaseVault s.g.market.marketAuthority s.g.market.baseMint s.g.market.baseDepositTotal
  vq : VaultOk s.tokens s.g.market.marketQuoteVault s.g.market.marketAuthority s.g.market.quoteMint s.g.market.quoteDepositTotal

/-- What argument types guarantee of an order. -/
structure OrderTyped (o : Order) : Prop where
  base1 : o.maxBaseLots ≤ i64Max
  quote1 : o.maxQuoteLotsIncludingFees ≤ i64Max
  price : ∀ p, o.params = .immediateOrCancel p ∨ o.params = .fillOrKill p ∨ (∃ t, o.params = .fixed p t) → p ≤ i64Max
  peg : ∀ off t l, o.params = .oraclePegged off t l → 1 ≤ l ∧ l ≤ i64Max

theorem OrderTyped.ok {o : Order} (h : OrderTyped o) (h1 : 0 ≤ o.maxBaseLots) (h2 : 0 ≤ o.maxQuoteLotsIncludingFees) : OrderOk o :=
  ⟨h1, h.base1, h2, h.quote1, h.price, h.peg⟩

theorem orderParams_le {t : PlaceOrderType} {p : Int} {q : OrderParams} (h : orderParams t p = .ok q) :
    (∀ x, q = .immediateOrCancel x ∨ q = .fillOrKill x ∨ (∃ t, q = .fixed x t) → x = p) ∧
    (∀ off t l, q ≠ .oraclePegged off t l) := by
  unfold orderParams at h
  split at h
  · cases h; exact ⟨(by rintro x (h | h | ⟨_, h⟩) <;> cases h), (fun _ _ _ h => nomatch h)⟩
  · cases h; exact ⟨(by rintro x (h | h | ⟨_, h⟩) <;> cases h; rfl), (fun _ _ _ h => nomatch h)⟩
  · cases h; exact ⟨(by rintro x (h | h | ⟨_, h⟩) <;> cases h; rfl), (fun _ _ _ h => nomatch h)⟩
  · simp only [bind_ok, pure_ok] at h
    obtain ⟨t, _, rfl⟩ := h
    exact ⟨(by rintro x (h | h | ⟨_, h⟩) <;> cases h; rfl), (fun _ _ _ h => nomatch h)⟩

theorem PlaceOrderArgs.order_typed {a : PlaceOrderArgs} {now : Nat} {o : Order} (h : a.order now = .ok (some o)) : OrderTyped o := by
  unfold PlaceOrderArgs.order at h
  simp only [bind_ok, req_ok] at h
  obtain ⟨_, ht, _, hp, h⟩ := h
  split at h
  · cases h
  · simp only [bind_ok, pure_ok] at h
    obtain ⟨p, hpar, h⟩ := h
    injection h with h
    obtain ⟨q1, q2⟩ := orderParams_le hpar
    subst h
    refine ⟨ht.2.1.2, ht.2.2.1.2, fun x hx => ?_, fun off t l hx => absurd hx (q2 off t l)⟩
    rw [q1 x hx]; exact ht.1.2

theorem PlaceOrderPeggedArgs.order_typed {a : PlaceOrderPeggedArgs} {m : Market} {now : Nat} {o : Order}
    (h : a.order m now = .ok (some o)) : OrderTyped o := by
  unfold PlaceOrderPeggedArgs.order at h
  simp only [bind_ok, req_ok] at h
  obtain ⟨_, ht, _, hp, _, hl, h⟩ := h
  split at h
  · cases h
  · simp only [bind_ok, pure_ok] at h
    obtain ⟨p, hpar, h⟩ := h
    injection h with h
    subst h
    refine ⟨ht.2.2.1.2, ht.2.2.2.1.2, fun x hx => ?_, fun off t l hx => ?_⟩
    · rcases hx with h | h | ⟨_, h⟩ <;> cases h
    · injection hx with _ _ e
      have := ht.2.1.2
      omega

/-- The environment of a placement for an open orders account. -/
def placeEnv (c : PlaceCtx) (order : Order) (nowTs limit : Nat) : Env :=
  { order, oracle := c.oracle, hasOO := true, owner := c.ooKey, nowTs, limit, rem := c.rem }

/-- A successful `place_order`. -/
structure PlaceRun (s : State) (c : PlaceCtx) (order : Order) (limit : Nat) (r : OrderResult) (s' : State) where
  acct : OOA
  hacct : s.g.accts.get? c.ooKey = some acct
  isOpen : s.closed = false
  signer : c.signer ≠ s.g.market.marketAuthority
  auth : acct.isOwnerOrDelegate c.signer = true
  admin : s.g.market.openOrdersAdmin = c.admin
  mint : (s.tokens c.userToken).mint = (s.tokens (s.g.market.vaultBySide order.side)).mint
  base0 : 0 ≤ order.maxBaseLots
  quote0 : 0 ≤ order.maxQuoteLotsIncludingFees
  live : s.g.market.isExpired c.now = false
  nowTs : Nat
  now : nowU64 c.now = .ok nowTs
  oracle : oracleOk s c.oracle = .ok ()
  book' : Book
  g1 : Ledger
  new : newOrder (placeEnv c order nowTs limit) s.book s.g = .ok (r, book', g1)
  cost : Int
  hcost : orderCost order.side r = .ok cost
  g2 : Ledger
  dep : Int
  lock : (match order.side with
    | .bid => lockBid g1 c.ooKey cost
    | .ask => lockAsk g1 c.ooKey cost : R (Ledger × Int)) = .ok (g2, dep)
  g3 : Ledger
  pen : addPenalty g2 c.ooKey s.g.heap.len = .ok g3
  tokens : Tokens
  transfer : tokenTransfer s.tokens dep c.userToken (s.g.market.vaultBySide order.side) c.signer = .ok tokens
  res : s' = { s with g := g3, book := book', tokens := tokens }

theorem authPlace_ok {s : State} {signer ooKey admin : Pubkey} (h : authPlace s signer ooKey admin = .ok ()) :
    ∃ a, s.g.accts.get? ooKey = some a ∧ s.closed = false ∧ signer ≠ s.g.market.marketAuthority ∧ a.isOwnerOrDelegate signer = true ∧
      s.g.market.openOrdersAdmin = admin := by
  unfold authPlace State.open? signerOk at h
  simp only [bind_ok, req_ok, Accts.get_ok] at h
  obtain ⟨_, h1, _, h2, a, ha, _, h3, h4⟩ := h
  exact ⟨a, ha, h1, h2, h3, h4⟩

theorem placeOrder_inv {s s' : State} {c : PlaceCtx} {order : Order} {limit : Nat} {r : OrderResult}
    (h : placeOrder s c order limit = .ok (r, s')) : Nonempty (PlaceRun s c order limit r s') := by
  unfold placeOrder at h
  simp only [bind_ok, req_ok, mintIs] at h
  obtain ⟨_, h1, _, h2, _, h3, _, h4, _, h5, nowTs, h6, _, h7, ⟨r1, book, g1⟩, h8, cost, h9, ⟨g2, dep⟩, h10, g3, h11, t, h12, h⟩ := h
  obtain ⟨a, a1, a2, a3, a4, a5⟩ := authPlace_ok h1
  simp only [pure_ok] at h
  injection h with e1 e2
  subst e1
  exact ⟨⟨a, a1, a2, a3, a4, a5, h2.1, h3, h4, h5, nowTs, h6, h7, book, g1, h8, cost, h9, g2, dep, h10, g3, h11, t, h12, e2.symm⟩⟩

/-- What a placement does to ledger, book and vaults. -/
structure PlaceFx (s : State) (c : PlaceCtx) (order : Order) (limit : Nat) (r : OrderResult) (s' : State)
    (P : PlaceRun s c order limit r s') : Prop where
  env : ∃ R ot, PlaceRes (placeEnv c order P.nowTs limit) s.book s.g r P.book' P.g1 R ot 0 0
  core1 : Core P.g1 P.book' (r.costB 0 order.side true) (r.costQ 0 order.side true)
  frame1 : LFrame s.g P.g1
  cost0 : 0 ≤ P.cost
  dep0 : 0 ≤ P.dep
  core2 : Core P.g2 P.book' 0 0
  m2 : P.g2.market = { P.g1.market with
    baseDepositTotal := P.g1.market.baseDepositTotal + (if order.side = .ask then P.dep else 0)
    quoteDepositTotal := P.g1.market.quoteDepositTotal + (if order.side = .bid then P.dep else 0) }
  m3 : P.g3.market = P.g2.market
  inv : Inv s'

theorem Market.noDep (m : Market) : { m with baseDepositTotal := m.baseDepositTotal + 0, quoteDepositTotal := m.quoteDepositTotal + 0 } = m := by
  simp

theorem PlaceRun.fx {s s' : State} {c : PlaceCtx} {order : Order} {limit : Nat} {r : OrderResult}
    (P : PlaceRun s c order limit r s') (hi : Inv s) (ho : OrderTyped order) : PlaceFx s c order limit r s' P := by
  obtain ⟨h1, h2, R, ot, h3⟩ := hi.core.newOrder (env := placeEnv c order P.nowTs limit) (ho.ok P.base0 P.quote0)
    (fun h => nomatch h) P.new
  obtain ⟨c0, c1, c2⟩ := orderCost_inv P.hcost
  have hsc := h2.sameCfg
  have hvb := hi.vb
  have hvq := hi.vq
  have hlock := P.lock
  have htr := P.transfer
  have main : 0 ≤ P.dep ∧ Core P.g2 P.book' 0 0 ∧ P.g2.market = { P.g1.market with
      baseDepositTotal := P.g1.market.baseDepositTotal + (if order.side = .ask then P.dep else 0)
      quoteDepositTotal := P.g1.market.quoteDepositTotal + (if order.side = .bid then P.dep else 0) } ∧
      inU64 (P.g1.market.baseDepositTotal + (if order.side = .ask then P.dep else 0)) ∧
      inU64 (P.g1.market.quoteDepositTotal + (if order.side = .bid then P.dep else 0)) := by
    have t1 := hvb.total; rw [← h2.base] at t1
    have t2 := hvq.total; rw [← h2.quote] at t2
    cases hs : order.side with
    | bid =>
      rw [hs] at hlock c2
      simp only [OrderResult.cost] at hlock c2
      obtain ⟨a, hl⟩ := lockBid_inv hlock
      have hc := h1.lockBid hl c0
      have e1 : r.costB 0 (placeEnv c order P.nowTs limit).order.side (placeEnv c order P.nowTs limit).hasOO = 0 := by
        show r.costB 0 order.side true = 0
        simp [OrderResult.costB, takeB, hs]
      have e2 : r.costQ 0 (placeEnv c order P.nowTs limit).order.side (placeEnv c order P.nowTs limit).hasOO - P.cost = 0 := by
        show r.costQ 0 order.side true - P.cost = 0
        simp only [OrderResult.costQ, takeQ, hs, if_true, c2]; omega
      rw [e1, e2] at hc
      refine ⟨hl.dep0, hc, ?_, ?_, ?_⟩
      · rw [hl.res]; simp
      · simpa using t1
      · simpa using hl.total
    | ask =>
      rw [hs] at hlock c2
      simp only [OrderResult.cost] at hlock c2
      obtain ⟨a, hl⟩ := lockAsk_inv hlock
      have hc := h1.lockAsk hl c0
      have hmf := orderMakerFees_ask h3 hs
      have e1 : r.costB 0 (placeEnv c order P.nowTs limit).order.side (placeEnv c order P.nowTs limit).hasOO - P.cost = 0 := by
        show r.costB 0 order.side true - P.cost = 0
        simp only [OrderResult.costB, takeB, hs, if_true, c2]; omega
      have e2 : r.costQ 0 (placeEnv c order P.nowTs limit).order.side (placeEnv c order P.nowTs limit).hasOO = 0 := by
        show r.costQ 0 order.side true = 0
        simp [OrderResult.costQ, takeQ, hs, hmf]
      rw [e1, e2] at hc
      refine ⟨hl.dep0, hc, ?_, ?_, ?_⟩
      · rw [hl.res]; simp
      · simpa using hl.total
      · simpa using t2
  obtain ⟨d0, hc2, hm2, tb, tq⟩ := main
  obtain ⟨hc3, hm3⟩ := hc2.addPenalty P.pen
  refine ⟨⟨R, ot, h3⟩, h1, h2, c0, d0, hc2, hm2, hm3, ?_⟩
  have hsg : s'.g = P.g3 := congrArg State.g P.res
  have hmk : s'.g.market = { P.g1.market with
      baseDepositTotal := P.g1.market.baseDepositTotal + (if order.side = .ask then P.dep else 0)
      quoteDepositTotal := P.g1.market.quoteDepositTotal + (if order.side = .bid then P.dep else 0) } := by
    rw [hsg]; exact hm3.trans hm2
  have ht' : s'.tokens = P.tokens := congrArg State.tokens P.res
  have hbk : s'.book = P.book' := congrArg State.book P.res
  refine ⟨?_, ?_, ?_, ?_⟩
  · rw [hsg, hbk]; exact hc3
  · rw [hmk]; simp only; rw [hsc.baseVault, hsc.quoteVault]; exact hi.vaults
  · rw [hmk, ht']; simp only
    rw [hsc.baseVault, hsc.authority, hsc.baseMint]
    rw [h2.base] at tb ⊢
    cases hs : order.side with
    | bid =>
      rw [hs] at htr
      simp only [reduceCtorEq, if_false, Int.add_zero]
      exact hvb.depOther htr d0 P.signer
    | ask =>
      rw [hs] at htr tb
      simp only [if_true] at tb ⊢
      exact hvb.dep htr d0 tb P.signer
  · rw [hmk, ht']; simp only
    rw [hsc.quoteVault, hsc.authority, hsc.quoteMint]
    rw [h2.quote] at tq ⊢
    cases hs : order.side with
    | ask =>
      rw [hs] at htr
      simp only [reduceCtorEq, if_false, Int.add_zero]
      exact hvq.depOther htr d0 P.signer
    | bid =>
      rw [hs] at htr tq
      simp only [if_true] at tq ⊢
      exact hvq.dep htr d0 tq P.signer

end OB
