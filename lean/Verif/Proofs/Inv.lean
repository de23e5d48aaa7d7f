import Verif.Proofs.PlaceIx
import Verif.Proofs.OOLife
/-! Every reachable state satisfies the invariant. -/
namespace OB

/-- The vault facts depend only on the configuration and the totals. -/
theorem Inv.mk' {s s' : State} (hi : Inv s) (hc : Core s'.g s'.book 0 0) (hm : SameCfg s.g.market s'.g.market)
    (hb : VaultOk s'.tokens s.g.market.marketBaseVault s.g.market.marketAuthority s.g.market.baseMint s'.g.market.baseDepositTotal)
    (hq : VaultOk s'.tokens s.g.market.marketQuoteVault s.g.market.marketAuthority s.g.market.quoteMint s'.g.market.quoteDepositTotal) :
    Inv s' := by
  refine ⟨hc, ?_, ?_, ?_⟩
  · rw [hm.baseVault, hm.quoteVault]; exact hi.vaults
  · rw [hm.baseVault, hm.authority, hm.baseMint]; exact hb
  · rw [hm.quoteVault, hm.authority, hm.quoteMint]; exact hq

theorem Core.frame {g g' : Ledger} {book : Book} {book' : Book} {dB dQ dB' dQ' : Int} (h : Core g book dB dQ) (hf : LFrame g g')
    (hb : BookOk book') (hl : LInv g' book'.resting dB' dQ' (fun _ => 0) g'.market.seqNum) : Core g' book' dB' dQ' :=
  ⟨hb, hl, by rw [hf.bls]; exact h.bls, by rw [hf.qls]; exact h.qls, hf.fees h.fees, by rw [hf.avail]; exact h.avail⟩

theorem Core.market {g : Ledger} {book : Book} {dB dQ dB' dQ' : Int} (h : Core g book dB dQ) {m' : Market} (hm : SameCfg g.market m')
    (hav : inU64 m'.feesAvailable) (hsq : m'.seqNum = g.market.seqNum)
    (hb : m'.baseDepositTotal + dB' = g.market.baseDepositTotal + dB)
    (hq : m'.quoteDepositTotal + dQ' - m'.feesAvailable = g.market.quoteDepositTotal + dQ - g.market.feesAvailable)
    (hr : m'.referrerRebatesAccrued = g.market.referrerRebatesAccrued) : Core { g with market := m' } book dB' dQ' := by
  refine ⟨h.bookOk, ?_, by show 0 < m'.baseLotSize; rw [hm.bls]; exact h.bls, by show 0 < m'.quoteLotSize; rw [hm.qls]; exact h.qls,
    hm.feesOk h.fees, hav⟩
  show LInv _ _ _ _ _ m'.seqNum
  rw [hsq]
  exact h.linv.market hm.sameM hb hq hr

/-- Instructions that move no funds in or out of the market. -/
theorem Inv.frame {s : State} (hi : Inv s) {g' : Ledger} {book' : Book} (hf : LFrame s.g g') (hc : Core g' book' 0 0)
    (lam : Lamports) : Inv { s with g := g', book := book', lamports := lam } := by
  refine hi.mk' hc hf.sameCfg ?_ ?_
  · show VaultOk s.tokens _ _ _ g'.market.baseDepositTotal; rw [hf.base]; exact hi.vb
  · show VaultOk s.tokens _ _ _ g'.market.quoteDepositTotal; rw [hf.quote]; exact hi.vq

/-! ### cancelling -/

theorem cancelAllFor_res {s s' : State} {k : Pubkey} {limit : Nat} {so : Option Side} {co : Option Nat} {q : Int} (hi : Inv s)
    (h : cancelAllFor s k limit so co = .ok (q, s')) :
    ∃ a a' book' ls, s.g.accts.get? k = some a ∧ s' = { s with book := book', g := s.g.put k a' } ∧
      cancelAllOrders s.book a s.g.market limit so co = .ok (q, book', a') ∧
      Cancelled so co s.g k s.book a book' a' ls ∧ q = (ls.map (fun x => x.2.2.quantity)).sum ∧ Inv s' := by
  unfold cancelAllFor at h
  simp only [bind_ok, pure_ok, Accts.get_ok] at h
  obtain ⟨a, ha, ⟨q', book', a'⟩, hc, h⟩ := h
  injection h with e1 e2
  have e1 : q' = q := e1
  subst e1
  have hput : s.g.put k a = s.g := by
    unfold Ledger.put; rw [Accts.set_get ha]
  obtain ⟨ls, r1, r2, r3⟩ := cancelAllLoop_res (g := s.g) rfl hi.core.bookOk hi.core.bls hi.core.qls ha (dB := 0) (dQ := 0)
    (ex := fun _ => 0) (n := s.g.market.seqNum) (by rw [hput]; exact hi.core.linv) hc
  have hf := r1.frame
  rw [hput] at hf
  refine ⟨a, a', book', ls, ha, e2.symm, hc, r1, by rw [r3]; omega, ?_⟩
  rw [← e2]
  exact hi.frame hf (hi.core.frame hf r1.bookOk r2) s.lamports

theorem authCancel_ok {s : State} {signer k : Pubkey} {a : OOA} (h : authCancel s signer k = .ok a) :
    s.g.accts.get? k = some a ∧ s.closed = false ∧ signer ≠ s.g.market.marketAuthority ∧ a.isOwnerOrDelegate signer = true := by
  unfold authCancel State.open? signerOk at h
  simp only [bind_ok, pure_ok, req_ok, Accts.get_ok] at h
  obtain ⟨_, h1, _, h2, a', ha, _, h3, rfl⟩ := h
  exact ⟨ha, h1, h2, h3⟩

theorem cancelByClientId_inv {s s' : State} {signer k : Pubkey} {client : Nat} {q : Int}
    (h : cancelByClientId s signer k client = .ok (q, s')) :
    (∃ a, authCancel s signer k = .ok a) ∧ cancelAllFor s k 255 none (some client) = .ok (q, s') := by
  unfold cancelByClientId at h
  simp only [bind_ok] at h
  obtain ⟨a, ha, h⟩ := h
  exact ⟨⟨a, ha⟩, h⟩

theorem cancelAll_inv {s s' : State} {signer k : Pubkey} {side : Option Side} {limit : Nat}
    (h : cancelAll s signer k side limit = .ok s') :
    (∃ a, authCancel s signer k = .ok a) ∧ ∃ q, cancelAllFor s k limit side none = .ok (q, s') := by
  unfold cancelAll at h
  simp only [bind_ok, pure_ok] at h
  obtain ⟨a, ha, ⟨q, s1⟩, h, rfl⟩ := h
  exact ⟨⟨a, ha⟩, q, h⟩

/-- A successful `cancel_order`. -/
theorem cancelOrderIx_res {s s' : State} {signer k : Pubkey} {id : Nat} (hi : Inv s) (h : cancelOrderIx s signer k id = .ok s') :
    ∃ a oo leaf a' book', authCancel s signer k = .ok a ∧ a.findOrder id = some oo ∧
      cancelOrderOnBook s.book a s.g.market oo.id oo.side oo.comp (some k) = .ok (leaf, book', a') ∧
      s' = { s with book := book', g := s.g.put k a' } ∧ Inv s' ∧ LFrame s.g (s.g.put k a') := by
  unfold cancelOrderIx at h
  simp only [bind_ok, pure_ok, req_ok, okOr_ok] at h
  obtain ⟨a, ha, _, _, oo, hoo, ⟨leaf, book', a'⟩, hc, h⟩ := h
  obtain ⟨ha1, _⟩ := authCancel_ok ha
  obtain ⟨c1, c2, c3, c4, c5⟩ := cancelOnBook_inv hi.core.bookOk hc
  have hl := hi.core.linv.perm c3
  have hown := c5 k rfl
  have hcr := hl.cancelRest hi.core.bls hi.core.qls (by rw [hown]; exact ha1) c4
  rw [hown] at hcr
  refine ⟨a, oo, leaf, a', book', ha, hoo, hc, h.symm, ?_, hcr.2⟩
  rw [← h]
  exact hi.frame hcr.2 (hi.core.frame hcr.2 c2 hcr.1) s.lamports

/-! ### batches of orders -/

theorem multiOrders_typed {t : PlaceOrderType} {now : Nat} {side : Side} {i : Nat} {as : List MultiArgs} {os : List Order}
    (h : multiOrders t now side i as = .ok os) : ∀ o ∈ os, OrderTyped o ∧ o.side = side := by
  induction as generalizing i os with
  | nil => cases h; exact fun _ hx => nomatch hx
  | cons a as ih =>
    simp only [multiOrders, bind_ok, req_ok] at h
    obtain ⟨_, ht, _, _, h⟩ := h
    split at h
    · exact ih h
    · simp only [bind_ok, pure_ok] at h
      obtain ⟨p, hp, os', hos, rfl⟩ := h
      intro o ho
      rcases List.mem_cons.mp ho with rfl | ho
      · obtain ⟨q1, q2⟩ := orderParams_le hp
        refine ⟨⟨(show (0 : Int) ≤ i64Max by decide), ht.2.1.2, fun x hx => ?_, fun off t l hx => absurd hx (q2 off t l)⟩, rfl⟩
        rw [q1 x hx]; exact ht.1.2
      · exact ih hos o ho

theorem maxBaseLots_range {m : Market} (h : 0 < m.baseLotSize) : 0 ≤ m.maxBaseLots ∧ m.maxBaseLots ≤ i64Max := by
  unfold Market.maxBaseLots
  constructor
  · exact Int.ediv_nonneg (by decide) (by omega)
  · exact Int.ediv_le_self _ (by decide)

theorem maxQuoteLots_range {m : Market} (h : 0 < m.quoteLotSize) : 0 ≤ m.maxQuoteLots ∧ m.maxQuoteLots ≤ i64Max := by
  unfold Market.maxQuoteLots
  constructor
  · exact Int.ediv_nonneg (by decide) (by omega)
  · exact Int.ediv_le_self _ (by decide)

theorem boundOrder_ok {g : Ledger} {k : Pubkey} {ub uq b q : Int} {o o' : Order} (hb : 0 < g.market.baseLotSize)
    (hq : 0 < g.market.quoteLotSize) (ho : OrderTyped o) (h : boundOrder g k ub uq b q o = .ok o') :
    OrderOk o' ∧ o'.side = o.side ∧ o'.params = o.params ∧ o'.maxQuoteLotsIncludingFees ≤ o.maxQuoteLotsIncludingFees ∧
      o'.selfTradeBehavior = o.selfTradeBehavior ∧ o'.clientOrderId = o.clientOrderId ∧ o'.timeInForce = o.timeInForce := by
  have hmb := maxBaseLots_range hb
  have hmq := maxQuoteLots_range hq
  unfold boundOrder at h
  simp only [bind_ok, req_ok, Accts.get_ok] at h
  obtain ⟨a, ha, _, h0, h⟩ := h
  split at h
  · simp only [bind_ok, pure_ok, ckU64_ok] at h
    obtain ⟨_, ⟨h1, rfl⟩, _, ⟨h2, rfl⟩, rfl⟩ := h
    have := Int.ediv_nonneg h2.1 (Int.le_of_lt hb)
    refine ⟨⟨?_, ?_, h0, ho.quote1, ho.price, ho.peg⟩, rfl, rfl, Int.le_refl _, rfl, rfl, rfl⟩
    · simp only [Market.maxBaseLotsFromLamports]; omega
    · simp only [Market.maxBaseLotsFromLamports]; omega
  · simp only [bind_ok, pure_ok, ckU64_ok] at h
    obtain ⟨_, ⟨h1, rfl⟩, _, ⟨h2, rfl⟩, rfl⟩ := h
    have := Int.ediv_nonneg h2.1 (Int.le_of_lt hq)
    have := ho.quote1
    refine ⟨⟨hmb.1, hmb.2, ?_, ?_, ho.price, ho.peg⟩, rfl, rfl, ?_, rfl, rfl, rfl⟩
    · simp only [Market.maxQuoteLotsFromLamports]; omega
    · simp only [Market.maxQuoteLotsFromLamports]; omega
    · simp only; omega

theorem addAmt_ok {x y z : Int} (h : addAmt x y = .ok z) : x + y ≤ u64Max ∧ z = x + y := by
  unfold addAmt at h
  simp only [bind_ok, pure_ok, req_ok] at h
  obtain ⟨_, h1, rfl⟩ := h
  exact ⟨h1, rfl⟩

theorem multiLoop_res {c : MultiCtx} {nowTs limit : Nat} {ub uq : Int} {os : List Order} {book book' : Book} {g g' : Ledger}
    {b q b' q' : Int} {rs : List OrderResult} (hc : Core g book b q) (ho : ∀ o ∈ os, OrderTyped o) (hb : 0 ≤ b) (hq : 0 ≤ q)
    (h : multiLoop c nowTs limit ub uq os book g b q = .ok (rs, book', g', b', q')) :
    Core g' book' b' q' ∧ LFrame g g' ∧ 0 ≤ b' ∧ 0 ≤ q' := by
  induction os generalizing book g b q rs with
  | nil => cases h; exact ⟨hc, LFrame.refl _, hb, hq⟩
  | cons o os ih =>
    simp only [multiLoop, bind_ok] at h
    obtain ⟨o', hbo, ⟨r, book1, g1⟩, hn, cost, hcost, ⟨b1, q1⟩, hadd, ⟨rs', x⟩, hrec, h⟩ := h
    simp only [pure_ok] at h
    injection h with e1 e2
    obtain ⟨k1, k2, _⟩ := boundOrder_ok hc.bls hc.qls (ho o (by simp)) hbo
    obtain ⟨hc1, hf1, R, ot, hP⟩ := hc.newOrder (env := { order := o', oracle := c.oracle, hasOO := true, owner := c.ooKey, nowTs, limit, rem := c.rem }) k1
      (fun h => nomatch h) hn
    obtain ⟨c0, c1, c2⟩ := orderCost_inv hcost
    have main : Core g1 book1 b1 q1 ∧ 0 ≤ b1 ∧ 0 ≤ q1 := by
      simp only at hc1 hadd
      cases hs : o.side with
      | bid =>
        rw [hs] at hadd k2 c2
        simp only [bind_ok, pure_ok] at hadd
        obtain ⟨z, hz, hadd⟩ := hadd
        injection hadd with a1 a2
        obtain ⟨_, hz⟩ := addAmt_ok hz
        subst a1 a2
        have e1 : r.costB b o'.side true = b := by simp [OrderResult.costB, takeB, k2]
        have e2 : r.costQ q o'.side true = z := by
          simp only [OrderResult.costQ, takeQ, k2, if_true, hz, c2, OrderResult.cost]; omega
        rw [e1, e2] at hc1
        exact ⟨hc1, hb, by omega⟩
      | ask =>
        rw [hs] at hadd k2 c2
        simp only [bind_ok, pure_ok] at hadd
        obtain ⟨z, hz, hadd⟩ := hadd
        injection hadd with a1 a2
        obtain ⟨_, hz⟩ := addAmt_ok hz
        subst a1 a2
        have hmf := orderMakerFees_ask hP k2
        have e1 : r.costB b o'.side true = z := by
          simp only [OrderResult.costB, takeB, k2, if_true, hz, c2, OrderResult.cost]; omega
        have e2 : r.costQ q o'.side true = q := by simp [OrderResult.costQ, takeQ, k2, hmf]
        rw [e1, e2] at hc1
        exact ⟨hc1, by omega, hq⟩
    subst e2
    obtain ⟨i1, i2, i3, i4⟩ := ih main.1 (fun o ho' => ho o (by simp [ho'])) main.2.1 main.2.2 hrec
    exact ⟨i1, hf1.trans i2, i3, i4⟩

/-- The parts of a successful `cancel_all_and_place_orders` / `place_orders`. -/
structure MultiRun (s : State) (c : MultiCtx) (cancel : Bool) (orders : List Order) (limit : Nat) (rs : List OrderResult) (s' : State)
    where
  auth : authPlace s c.signer c.ooKey c.admin = .ok ()
  mintQ : mintIs s.tokens c.userQuote s.g.market.marketQuoteVault = .ok ()
  mintB : mintIs s.tokens c.userBase s.g.market.marketBaseVault = .ok ()
  live : s.g.market.isExpired c.now = false
  nowTs : Nat
  now : nowU64 c.now = .ok nowTs
  oracle : oracleOk s c.oracle = .ok ()
  s1 : State
  cancelled : (cancel = false ∧ s1 = s) ∨ (cancel = true ∧ ∃ q, cancelAllFor s c.ooKey 255 none none = .ok (q, s1))
  book' : Book
  g1 : Ledger
  b : Int
  q : Int
  loop : multiLoop c nowTs limit (s.tokens c.userBase).amount (s.tokens c.userQuote).amount orders s1.book s1.g 0 0 =
    .ok (rs, book', g1, b, q)
  g2 : Ledger
  depB : Int
  lockB : lockAsk g1 c.ooKey b = .ok (g2, depB)
  g3 : Ledger
  depQ : Int
  lockQ : lockBid g2 c.ooKey q = .ok (g3, depQ)
  g4 : Ledger
  pen : addPenalty g3 c.ooKey s.g.heap.len = .ok g4
  t1 : Tokens
  tr1 : tokenTransfer s.tokens depQ c.userQuote s.g.market.marketQuoteVault c.signer = .ok t1
  t2 : Tokens
  tr2 : tokenTransfer t1 depB c.userBase s.g.market.marketBaseVault c.signer = .ok t2
  res : s' = { s with g := g4, book := book', tokens := t2 }

theorem cancelAllAndPlace_inv {s s' : State} {c : MultiCtx} {cancel : Bool} {orders : List Order} {limit : Nat} {rs : List OrderResult}
    (h : cancelAllAndPlace s c cancel orders limit = .ok (rs, s')) : Nonempty (MultiRun s c cancel orders limit rs s') := by
  unfold cancelAllAndPlace at h
  simp only [bind_ok, req_ok] at h
  obtain ⟨_, h1, _, h2, _, h3, _, h4, nowTs, h5, _, h6, s1, h7, ⟨rs1, book, g1, b, q⟩, h8, ⟨g2, depB⟩, h9, ⟨g3, depQ⟩, h10, g4, h11,
    t1, h12, t2, h13, h⟩ := h
  simp only [pure_ok] at h
  injection h with e1 e2
  subst e1
  refine ⟨⟨h1, h2, h3, h4, nowTs, h5, h6, s1, ?_, book, g1, b, q, h8, g2, depB, h9, g3, depQ, h10, g4, h11, t1, h12, t2, h13, e2.symm⟩⟩
  cases cancel with
  | false =>
    left
    simp only [Bool.false_eq_true, if_false] at h7
    exact ⟨rfl, by cases h7; rfl⟩
  | true =>
    right
    simp only [if_true, bind_ok, pure_ok] at h7
    obtain ⟨⟨q, s2⟩, h7, rfl⟩ := h7
    exact ⟨rfl, q, h7⟩

theorem MultiRun.start {s s' : State} {c : MultiCtx} {cancel : Bool} {orders : List Order} {limit : Nat} {rs : List OrderResult}
    (P : MultiRun s c cancel orders limit rs s') (hi : Inv s) : Inv P.s1 ∧ LFrame s.g P.s1.g := by
  rcases P.cancelled with ⟨_, h⟩ | ⟨_, q, h⟩
  · rw [h]; exact ⟨hi, LFrame.refl _⟩
  · obtain ⟨a, a', book', ls, h1, h2, h3, h4, h5, h6⟩ := cancelAllFor_res hi h
    refine ⟨h6, ?_⟩
    rw [h2]
    have hf := h4.frame
    have hput : s.g.put c.ooKey a = s.g := by
      unfold Ledger.put; rw [Accts.set_get h1]
    rw [hput] at hf
    exact hf

theorem MultiRun.inv {s s' : State} {c : MultiCtx} {cancel : Bool} {orders : List Order} {limit : Nat} {rs : List OrderResult}
    (P : MultiRun s c cancel orders limit rs s') (hi : Inv s) (ho : ∀ o ∈ orders, OrderTyped o) : Inv s' := by
  obtain ⟨hi1, hf1⟩ := P.start hi
  obtain ⟨c1, hf2, b0, q0⟩ := multiLoop_res hi1.core ho (Int.le_refl 0) (Int.le_refl 0) P.loop
  have hf := hf1.trans hf2
  obtain ⟨a1, hl1⟩ := lockAsk_inv P.lockB
  have c2 := c1.lockAsk hl1 b0
  obtain ⟨a2, hl2⟩ := lockBid_inv P.lockQ
  have c3 := c2.lockBid hl2 q0
  obtain ⟨c4, hm4⟩ := c3.addPenalty P.pen
  have e1 : P.b - P.b = 0 := by omega
  have e2 : P.q - P.q = 0 := by omega
  rw [e1, e2] at c4
  obtain ⟨acct, _, _, hsig, _⟩ := authPlace_ok P.auth
  have hm3 : P.g3.market = { P.g2.market with quoteDepositTotal := P.g2.market.quoteDepositTotal + P.depQ } := congrArg Ledger.market hl2.res
  have hm2 : P.g2.market = { P.g1.market with baseDepositTotal := P.g1.market.baseDepositTotal + P.depB } := congrArg Ledger.market hl1.res
  have hm : s'.g.market = { P.g1.market with baseDepositTotal := P.g1.market.baseDepositTotal + P.depB
                                             quoteDepositTotal := P.g1.market.quoteDepositTotal + P.depQ } := by
    rw [congrArg State.g P.res]; show P.g4.market = _; rw [hm4, hm3, hm2]
  have hsc := hf.sameCfg
  have tb := hl1.total; rw [hf.base] at tb
  have tq := hl2.total; rw [hm2] at tq; simp only at tq; rw [hf.quote] at tq
  refine hi.mk' ?_ ?_ ?_ ?_
  · rw [congrArg State.g P.res, congrArg State.book P.res]; exact c4
  · rw [hm]; exact ⟨hsc.1, hsc.2, hsc.3, hsc.4, hsc.5, hsc.6, hsc.7, hsc.8, hsc.9, hsc.10, hsc.11, hsc.12, hsc.13, hsc.14, hsc.15⟩
  · rw [hm, congrArg State.tokens P.res]; simp only; rw [hf.base]
    exact (hi.vb.depOther P.tr1 hl2.dep0 hsig).dep P.tr2 hl1.dep0 tb hsig
  · rw [hm, congrArg State.tokens P.res]; simp only; rw [hf.quote]
    exact (hi.vq.dep P.tr1 hl2.dep0 tq hsig).depOther P.tr2 hl1.dep0 hsig

/-! ### taking without an account -/

structure TakeRun (s : State) (c : TakeCtx) (order : Order) (limit : Nat) (r : OrderResult) (s' : State) where
  isOpen : s.closed = false
  signer : c.signer ≠ s.g.market.marketAuthority
  payer : c.penaltyPayer ≠ s.g.market.marketAuthority
  noOO : s.g.accts.get? c.signer = none
  admin : s.g.market.openOrdersAdmin = c.admin
  mintB : mintIs s.tokens c.userBase s.g.market.marketBaseVault = .ok ()
  mintQ : mintIs s.tokens c.userQuote s.g.market.marketQuoteVault = .ok ()
  base0 : 0 ≤ order.maxBaseLots
  quote0 : 0 ≤ order.maxQuoteLotsIncludingFees
  live : s.g.market.isExpired c.now = false
  nowTs : Nat
  now : nowU64 c.now = .ok nowTs
  oracle : oracleOk s c.oracle = .ok ()
  book' : Book
  g1 : Ledger
  new : newOrder { order, oracle := c.oracle, hasOO := false, owner := c.signer, nowTs, limit, rem := c.rem } s.book s.g =
    .ok (r, book', g1)
  g2 : Ledger
  dep : Int
  wd : Int
  amounts : takeAmounts g1 order.side r = .ok (g2, dep, wd)
  lamports : Lamports
  penalty : (if g2.heap.len > s.g.heap.len
    then systemTransfer s.lamports penaltyEventHeap c.penaltyPayer s.marketKey else .ok s.lamports : R Lamports) = .ok lamports
  t1 : Tokens
  tr1 : tokenTransfer s.tokens dep (match order.side with | .bid => c.userQuote | .ask => c.userBase)
    (match order.side with | .bid => s.g.market.marketQuoteVault | .ask => s.g.market.marketBaseVault) c.signer = .ok t1
  t2 : Tokens
  tr2 : tokenTransfer t1 wd (match order.side with | .bid => s.g.market.marketBaseVault | .ask => s.g.market.marketQuoteVault)
    (match order.side with | .bid => c.userBase | .ask => c.userQuote) s.g.market.marketAuthority = .ok t2
  res : s' = { s with g := g2, book := book', tokens := t2, lamports := lamports }

theorem placeTakeOrder_inv {s s' : State} {c : TakeCtx} {order : Order} {limit : Nat} {r : OrderResult}
    (h : placeTakeOrder s c order limit = .ok (r, s')) : Nonempty (TakeRun s c order limit r s') := by
  unfold placeTakeOrder State.open? signerOk at h
  simp only [bind_ok, req_ok] at h
  obtain ⟨_, h1, _, h2, _, h3, _, h4, _, h5, _, h6, _, h7, _, h8, _, h9, _, h10, nowTs, h11, _, h12, ⟨r1, book, g1⟩, h13,
    ⟨g2, dep, wd⟩, h14, lam, h15, h⟩ := h
  cases hs : order.side with
  | bid =>
    rw [hs] at h h14
    simp only [bind_ok] at h
    obtain ⟨t1, h16, t2, h17, h⟩ := h
    simp only [pure_ok] at h
    injection h with e1 e2
    subst e1
    exact ⟨⟨h1, h2, h3, h4, h5, h6, h7, h8, h9, h10, nowTs, h11, h12, book, g1, h13, g2, dep, wd, by rw [hs]; exact h14, lam, h15,
      t1, by rw [hs]; exact h16, t2, by rw [hs]; exact h17, e2.symm⟩⟩
  | ask =>
    rw [hs] at h h14
    simp only [bind_ok] at h
    obtain ⟨t1, h16, t2, h17, h⟩ := h
    simp only [pure_ok] at h
    injection h with e1 e2
    subst e1
    exact ⟨⟨h1, h2, h3, h4, h5, h6, h7, h8, h9, h10, nowTs, h11, h12, book, g1, h13, g2, dep, wd, by rw [hs]; exact h14, lam, h15,
      t1, by rw [hs]; exact h16, t2, by rw [hs]; exact h17, e2.symm⟩⟩

/-- Without an account nothing is posted. -/
theorem PlaceRes.notPosted {env : Env} {book book' : Book} {g g' : Ledger} {r : OrderResult} {R : NewOrderRun env book g r book' g'}
    {ot : Comp → Option T} {B0 Q0 : Int} (h : PlaceRes env book g r book' g' R ot B0 Q0) (hs : env.hasOO = false) :
    R.target = none ∧ r.postedBaseNative = 0 ∧ r.postedQuoteNative = 0 ∧ r.makerFees = 0 ∧ g' = R.g1 ∧
      book' = book.setSide env.order.side.invert R.opp2 := by
  rcases R.post with ⟨h0, _, h1, h2, h3, _, h4, h5⟩ | ⟨c', own, outs, hc', _⟩
  · exact ⟨h0, h1, h2, h3, h5, h4⟩
  · obtain ⟨own, outs, _, _, _, _, hP⟩ := h.posted c' hc'
    have := hP.hasOO
    rw [hs] at this; cases this

/-- A value by side. -/
def Side.pick {α : Type} (s : Side) (b a : α) : α := match s with | .bid => b | .ask => a
@[simp] theorem pick_bid {α : Type} (b a : α) : Side.pick .bid b a = b := rfl
@[simp] theorem pick_ask {α : Type} (b a : α) : Side.pick .ask b a = a := rfl

/-- The amounts moved by a take. -/
structure TakeAmts (g : Ledger) (side : Side) (r : OrderResult) (g' : Ledger) (dep wd : Int) : Prop where
  dep0 : 0 ≤ dep
  depEq : dep = side.pick (r.totalQuoteTakenNative + (r.takerFees - r.referrerAmount)) r.totalBaseTakenNative
  wdEq : wd = side.pick r.totalBaseTakenNative (r.totalQuoteTakenNative - (r.takerFees - r.referrerAmount))
  base : inU64 (g.market.baseDepositTotal + side.pick (-wd) dep)
  quote : inU64 (g.market.quoteDepositTotal + side.pick dep (-wd))
  res : g' = { g with market := { g.market with
    baseDepositTotal := g.market.baseDepositTotal + side.pick (-wd) dep
    quoteDepositTotal := g.market.quoteDepositTotal + side.pick dep (-wd) } }

theorem takeAmounts_inv {g g' : Ledger} {side : Side} {r : OrderResult} {dep wd : Int} (h : takeAmounts g side r = .ok (g', dep, wd))
    (h0 : 0 ≤ r.totalBaseTakenNative) : TakeAmts g side r g' dep wd := by
  unfold takeAmounts at h
  cases side with
  | bid =>
    simp only [bind_ok, pure_ok, ckU64_ok] at h
    obtain ⟨_, ⟨h1, rfl⟩, _, ⟨h2, rfl⟩, _, ⟨h3, rfl⟩, _, ⟨h4, rfl⟩, h⟩ := h
    injection h with e1 e2
    injection e2 with e2 e3
    subst e2 e3
    exact ⟨h2.1, rfl, rfl, h3, h4, e1.symm⟩
  | ask =>
    simp only [bind_ok, pure_ok, ckU64_ok] at h
    obtain ⟨_, ⟨h1, rfl⟩, _, ⟨h2, rfl⟩, _, ⟨h3, rfl⟩, _, ⟨h4, rfl⟩, h⟩ := h
    injection h with e1 e2
    injection e2 with e2 e3
    subst e2 e3
    exact ⟨h0, rfl, rfl, h3, h4, e1.symm⟩

structure TakeFx (s : State) (c : TakeCtx) (order : Order) (limit : Nat) (r : OrderResult) (s' : State)
    (P : TakeRun s c order limit r s') : Prop where
  env : ∃ R ot, PlaceRes { order, oracle := c.oracle, hasOO := false, owner := c.signer, nowTs := P.nowTs, limit, rem := c.rem }
    s.book s.g r P.book' P.g1 R ot 0 0
  frame1 : LFrame s.g P.g1
  amts : TakeAmts P.g1 order.side r P.g2 P.dep P.wd
  wd0 : 0 ≤ P.wd
  inv : Inv s'

theorem TakeRun.fx {s s' : State} {c : TakeCtx} {order : Order} {limit : Nat} {r : OrderResult}
    (P : TakeRun s c order limit r s') (hi : Inv s) (ho : OrderTyped order) : TakeFx s c order limit r s' P := by
  obtain ⟨h1, h2, R, ot, h3⟩ := hi.core.newOrder
    (env := { order, oracle := c.oracle, hasOO := false, owner := c.signer, nowTs := P.nowTs, limit, rem := c.rem })
    (ho.ok P.base0 P.quote0) (fun _ => P.noOO) P.new
  obtain ⟨_, n1, n2, n3, _, _⟩ := h3.notPosted rfl
  have hbn : 0 ≤ r.totalBaseTakenNative := by
    rw [h3.taker.base]
    have := h3.loop.baseLe
    exact Int.mul_nonneg (by omega) (Int.le_of_lt hi.core.bls)
  have hA := takeAmounts_inv P.amounts hbn
  have hsc := h2.sameCfg
  have hwd : 0 ≤ P.wd := by
    rw [hA.wdEq]
    have ham := P.amounts
    unfold takeAmounts at ham
    cases hs : order.side with
    | bid => exact hbn
    | ask =>
      rw [hs] at ham
      simp only [bind_ok, pure_ok, ckU64_ok] at ham
      obtain ⟨_, ⟨_, rfl⟩, _, ⟨h2, rfl⟩, _⟩ := ham
      exact h2.1
  refine ⟨⟨R, ot, h3⟩, h2, hA, hwd, ?_⟩
  have hm : s'.g.market = { P.g1.market with
      baseDepositTotal := P.g1.market.baseDepositTotal + order.side.pick (-P.wd) P.dep
      quoteDepositTotal := P.g1.market.quoteDepositTotal + order.side.pick P.dep (-P.wd) } := by
    rw [congrArg State.g P.res]; exact congrArg Ledger.market hA.res
  have tb := hA.base; rw [h2.base] at tb
  have tq := hA.quote; rw [h2.quote] at tq
  have hwE := hA.wdEq
  have hdE := hA.depEq
  have tr1 := P.tr1
  have tr2 := P.tr2
  refine hi.mk' ?_ ?_ ?_ ?_
  · have hg : s'.g = P.g2 := congrArg State.g P.res
    have hbk : s'.book = P.book' := congrArg State.book P.res
    rw [hg, hbk, hA.res]
    refine h1.market ⟨rfl, rfl, rfl, rfl, rfl, rfl, rfl, rfl, rfl, rfl, rfl, rfl, rfl, rfl, rfl⟩ h1.avail rfl ?_ ?_ rfl
    · simp only [OrderResult.costB, takeB]
      cases hs : order.side <;> rw [hs] at hwE hdE <;> simp [hwE, hdE] <;> omega
    · simp only [OrderResult.costQ, takeQ]
      cases hs : order.side <;> rw [hs] at hwE hdE <;> simp [hwE, hdE, n2, n3] <;> omega
  · rw [hm]; exact ⟨hsc.1, hsc.2, hsc.3, hsc.4, hsc.5, hsc.6, hsc.7, hsc.8, hsc.9, hsc.10, hsc.11, hsc.12, hsc.13, hsc.14, hsc.15⟩
  · rw [hm, congrArg State.tokens P.res]; simp only; rw [h2.base]
    cases hs : order.side with
    | bid =>
      rw [hs] at tr1 tr2 tb
      exact (hi.vb.depOther tr1 hA.dep0 P.signer).wd tr2 hwd tb
    | ask =>
      rw [hs] at tr1 tr2 tb
      exact (hi.vb.dep tr1 hA.dep0 tb P.signer).wdOther tr2 hwd hi.vaults
  · rw [hm, congrArg State.tokens P.res]; simp only; rw [h2.quote]
    cases hs : order.side with
    | bid =>
      rw [hs] at tr1 tr2 tq
      exact (hi.vq.dep tr1 hA.dep0 tq P.signer).wdOther tr2 hwd (Ne.symm hi.vaults)
    | ask =>
      rw [hs] at tr1 tr2 tq
      exact (hi.vq.depOther tr1 hA.dep0 P.signer).wd tr2 hwd tq

end OB
