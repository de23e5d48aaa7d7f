import Verif.Proofs.Inv
/-! Every reachable state satisfies the invariant. -/
namespace OB

theorem SameCfg.rfl' (m : Market) : SameCfg m m := SameCfg.refl m

/-- An account without resting or pending bids needs no locked maker fees. -/
theorem LInv.noBids {g : Ledger} {L : Rests} {dB dQ : Int} {n : Nat} (h : LInv g L dB dQ (fun _ => 0) n) {k : Pubkey} {a : OOA}
    (ha : g.accts.get? k = some a) (hb : a.position.bidsBaseLots = 0) :
    LInv g L dB dQ (fun j => if j = k then a.position.lockedMakerFees else 0) n := by
  obtain ⟨O, q, h1, h2, h3, h4⟩ := h
  refine ⟨O, q, h1, h2, ⟨h3.nodup, h3.ok, h3.owner, fun j b hj => ?_, h3.link, h3.slots, h3.ids, h3.base, h3.quote, h3.refs⟩, h4⟩
  have hA := h3.acct j b hj
  refine ⟨hA.bids, hA.asks, hA.quote, ?_, hA.len, hA.used, hA.baseFree, hA.quoteFree, hA.locked, hA.refs⟩
  have hf := hA.fees
  by_cases he : j = k
  · subst he
    rw [hj] at ha
    injection ha with ha
    subst ha
    rw [if_pos rfl, osum_zero, Int.zero_add]
    · exact Int.le_refl _
    · intro o ho
      unfold cN
      split
      · rename_i hc
        exfalso
        have hq := (h3.ok o ho).qty
        have := osum_mem_le (f := cB j) (O := O) (fun x hx => by
          unfold cB; have := (h3.ok x hx).qty; split <;> omega) ho
        rw [← hA.bids, hb] at this
        unfold cB at this
        rw [if_pos hc] at this
        omega
      · rfl
  · rw [if_neg he]; exact hf

/-! ### deposits -/

structure DepositRun (s : State) (signer k userBase userQuote : Pubkey) (now b q : Int) (s' : State) where
  isOpen : s.closed = false
  notAuth : signer ≠ s.g.market.marketAuthority
  b0 : 0 ≤ b
  q0 : 0 ≤ q
  b1 : b ≤ u64Max
  q1 : q ≤ u64Max
  a : OOA
  acct : s.g.accts.get? k = some a
  live : s.g.market.isExpired now = false
  t1 : Tokens
  tr1 : tokenTransfer s.tokens b userBase s.g.market.marketBaseVault signer = .ok t1
  t2 : Tokens
  tr2 : tokenTransfer t1 q userQuote s.g.market.marketQuoteVault signer = .ok t2
  fb : inU64 (a.position.baseFreeNative + b)
  fq : inU64 (a.position.quoteFreeNative + q)
  tb : inU64 (s.g.market.baseDepositTotal + b)
  tq : inU64 (s.g.market.quoteDepositTotal + q)
  res : s' = { s with tokens := t2, g := { s.g with
    market := { s.g.market with baseDepositTotal := s.g.market.baseDepositTotal + b
                                quoteDepositTotal := s.g.market.quoteDepositTotal + q }
    accts := s.g.accts.set k { a with position := { a.position with
      baseFreeNative := a.position.baseFreeNative + b, quoteFreeNative := a.position.quoteFreeNative + q } } } }

theorem deposit_inv {s s' : State} {signer k ub uq : Pubkey} {now b q : Int} (h : deposit s signer k ub uq now b q = .ok s') :
    Nonempty (DepositRun s signer k ub uq now b q s') := by
  unfold deposit State.open? signerOk at h
  simp only [bind_ok, req_ok, Accts.get_ok, pure_ok, ckU64_ok] at h
  obtain ⟨_, h1, _, h2, _, h3, _, _, _, _, a, ha, _, h4, t1, h5, _, ⟨h6, rfl⟩, _, ⟨h7, rfl⟩, t2, h8, _, ⟨h9, rfl⟩, _, ⟨h10, rfl⟩, h⟩ := h
  exact ⟨⟨h1, h2, h3.1, h3.2.2.1, h3.2.1, h3.2.2.2, a, ha, h4, t1, h5, t2, h8, h6, h9, h7, h10, h.symm⟩⟩

theorem DepositRun.inv {s s' : State} {signer k ub uq : Pubkey} {now b q : Int} (P : DepositRun s signer k ub uq now b q s')
    (hi : Inv s) : Inv s' := by
  have hm : s'.g.market = { s.g.market with baseDepositTotal := s.g.market.baseDepositTotal + b
                                            quoteDepositTotal := s.g.market.quoteDepositTotal + q } := by
    rw [congrArg State.g P.res]
  refine hi.mk' ?_ ?_ ?_ ?_
  · rw [congrArg State.g P.res, congrArg State.book P.res]
    refine hi.core.setFree P.acct (a' := { P.a with position := { P.a.position with
      baseFreeNative := P.a.position.baseFreeNative + b, quoteFreeNative := P.a.position.quoteFreeNative + q } })
      ⟨rfl, rfl, rfl, rfl⟩ rfl P.fb P.fq rfl ⟨rfl, rfl, rfl, rfl, rfl, rfl, rfl, rfl, rfl, rfl, rfl, rfl, rfl, rfl, rfl⟩ rfl rfl
      ?_ ?_ rfl
    · simp only; omega
    · simp only; omega
  · rw [hm]; exact ⟨rfl, rfl, rfl, rfl, rfl, rfl, rfl, rfl, rfl, rfl, rfl, rfl, rfl, rfl, rfl⟩
  · rw [hm, congrArg State.tokens P.res]
    exact (hi.vb.dep P.tr1 P.b0 P.tb P.notAuth).depOther P.tr2 P.q0 P.notAuth
  · rw [hm, congrArg State.tokens P.res]
    exact (hi.vq.depOther P.tr1 P.b0 P.notAuth).dep P.tr2 P.q0 P.tq P.notAuth

theorem refill_inv {s s' : State} {signer k ub uq : Pubkey} {now b q : Int} (h : refill s signer k ub uq now b q = .ok s') :
    ∃ a, s.g.accts.get? k = some a ∧ 0 ≤ b ∧ b ≤ u64Max ∧ 0 ≤ q ∧ q ≤ u64Max ∧
      deposit s signer k ub uq now (b - min b a.position.baseFreeNative) (q - min q a.position.quoteFreeNative) = .ok s' := by
  unfold refill at h
  simp only [bind_ok, req_ok, Accts.get_ok] at h
  obtain ⟨a, ha, _, h1, h⟩ := h
  exact ⟨a, ha, h1.1, h1.2.1, h1.2.2.1, h1.2.2.2, h⟩

/-! ### settling -/

/-- The maker fee remainder swept by a settlement. -/
def sweepOf (m : Market) (p : Position) : Int := if m.makerFee > 0 ∧ p.bidsBaseLots = 0 then p.lockedMakerFees else 0

/-- The account after a settlement. -/
def OOA.settled (a : OOA) (m : Market) : OOA :=
  { a with position := { a.position with
      lockedMakerFees := a.position.lockedMakerFees - sweepOf m a.position
      baseFreeNative := 0, quoteFreeNative := 0, referrerRebatesAvailable := 0, penaltyHeapCount := 0 } }

/-- The market after a settlement. -/
def Market.settled (m : Market) (p : Position) (hasRef : Bool) : Market :=
  { m with
    feesToReferrers := m.feesToReferrers + (if hasRef then p.referrerRebatesAvailable + sweepOf m p else 0)
    feesAvailable := m.feesAvailable + (if hasRef then 0 else p.referrerRebatesAvailable + sweepOf m p)
    baseDepositTotal := m.baseDepositTotal - p.baseFreeNative
    quoteDepositTotal := m.quoteDepositTotal - (if hasRef then p.referrerRebatesAvailable + sweepOf m p else 0) - p.quoteFreeNative
    referrerRebatesAccrued := m.referrerRebatesAccrued - p.referrerRebatesAvailable }

structure Settled (m : Market) (a : OOA) (hasRef : Bool) (rebate : Int) (m' : Market) (a1 : OOA) : Prop where
  rebateEq : rebate = a.position.referrerRebatesAvailable + sweepOf m a.position
  rebate0 : inU64 rebate
  base : inU64 (m.baseDepositTotal - a.position.baseFreeNative)
  q1 : hasRef = true → inU64 (m.quoteDepositTotal - rebate)
  q2 : inU64 m'.quoteDepositTotal
  avail : hasRef = false → inU64 m'.feesAvailable
  rr : inU64 m'.referrerRebatesAccrued
  market : m' = m.settled a.position hasRef
  acct : a1 = { a with position := { a.position with lockedMakerFees := a.position.lockedMakerFees - sweepOf m a.position } }

theorem settleAccounting_inv {m m' : Market} {a a1 : OOA} {hasRef : Bool} {rebate : Int}
    (h : settleAccounting m a hasRef = .ok (rebate, m', a1)) : Settled m a hasRef rebate m' a1 := by
  unfold settleAccounting at h
  simp only [bind_ok, ckU64_ok] at h
  obtain ⟨_, ⟨h1, rfl⟩, m1, h2, _, ⟨h3, rfl⟩, _, ⟨h4, rfl⟩, _, ⟨h5, rfl⟩, h⟩ := h
  simp only [pure_ok] at h
  injection h with e1 e2
  injection e2 with e2 e3
  have hsw : (if (decide (m.makerFee > 0 ∧ a.position.bidsBaseLots = 0)) = true then a.position.lockedMakerFees else 0) =
      sweepOf m a.position := by
    unfold sweepOf; simp only [decide_eq_true_eq]
  have hac : a1 = { a with position := { a.position with
      lockedMakerFees := a.position.lockedMakerFees - sweepOf m a.position } } := by
    rw [← e3]
    unfold sweepOf
    simp only [decide_eq_true_eq]
    by_cases hc : m.makerFee > 0 ∧ a.position.bidsBaseLots = 0
    · simp only [if_pos hc, Int.sub_self]
    · simp only [if_neg hc, Int.sub_zero]
  rw [hsw] at h1 h2 e1
  cases hasRef with
  | true =>
    simp only [if_true, bind_ok, pure_ok, ckU64_ok, ckU128_ok] at h2
    obtain ⟨_, ⟨h6, rfl⟩, _, ⟨h7, rfl⟩, h2⟩ := h2
    subst h2
    simp only at h3 h4 h5 e2
    refine ⟨e1.symm, by rw [← e1]; exact h1, h3, fun _ => by rw [← e1]; exact h7, by rw [← e2]; exact h4,
      (fun h => nomatch h), by rw [← e2]; exact h5, ?_, hac⟩
    rw [← e2]; simp [Market.settled]
  | false =>
    simp only [Bool.false_eq_true, if_false, bind_ok, pure_ok, ckU64_ok] at h2
    obtain ⟨_, ⟨h6, rfl⟩, h2⟩ := h2
    subst h2
    simp only at h3 h4 h5 e2
    refine ⟨e1.symm, by rw [← e1]; exact h1, h3, (fun h => nomatch h), by rw [← e2]; exact h4,
      fun _ => by rw [← e2]; exact h6, by rw [← e2]; exact h5, ?_, hac⟩
    rw [← e2]; simp [Market.settled]

structure SettleRun (s : State) (c : SettleCtx) (s' : State) where
  a : OOA
  acct : s.g.accts.get? c.ooKey = some a
  mintB : mintIs s.tokens c.userBase s.g.market.marketBaseVault = .ok ()
  mintQ : mintIs s.tokens c.userQuote s.g.market.marketQuoteVault = .ok ()
  mintR : ∀ k, c.referrer = some k → mintIs s.tokens k s.g.market.marketQuoteVault = .ok ()
  m' : Market
  a1 : OOA
  rebate : Int
  settled : Settled s.g.market a c.referrer.isSome rebate m' a1
  lamports : Lamports
  penalty : (if a.position.penaltyHeapCount > 0 then do
      let x ← ckU64 (a.position.penaltyHeapCount * penaltyEventHeap)
      systemTransfer s.lamports x c.penaltyPayer s.marketKey
    else .ok s.lamports : R Lamports) = .ok lamports
  t1 : Tokens
  tr1 : (∃ k, c.referrer = some k ∧ tokenTransfer s.tokens rebate s.g.market.marketQuoteVault k s.g.market.marketAuthority = .ok t1) ∨
    (c.referrer = none ∧ t1 = s.tokens)
  t2 : Tokens
  tr2 : tokenTransfer t1 a.position.baseFreeNative s.g.market.marketBaseVault c.userBase s.g.market.marketAuthority = .ok t2
  t3 : Tokens
  tr3 : tokenTransfer t2 a.position.quoteFreeNative s.g.market.marketQuoteVault c.userQuote s.g.market.marketAuthority = .ok t3
  res : s' = { s with tokens := t3, lamports := lamports, g := { s.g with
    market := s.g.market.settled a.position c.referrer.isSome
    accts := s.g.accts.set c.ooKey (a.settled s.g.market) } }

theorem settleCore_inv {s s' : State} {c : SettleCtx} (h : settleCore s c = .ok s') : Nonempty (SettleRun s c s') := by
  unfold settleCore at h
  simp only [bind_ok, Accts.get_ok] at h
  obtain ⟨a, ha, _, h1, _, h2, _, h3, ⟨rebate, m', a1⟩, h4, lam, h5, t1, h6, t2, h7, t3, h8, h⟩ := h
  simp only [pure_ok] at h
  have hs := settleAccounting_inv h4
  refine ⟨⟨a, ha, h1, h2, fun k hk => ?_, m', a1, rebate, hs, lam, h5, t1, ?_, t2, h7, t3, h8, ?_⟩⟩
  · rw [hk] at h3; exact h3
  · cases hr : c.referrer with
    | some k => rw [hr] at h6; exact .inl ⟨k, rfl, h6⟩
    | none => rw [hr] at h6; cases h6; exact .inr ⟨rfl, rfl⟩
  · rw [← h]
    simp only [← hs.market, hs.acct]
    rfl

theorem SettleRun.inv {s s' : State} {c : SettleCtx} (P : SettleRun s c s') (hi : Inv s) : Inv s' := by
  obtain ⟨k1, k2, k3, k4, _⟩ := hi.core.linv.acctOk P.acct
  have hS := P.settled
  have hm : s'.g.market = s.g.market.settled P.a.position c.referrer.isSome := by rw [congrArg State.g P.res]
  have hcfg : SameCfg s.g.market (s.g.market.settled P.a.position c.referrer.isSome) :=
    ⟨rfl, rfl, rfl, rfl, rfl, rfl, rfl, rfl, rfl, rfl, rfl, rfl, rfl, rfl, rfl⟩
  have z : inU64 0 := by unfold inU64 u64Max; omega
  have hav := hi.core.avail
  refine hi.mk' ?_ (by rw [hm]; exact hcfg) ?_ ?_
  · rw [congrArg State.g P.res, congrArg State.book P.res]
    refine ⟨hi.core.bookOk, ?_, hi.core.bls, hi.core.qls, hcfg.feesOk hi.core.fees, ?_⟩
    · have hex : ∃ ex : Pubkey → Int, LInv s.g s.book.resting 0 0 ex s.g.market.seqNum ∧ (∀ j, j ≠ c.ooKey → ex j = 0) ∧
          sweepOf s.g.market P.a.position ≤ ex c.ooKey := by
        unfold sweepOf
        split
        · rename_i hc
          exact ⟨_, hi.core.linv.noBids P.acct hc.2, fun j hj => by rw [if_neg hj], by rw [if_pos rfl]; exact Int.le_refl _⟩
        · exact ⟨_, hi.core.linv, fun _ _ => rfl, Int.le_refl _⟩
      obtain ⟨ex, hl, he1, he2⟩ := hex
      refine hl.setFree P.acct (a' := P.a.settled s.g.market) ⟨rfl, rfl, rfl, rfl⟩ (ex' := fun _ => 0) (fun j hj => (he1 j hj).symm) ?_
        z z ?_ z hcfg.sameM ?_ ?_ ?_
      · simp only [OOA.settled]; omega
      · simp only [OOA.settled]; unfold sweepOf
        split
        · rw [Int.sub_self]; exact z
        · rw [Int.sub_zero]; exact k3
      · simp only [OOA.settled, Market.settled]; omega
      · simp only [OOA.settled, Market.settled]
        cases c.referrer.isSome <;> simp <;> omega
      · simp only [OOA.settled, Market.settled]; omega
    · show inU64 (s.g.market.settled P.a.position c.referrer.isSome).feesAvailable
      cases hr : c.referrer.isSome with
      | true => simp only [Market.settled, if_true, Int.add_zero]; exact hav
      | false =>
        have := hS.avail hr
        rw [hS.market, hr] at this; exact this
  · rw [hm, congrArg State.tokens P.res]
    have v1 : VaultOk P.t1 s.g.market.marketBaseVault s.g.market.marketAuthority s.g.market.baseMint s.g.market.baseDepositTotal := by
      rcases P.tr1 with ⟨k, _, h⟩ | ⟨_, h⟩
      · exact hi.vb.wdOther h hS.rebate0.1 hi.vaults
      · rw [h]; exact hi.vb
    exact (v1.wd P.tr2 k1.1 hS.base).wdOther P.tr3 k2.1 hi.vaults
  · rw [hm, congrArg State.tokens P.res]
    have hq2 := hS.q2
    rw [hS.market] at hq2
    have v1 : VaultOk P.t1 s.g.market.marketQuoteVault s.g.market.marketAuthority s.g.market.quoteMint
        (s.g.market.quoteDepositTotal - (if c.referrer.isSome = true then P.rebate else 0)) := by
      rcases P.tr1 with ⟨k, hk, h⟩ | ⟨hk, h⟩
      · rw [hk]
        exact hi.vq.wd h hS.rebate0.1 (hS.q1 (by rw [hk]; rfl))
      · rw [h, hk]; simp only [Option.isSome_none, Bool.false_eq_true, if_false, Int.sub_zero]; exact hi.vq
    have v2 := v1.wdOther P.tr2 k1.1 (Ne.symm hi.vaults)
    have e : (s.g.market.settled P.a.position c.referrer.isSome).quoteDepositTotal =
        s.g.market.quoteDepositTotal - (if c.referrer.isSome = true then P.rebate else 0) - P.a.position.quoteFreeNative := by
      rw [hS.rebateEq]; rfl
    rw [e] at hq2 ⊢
    exact v2.wd P.tr3 k2.1 hq2

theorem settleFunds_inv {s s' : State} {c : SettleCtx} (h : settleFunds s c = .ok s') :
    settleCore s c = .ok s' ∧ s.closed = false ∧ ∃ a, s.g.accts.get? c.ooKey = some a ∧ a.isOwnerOrDelegate c.signer = true ∧
      a.isSettleDestinationAllowed c.signer (s.tokens c.userBase).owner = true ∧
      a.isSettleDestinationAllowed c.signer (s.tokens c.userQuote).owner = true := by
  unfold settleFunds State.open? signerOk at h
  simp only [bind_ok, req_ok, Accts.get_ok] at h
  obtain ⟨_, h1, _, _, _, _, a, ha, _, h2, _, h3, _, h4, h⟩ := h
  exact ⟨h, h1, a, ha, h2, h3, h4⟩

theorem settleFundsExpired_inv {s s' : State} {admin : Pubkey} {c : SettleCtx} {now : Int}
    (h : settleFundsExpired s admin c now = .ok s') :
    settleCore s c = .ok s' ∧ s.closed = false ∧ s.g.market.closeMarketAdmin ≠ 0 ∧ s.g.market.closeMarketAdmin = admin ∧
      s.g.market.isExpired now = true ∧ ∃ a, s.g.accts.get? c.ooKey = some a ∧ (s.tokens c.userBase).owner = a.owner ∧
      (s.tokens c.userQuote).owner = a.owner := by
  unfold settleFundsExpired State.open? signerOk at h
  simp only [bind_ok, req_ok, Accts.get_ok] at h
  obtain ⟨_, h1, _, _, _, h2, _, h3, a, ha, _, h4, _, h5, _, h6, h⟩ := h
  exact ⟨h, h1, h2, h3, h6, a, ha, h4, h5⟩

/-! ### administration -/

theorem sweepFees_inv {s s' : State} {admin receiver : Pubkey} (h : sweepFees s admin receiver = .ok s') :
    s.closed = false ∧ s.g.market.collectFeeAdmin = admin ∧ inU64 (s.g.market.quoteDepositTotal - s.g.market.feesAvailable) ∧
    ∃ t, tokenTransfer s.tokens s.g.market.feesAvailable s.g.market.marketQuoteVault receiver s.g.market.marketAuthority = .ok t ∧
      s' = { s with tokens := t, g := { s.g with market := { s.g.market with
        feesAvailable := 0, quoteDepositTotal := s.g.market.quoteDepositTotal - s.g.market.feesAvailable } } } := by
  unfold sweepFees State.open? at h
  simp only [bind_ok, req_ok, pure_ok, ckU64_ok] at h
  obtain ⟨_, h1, _, h2, _, _, _, ⟨h3, rfl⟩, t, h4, h⟩ := h
  exact ⟨h1, h2, h3, t, h4, h.symm⟩

theorem sweepFees_Inv {s s' : State} {admin receiver : Pubkey} (hi : Inv s) (h : sweepFees s admin receiver = .ok s') : Inv s' := by
  obtain ⟨_, _, h3, t, h4, h⟩ := sweepFees_inv h
  have hav := hi.core.avail
  have hcfg : SameCfg s.g.market { s.g.market with
      feesAvailable := 0, quoteDepositTotal := s.g.market.quoteDepositTotal - s.g.market.feesAvailable } :=
    ⟨rfl, rfl, rfl, rfl, rfl, rfl, rfl, rfl, rfl, rfl, rfl, rfl, rfl, rfl, rfl⟩
  rw [h]
  refine hi.mk' ?_ hcfg ?_ ?_
  · exact hi.core.market hcfg (by show inU64 0; unfold inU64 u64Max; omega) rfl rfl (by simp only; omega) rfl
  · exact hi.vb.wdOther h4 hav.1 hi.vaults
  · exact hi.vq.wd h4 hav.1 h3

theorem Core.create {g : Ledger} {book : Book} (h : Core g book 0 0) {k : Pubkey} (hk : g.accts.get? k = none) (o d : Pubkey) :
    Core { g with accts := g.accts ++ [(k, OOA.fresh o d)] } book 0 0 := by
  refine ⟨h.bookOk, ?_, h.bls, h.qls, h.fees, h.avail⟩
  obtain ⟨O, q, h1, h2, h3, h4⟩ := h.linv
  exact ⟨O, q, h1, h2, h3.create hk o d, h4⟩

theorem Core.close {g : Ledger} {book : Book} (h : Core g book 0 0) {k : Pubkey} {a : OOA} (hk : g.accts.get? k = some a)
    (he : EmptyPos a.position) : Core { g with accts := g.accts.del k } book 0 0 := by
  refine ⟨h.bookOk, ?_, h.bls, h.qls, h.fees, h.avail⟩
  obtain ⟨O, q, h1, h2, h3, h4⟩ := h.linv
  exact ⟨O, q, h1, h2, h3.close hk he, h4⟩

theorem authClose_ok {s : State} {admin : Pubkey} (h : authClose s admin = .ok ()) :
    s.closed = false ∧ s.g.market.closeMarketAdmin ≠ 0 ∧ s.g.market.closeMarketAdmin = admin := by
  unfold authClose State.open? at h
  simp only [bind_ok, req_ok] at h
  obtain ⟨_, h1, _, h2, h3⟩ := h
  exact ⟨h1, h2, h3⟩

/-- The ledger changes, the tokens do not. -/
theorem Inv.ledger {s s' : State} (hi : Inv s) (hc : Core s'.g s'.book 0 0) (hm : SameCfg s.g.market s'.g.market)
    (ht : s'.tokens = s.tokens) (hb : s'.g.market.baseDepositTotal = s.g.market.baseDepositTotal)
    (hq : s'.g.market.quoteDepositTotal = s.g.market.quoteDepositTotal) : Inv s' :=
  hi.mk' hc hm (by rw [ht, hb]; exact hi.vb) (by rw [ht, hq]; exact hi.vq)

theorem consumeEvents_inv {s s' : State} {admin : Pubkey} {limit : Nat} {slots : List Nat} {rem : List Pubkey}
    (h : consumeEvents s admin limit slots rem = .ok s') :
    s.closed = false ∧ s.g.market.consumeEventsAdmin = admin ∧ ∃ todo g, slotsToConsume s.g.heap slots (min limit maxEventsConsume) = .ok todo ∧
      consumeLoop rem todo s.g = .ok g ∧ s' = { s with g } := by
  unfold consumeEvents State.open? at h
  simp only [bind_ok, req_ok, pure_ok] at h
  obtain ⟨_, h1, _, h2, todo, h3, g, h4, h⟩ := h
  exact ⟨h1, h2, todo, g, h3, h4, h.symm⟩

theorem consumeEvents_Inv {s s' : State} {admin : Pubkey} {limit : Nat} {slots : List Nat} {rem : List Pubkey} (hi : Inv s)
    (h : consumeEvents s admin limit slots rem = .ok s') : Inv s' ∧ LFrame s.g s'.g := by
  obtain ⟨_, _, todo, g, _, h4, rfl⟩ := consumeEvents_inv h
  obtain ⟨r1, r2, r3⟩ := consumeLoop_res hi.core.linv hi.core.bls hi.core.qls h4
  exact ⟨hi.frame r2 (hi.core.frame r2 hi.core.bookOk (by rw [r3]; exact r1)) s.lamports, r2⟩

/-! ### one step -/

theorem placeOrderIx_inv {s s' : State} {c : PlaceCtx} {a : PlaceOrderArgs} {r : Option OrderResult}
    (h : placeOrderIx s c a = .ok (r, s')) :
    (r = none ∧ s' = s ∧ authPlace s c.signer c.ooKey c.admin = .ok ()) ∨
    ∃ now o r1, nowU64 c.now = .ok now ∧ a.order now = .ok (some o) ∧ r = some r1 ∧ placeOrder s c o a.limit = .ok (r1, s') := by
  unfold placeOrderIx at h
  simp only [bind_ok] at h
  obtain ⟨now, hn, o, ho, h⟩ := h
  cases o with
  | none =>
    simp only [bind_ok, pure_ok] at h
    obtain ⟨_, h1, h⟩ := h
    injection h with e1 e2
    exact .inl ⟨e1.symm, e2.symm, h1⟩
  | some o =>
    simp only [bind_ok, pure_ok] at h
    obtain ⟨⟨r1, s1⟩, h1, h⟩ := h
    injection h with e1 e2
    exact .inr ⟨now, o, r1, hn, ho, e1.symm, by rw [← e2]; exact h1⟩

theorem placeOrderPeggedIx_inv {s s' : State} {c : PlaceCtx} {a : PlaceOrderPeggedArgs} {r : Option OrderResult}
    (h : placeOrderPeggedIx s c a = .ok (r, s')) :
    (r = none ∧ s' = s ∧ authPlace s c.signer c.ooKey c.admin = .ok ()) ∨
    ∃ now o r1, nowU64 c.now = .ok now ∧ a.order s.g.market now = .ok (some o) ∧ r = some r1 ∧
      placeOrder s c o a.limit = .ok (r1, s') := by
  unfold placeOrderPeggedIx at h
  simp only [bind_ok] at h
  obtain ⟨now, hn, o, ho, h⟩ := h
  cases o with
  | none =>
    simp only [bind_ok, pure_ok] at h
    obtain ⟨_, h1, h⟩ := h
    injection h with e1 e2
    exact .inl ⟨e1.symm, e2.symm, h1⟩
  | some o =>
    simp only [bind_ok, pure_ok] at h
    obtain ⟨⟨r1, s1⟩, h1, h⟩ := h
    injection h with e1 e2
    exact .inr ⟨now, o, r1, hn, ho, e1.symm, by rw [← e2]; exact h1⟩

structure EditRun (s : State) (c : PlaceCtx) (client : Nat) (expected : Int) (order : Order) (limit : Nat) (r : Option OrderResult)
    (s' : State) : Prop where
  auth : authPlace s c.signer c.ooKey c.admin = .ok ()
  exp0 : 0 ≤ expected
  run : ∃ q s1, cancelByClientId s c.signer c.ooKey client = .ok (q, s1) ∧ inI64 (expected - q) ∧
    ((expected - q > 0 ∧ order.maxBaseLots > expected - q ∧ ∃ r1, r = some r1 ∧
      placeOrder s1 c { order with maxBaseLots := order.maxBaseLots - (expected - q) } limit = .ok (r1, s')) ∨
     (¬ (expected - q > 0 ∧ order.maxBaseLots > expected - q) ∧ r = none ∧ s' = s1))

theorem editOrder_inv {s s' : State} {c : PlaceCtx} {client : Nat} {expected : Int} {order : Order} {limit : Nat}
    {r : Option OrderResult} (h : editOrder s c client expected order limit = .ok (r, s')) :
    EditRun s c client expected order limit r s' := by
  unfold editOrder at h
  simp only [bind_ok, req_ok, ckI64_ok] at h
  obtain ⟨_, _, _, h1, _, h2, ⟨q, s1⟩, h3, _, ⟨h4, rfl⟩, h⟩ := h
  refine ⟨h1, h2, q, s1, h3, h4, ?_⟩
  simp only at h
  split at h
  · rename_i hc
    simp only [bind_ok, ckI64_ok, pure_ok] at h
    obtain ⟨_, ⟨_, rfl⟩, ⟨r1, s2⟩, h5, h⟩ := h
    injection h with e1 e2
    subst e2
    exact .inl ⟨hc.1, hc.2, r1, e1.symm, h5⟩
  · rename_i hc
    simp only [pure_ok] at h
    injection h with e1 e2
    exact .inr ⟨hc, e1.symm, e2.symm⟩

theorem EditRun.inv {s s' : State} {c : PlaceCtx} {client : Nat} {expected : Int} {order : Order} {limit : Nat}
    {r : Option OrderResult} (h : EditRun s c client expected order limit r s') (hi : Inv s) (ho : OrderTyped order) : Inv s' := by
  obtain ⟨q, s1, h1, h2, h⟩ := h.run
  obtain ⟨_, h3⟩ := cancelByClientId_inv h1
  obtain ⟨_, _, _, _, _, _, _, _, _, hi1⟩ := cancelAllFor_res hi h3
  rcases h with ⟨e1, e2, r1, rfl, h4⟩ | ⟨_, _, rfl⟩
  · obtain ⟨P⟩ := placeOrder_inv h4
    exact (P.fx hi1 ⟨by have := ho.base1; simp only; omega, ho.quote1, ho.price, ho.peg⟩).inv
  · exact hi1

theorem takeOrder_typed {a : PlaceOrderArgs} {o : Order} (h : takeOrder a = .ok o) : OrderTyped o := by
  unfold takeOrder at h
  simp only [bind_ok, req_ok, pure_ok] at h
  obtain ⟨_, ht, _, _, p, hp, rfl⟩ := h
  refine ⟨ht.2.1.2, ht.2.2.1.2, fun x hx => ?_, fun off t l hx => ?_⟩
  · have hp1 := ht.1.2
    split at hp
    all_goals first | cases hp; done | skip
    all_goals cases hp
    all_goals simp_all
  · split at hp
    all_goals first | cases hp; done | skip
    all_goals cases hp
    all_goals simp_all

theorem setDelegate_inv {s s' : State} {k owner d : Pubkey} (h : setDelegate s k owner d = .ok s') :
    ∃ a, s.g.accts.get? k = some a ∧ a.owner = owner ∧ s' = { s with g := { s.g with accts := s.g.accts.set k { a with delegate := d } } } := by
  unfold setDelegate at h
  simp only [bind_ok, req_ok, Accts.get_ok, pure_ok] at h
  obtain ⟨a, ha, _, h1, h⟩ := h
  exact ⟨a, ha, h1, h.symm⟩

theorem closeOO_inv {s s' : State} {k owner : Pubkey} (h : closeOO s k owner = .ok s') :
    ∃ a, s.g.accts.get? k = some a ∧ a.owner = owner ∧ EmptyPos a.position ∧ s' = { s with g := { s.g with accts := s.g.accts.del k } } := by
  unfold closeOO at h
  simp only [bind_ok, req_ok, Accts.get_ok, pure_ok] at h
  obtain ⟨a, ha, _, h1, _, h2, h⟩ := h
  exact ⟨a, ha, h1, isEmpty_iff.mp h2, h.symm⟩

theorem createOO_inv {s s' : State} {k owner d : Pubkey} (h : createOO s k owner d = .ok s') :
    s.closed = false ∧ owner ≠ s.g.market.marketAuthority ∧ s.g.accts.get? k = none ∧
      s' = { s with g := { s.g with accts := s.g.accts ++ [(k, OOA.fresh owner d)] } } := by
  unfold createOO State.open? signerOk at h
  simp only [bind_ok, req_ok, pure_ok] at h
  obtain ⟨_, h1, _, h2, _, h3, h⟩ := h
  exact ⟨h1, h2, h3, h.symm⟩

theorem setMarketExpired_inv {s s' : State} {admin : Pubkey} {now : Int} (h : setMarketExpired s admin now = .ok s') :
    authClose s admin = .ok () ∧ s.g.market.isExpired now = false ∧
      s' = { s with g := { s.g with market := { s.g.market with timeExpiry := -1 } } } := by
  unfold setMarketExpired at h
  simp only [bind_ok, req_ok, pure_ok] at h
  obtain ⟨_, h1, _, h2, h⟩ := h
  exact ⟨h1, h2, h.symm⟩

theorem pruneOrders_inv {s s' : State} {admin k : Pubkey} {now : Int} {limit : Nat} (h : pruneOrders s admin k now limit = .ok s') :
    authClose s admin = .ok () ∧ s.g.market.isExpired now = true ∧ ∃ q, cancelAllFor s k limit none none = .ok (q, s') := by
  unfold pruneOrders at h
  simp only [bind_ok, req_ok, pure_ok] at h
  obtain ⟨_, h1, _, h2, ⟨q, s1⟩, h3, rfl⟩ := h
  exact ⟨h1, h2, q, h3⟩

structure CloseRun (s : State) (admin : Pubkey) (now : Int) (s' : State) : Prop where
  auth : authClose s admin = .ok ()
  expired : s.g.market.isExpired now = true
  empty : s.g.market.isEmpty = true
  bids : s.book.bids.isEmpty = .ok true
  asks : s.book.asks.isEmpty = .ok true
  heap : s.g.heap.isEmpty = true
  res : s' = { s with closed := true }

theorem closeMarket_inv {s s' : State} {admin : Pubkey} {now : Int} (h : closeMarket s admin now = .ok s') : CloseRun s admin now s' := by
  unfold closeMarket at h
  simp only [bind_ok, req_ok, pure_ok] at h
  obtain ⟨_, h1, _, h2, _, h3, be, h4, ae, h5, _, ⟨rfl, rfl⟩, _, h6, h⟩ := h
  exact ⟨h1, h2, h3, h4, h5, h6, h.symm⟩

theorem externalToken_inv {s s' : State} {k : Pubkey} {t : TokenAcct} (h : externalToken s k t = .ok s') :
    0 ≤ t.amount ∧ t.amount ≤ u64Max ∧ (s.g.market.isMarketVault k = true →
      t.owner = (s.tokens k).owner ∧ t.mint = (s.tokens k).mint ∧ (s.tokens k).amount ≤ t.amount) ∧
      s' = { s with tokens := fun i => if i = k then t else s.tokens i } := by
  unfold externalToken at h
  simp only [bind_ok, req_ok, pure_ok] at h
  obtain ⟨_, h1, _, h2, h⟩ := h
  exact ⟨h1.1, h1.2, h2, h.symm⟩

theorem externalLamports_inv {s s' : State} {k : Pubkey} {x : Int} (h : externalLamports s k x = .ok s') :
    0 ≤ x ∧ x ≤ u64Max ∧ (k = s.marketKey ∧ s.closed = false → s.lamports k ≤ x) ∧
      s' = { s with lamports := fun i => if i = k then x else s.lamports i } := by
  unfold externalLamports at h
  simp only [bind_ok, req_ok, pure_ok] at h
  obtain ⟨_, h1, h⟩ := h
  exact ⟨h1.1, h1.2.1, h1.2.2, h.symm⟩

theorem step_Inv {s s' : State} {op : Op} (hi : Inv s) (h : step s op = .ok s') : Inv s' := by
  cases op with
  | placeOrder c a =>
    simp only [step, bind_ok, pure_ok] at h
    obtain ⟨⟨r, s1⟩, h, rfl⟩ := h
    rcases placeOrderIx_inv h with ⟨_, rfl, _⟩ | ⟨now, o, r1, _, ho, _, h⟩
    · exact hi
    · obtain ⟨P⟩ := placeOrder_inv h
      exact (P.fx hi (PlaceOrderArgs.order_typed ho)).inv
  | placeOrderPegged c a =>
    simp only [step, bind_ok, pure_ok] at h
    obtain ⟨⟨r, s1⟩, h, rfl⟩ := h
    rcases placeOrderPeggedIx_inv h with ⟨_, rfl, _⟩ | ⟨now, o, r1, _, ho, _, h⟩
    · exact hi
    · obtain ⟨P⟩ := placeOrder_inv h
      exact (P.fx hi (PlaceOrderPeggedArgs.order_typed ho)).inv
  | editOrder c client e a =>
    simp only [step, bind_ok, pure_ok, editOrderIx] at h
    obtain ⟨⟨r, s1⟩, ⟨now, _, o, ho, h⟩, rfl⟩ := h
    cases o with
    | none =>
      simp only [bind_ok, pure_ok] at h
      obtain ⟨_, _, h⟩ := h
      injection h with _ e2
      rw [← e2]; exact hi
    | some o => exact (editOrder_inv h).inv hi (PlaceOrderArgs.order_typed ho)
  | editOrderPegged c client e a =>
    simp only [step, bind_ok, pure_ok, editOrderPeggedIx] at h
    obtain ⟨⟨r, s1⟩, ⟨now, _, o, ho, h⟩, rfl⟩ := h
    cases o with
    | none =>
      simp only [bind_ok, pure_ok] at h
      obtain ⟨_, _, h⟩ := h
      injection h with _ e2
      rw [← e2]; exact hi
    | some o => exact (editOrder_inv h).inv hi (PlaceOrderPeggedArgs.order_typed ho)
  | placeOrders c cancel t bids asks limit =>
    simp only [step, bind_ok, pure_ok, placeOrdersIx, req_ok] at h
    obtain ⟨⟨r, s1⟩, ⟨_, _, now, _, bs, hb, as, has, h⟩, rfl⟩ := h
    obtain ⟨P⟩ := cancelAllAndPlace_inv h
    refine P.inv hi (fun o ho => ?_)
    rcases List.mem_append.mp ho with h | h
    · exact (multiOrders_typed hb o h).1
    · exact (multiOrders_typed has o h).1
  | placeTakeOrder c a =>
    simp only [step, bind_ok, pure_ok, placeTakeOrderIx] at h
    obtain ⟨⟨r, s1⟩, ⟨o, ho, h⟩, rfl⟩ := h
    obtain ⟨P⟩ := placeTakeOrder_inv h
    exact (P.fx hi (takeOrder_typed ho)).inv
  | consumeEvents admin limit rem => exact (consumeEvents_Inv hi h).1
  | consumeGivenEvents admin slots rem =>
    simp only [step, consumeGivenEvents, bind_ok, req_ok] at h
    obtain ⟨_, _, h⟩ := h
    exact (consumeEvents_Inv hi h).1
  | cancelOrder signer k id =>
    obtain ⟨_, _, _, _, _, _, _, _, _, hi', _⟩ := cancelOrderIx_res hi h
    exact hi'
  | cancelByClientId signer k client =>
    simp only [step, bind_ok, pure_ok] at h
    obtain ⟨⟨q, s1⟩, h, rfl⟩ := h
    obtain ⟨_, _, _, _, _, _, _, _, _, hi'⟩ := cancelAllFor_res hi (cancelByClientId_inv h).2
    exact hi'
  | cancelAll signer k side limit =>
    obtain ⟨_, q, h⟩ := cancelAll_inv h
    obtain ⟨_, _, _, _, _, _, _, _, _, hi'⟩ := cancelAllFor_res hi h
    exact hi'
  | deposit signer k ub uq now b q =>
    obtain ⟨P⟩ := deposit_inv h
    exact P.inv hi
  | refill signer k ub uq now b q =>
    obtain ⟨a, _, _, _, _, _, h⟩ := refill_inv h
    obtain ⟨P⟩ := deposit_inv h
    exact P.inv hi
  | settleFunds c =>
    obtain ⟨P⟩ := settleCore_inv (settleFunds_inv h).1
    exact P.inv hi
  | settleFundsExpired admin c now =>
    obtain ⟨P⟩ := settleCore_inv (settleFundsExpired_inv h).1
    exact P.inv hi
  | sweepFees admin receiver => exact sweepFees_Inv hi h
  | pruneOrders admin k now limit =>
    obtain ⟨_, _, q, h⟩ := pruneOrders_inv h
    obtain ⟨_, _, _, _, _, _, _, _, _, hi'⟩ := cancelAllFor_res hi h
    exact hi'
  | setMarketExpired admin now =>
    obtain ⟨_, _, h⟩ := setMarketExpired_inv h
    subst h
    have hcfg : SameCfg s.g.market { s.g.market with timeExpiry := -1 } :=
      ⟨rfl, rfl, rfl, rfl, rfl, rfl, rfl, rfl, rfl, rfl, rfl, rfl, rfl, rfl, rfl⟩
    exact hi.ledger (hi.core.market hcfg hi.core.avail rfl rfl rfl rfl) hcfg rfl rfl rfl
  | closeMarket admin now =>
    have P := closeMarket_inv h
    rw [P.res]
    exact ⟨hi.core, hi.vaults, hi.vb, hi.vq⟩
  | createOO k owner d =>
    obtain ⟨_, _, hk, rfl⟩ := createOO_inv h
    exact hi.ledger (hi.core.create hk owner d) (SameCfg.refl _) rfl rfl rfl
  | closeOO k owner =>
    obtain ⟨a, ha, _, he, rfl⟩ := closeOO_inv h
    exact hi.ledger (hi.core.close ha he) (SameCfg.refl _) rfl rfl rfl
  | setDelegate k owner d =>
    obtain ⟨a, ha, _, rfl⟩ := setDelegate_inv h
    obtain ⟨k1, k2, _⟩ := hi.core.linv.acctOk ha
    exact hi.ledger (hi.core.setFree ha (a' := { a with delegate := d }) ⟨rfl, rfl, rfl, rfl⟩ rfl k1 k2 rfl (SameCfg.refl _) rfl rfl rfl rfl rfl)
      (SameCfg.refl _) rfl rfl rfl
  | externalToken k t =>
    obtain ⟨_, _, hv, rfl⟩ := externalToken_inv h
    refine ⟨hi.core, hi.vaults, ?_, ?_⟩
    · by_cases he : s.g.market.marketBaseVault = k
      · obtain ⟨v1, v2, v3⟩ := hv (by unfold Market.isMarketVault; simp [he])
        subst he
        have := hi.vb
        refine ⟨?_, ?_, ?_, this.total⟩ <;> simp only [if_true]
        · rw [v1]; exact this.owner
        · rw [v2]; exact this.mint
        · have := this.le; omega
      · have := hi.vb
        refine ⟨?_, ?_, ?_, this.total⟩ <;> simp only [if_neg he]
        · exact this.owner
        · exact this.mint
        · exact this.le
    · by_cases he : s.g.market.marketQuoteVault = k
      · obtain ⟨v1, v2, v3⟩ := hv (by unfold Market.isMarketVault; simp [he])
        subst he
        have := hi.vq
        refine ⟨?_, ?_, ?_, this.total⟩ <;> simp only [if_true]
        · rw [v1]; exact this.owner
        · rw [v2]; exact this.mint
        · have := this.le; omega
      · have := hi.vq
        refine ⟨?_, ?_, ?_, this.total⟩ <;> simp only [if_neg he]
        · exact this.owner
        · exact this.mint
        · exact this.le
  | externalLamports k x =>
    obtain ⟨_, _, _, rfl⟩ := externalLamports_inv h
    exact ⟨hi.core, hi.vaults, hi.vb, hi.vq⟩

/-! ### creation -/

theorem CreateArgs.check_ok {a : CreateArgs} {now : Int} (h : a.check now = .ok ()) :
    0 < a.quoteLotSize ∧ a.quoteLotSize ≤ i64Max ∧ 0 < a.baseLotSize ∧ a.baseLotSize ≤ i64Max ∧ 0 ≤ a.takerFee ∧ a.takerFee ≤ 1000000 ∧
      -a.takerFee ≤ a.makerFee ∧ a.makerFee ≤ 1000000 ∧ a.baseVault ≠ a.quoteVault ∧ a.baseMint ≠ a.quoteMint ∧
      ¬ (a.oracleA = 0 ∧ a.oracleB ≠ 0) ∧ (a.oracleA ≠ 0 → a.oracleA ≠ a.oracleB) ∧ (a.timeExpiry = 0 ∨ a.timeExpiry > now) := by
  unfold CreateArgs.check at h
  simp only [bind_ok, req_ok] at h
  obtain ⟨_, h1, _, h2, _, h3, _, h4, _, h5, _, h6, _, h7, _, h8, _, h9, h10⟩ := h
  unfold inI64 at h1
  unfold feesScale at h2 h3
  refine ⟨by omega, by omega, by omega, by omega, by omega, by omega, by omega, by omega, h10.2.2.2, h10.1, h9, fun h he => ?_, by omega⟩
  exact h8 ⟨h, by rw [← he]; exact h, he⟩

theorem createMarket_inv {a : CreateArgs} {now : Int} {tokens : Tokens} {lamports : Lamports} {s : State}
    (h : createMarket a now tokens lamports = .ok s) : a.check now = .ok () ∧
    s = { g := { market := a.market, heap := EventHeap.init, accts := [] },
          book := { bids := BookSide.empty .bid, asks := BookSide.empty .ask },
          tokens := fun i =>
            if i = a.baseVault then { owner := a.marketAuthority, mint := a.baseMint, amount := 0 }
            else if i = a.quoteVault then { owner := a.marketAuthority, mint := a.quoteMint, amount := 0 }
            else tokens i,
          lamports, marketKey := a.marketKey, closed := false } := by
  unfold createMarket at h
  simp only [bind_ok, pure_ok] at h
  obtain ⟨_, h1, h⟩ := h
  exact ⟨h1, h.symm⟩

theorem create_Inv {a : CreateArgs} {now : Int} {tokens : Tokens} {lamports : Lamports} {s : State}
    (h : createMarket a now tokens lamports = .ok s) : Inv s := by
  obtain ⟨h1, rfl⟩ := createMarket_inv h
  obtain ⟨c1, c2, c3, c4, c5, c6, c7, c8, c9, _⟩ := CreateArgs.check_ok h1
  have z : inU64 0 := by unfold inU64 u64Max; omega
  refine ⟨⟨⟨fun s => ?_, fun s => ?_⟩, ?_, c3, c1, ⟨c5, c6, by simp only [CreateArgs.market]; omega, c8⟩, z⟩, c9, ?_, ?_⟩
  · cases s
    · exact ⟨_, empty_ok .bid⟩
    · exact ⟨_, empty_ok .ask⟩
  · cases s <;> rfl
  · have hrest : (Book.resting { bids := BookSide.empty .bid, asks := BookSide.empty .ask }) = [] := by
      decide +kernel
    rw [hrest]
    refine ⟨[], [], heapRep_init, List.Perm.refl _, ⟨List.nodup_nil, ?_, ?_, ?_, ?_, List.nodup_nil, List.nodup_nil, rfl, rfl, rfl⟩, ?_⟩
    · exact fun _ hx => nomatch hx
    · exact fun _ hx => nomatch hx
    · intro k a h; cases h
    · exact fun _ hx => nomatch hx
    · exact fun _ hx => nomatch hx
  · refine ⟨?_, ?_, ?_, z⟩ <;> simp [CreateArgs.market]
  · have : a.quoteVault ≠ a.baseVault := Ne.symm c9
    refine ⟨?_, ?_, ?_, z⟩ <;> simp [CreateArgs.market, this]

end OB
