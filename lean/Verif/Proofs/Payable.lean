import Verif.Proofs.MarketStep
/-! What an account can claim is covered by the recorded deposits, so settling succeeds. -/
namespace OB

theorem key_sum_f {as : Accts} (hn : (as.map (·.1)).Nodup) {k : Pubkey} {a : OOA} (ha : as.get? k = some a) {f : Pubkey → Int}
    (h0 : ∀ j, 0 ≤ f j) : f k ≤ (as.map (fun x => f x.1)).sum := by
  have := key_sum hn ha (f k)
  rw [← this]
  refine sum_le' _ (fun x _ => ?_)
  split
  · rename_i h; rw [h]; exact Int.le_refl _
  · exact h0 _

/-- Everything that settling an account pays is covered, next to the fees available. -/
theorem GInv.payable {m : Market} {as : Accts} {O : List Obl} {dB dQ : Int} {ex : Pubkey → Int} (h : GInv m as O dB dQ ex)
    (hex : ∀ k, 0 ≤ ex k) (hb : 0 < m.baseLotSize) (hq : 0 < m.quoteLotSize) {k : Pubkey} {a : OOA} (ha : as.get? k = some a) :
    a.position.baseFreeNative ≤ m.baseDepositTotal + dB ∧
    a.position.quoteFreeNative + a.position.referrerRebatesAvailable + ex k + m.feesAvailable ≤ m.quoteDepositTotal + dQ ∧
    a.position.referrerRebatesAvailable ≤ m.referrerRebatesAccrued ∧
    m.referrerRebatesAccrued + m.feesAvailable ≤ m.quoteDepositTotal + dQ := by
  have hget : ∀ x ∈ as, as.get? x.1 = some x.2 := fun x hx => acct_get h.nodup hx
  have hB : asum (acctB m) as = asum (fun a => a.position.baseFreeNative) as +
      osum (fun o => if o.side = .ask then o.qty * m.baseLotSize else 0) O := by
    rw [← osum_spread h.nodup h.owner]
    unfold asum
    rw [← sum_add']
    congr 1
    refine List.map_congr_left (fun x hx => ?_)
    have := (h.acct x.1 x.2 (hget x hx)).asks
    unfold acctB
    rw [this]
    have e : osum (cA x.1) O * m.baseLotSize =
        osum (fun o => if o.acct = x.1 then (if o.side = .ask then o.qty * m.baseLotSize else 0) else 0) O := by
      unfold osum
      rw [← sum_mul']
      congr 1
      refine List.map_congr_left (fun o _ => ?_)
      unfold cA
      by_cases h1 : o.acct = x.1 <;> by_cases h2 : o.side = .ask <;> simp [h1, h2]
    rw [e]
  have hQ : asum (fun a => a.position.quoteFreeNative) as + asum acctR as + (as.map (fun x => ex x.1)).sum +
      osum (fun o => if o.side = .bid then o.qty * o.lp * m.quoteLotSize + o.need m else 0) O ≤ asum (acctQ m) as := by
    rw [← osum_spread h.nodup h.owner]
    unfold asum
    rw [← sum_add', ← sum_add', ← sum_add']
    refine sum_le' _ (fun x hx => ?_)
    have h1 := (h.acct x.1 x.2 (hget x hx)).quote
    have h2 := (h.acct x.1 x.2 (hget x hx)).fees
    unfold acctQ acctR
    have e : osum (cQ x.1) O * m.quoteLotSize + osum (cN m x.1) O =
        osum (fun o => if o.acct = x.1 then (if o.side = .bid then o.qty * o.lp * m.quoteLotSize + o.need m else 0) else 0) O := by
      unfold osum
      rw [← sum_mul', ← sum_add']
      congr 1
      refine List.map_congr_left (fun o _ => ?_)
      unfold cQ cN
      by_cases h1 : o.acct = x.1 <;> by_cases h2 : o.side = .bid <;> simp [h1, h2]
    rw [← e, h1]
    show x.2.position.quoteFreeNative + _ + _ + _ ≤ _
    omega
  have hfree : a.position.baseFreeNative ≤ asum (fun a => a.position.baseFreeNative) as :=
    asum_get_le ha (fun a => a.position.baseFreeNative) (fun x hx => (h.acct x.1 x.2 (hget x hx)).baseFree.1)
  have hfreeQ : a.position.quoteFreeNative ≤ asum (fun a => a.position.quoteFreeNative) as :=
    asum_get_le ha (fun a => a.position.quoteFreeNative) (fun x hx => (h.acct x.1 x.2 (hget x hx)).quoteFree.1)
  have hr : a.position.referrerRebatesAvailable ≤ asum acctR as :=
    asum_get_le ha acctR (fun x hx => (h.acct x.1 x.2 (hget x hx)).refs.1)
  have he := key_sum_f h.nodup ha hex
  have sB : osum (fun o => if o.side = .ask then o.qty * m.baseLotSize else 0) O + osum (Obl.pendB m) O = osum (Obl.lockB m) O := by
    unfold osum; rw [← sum_add']; rfl
  have sQ : osum (fun o => if o.side = .bid then o.qty * o.lp * m.quoteLotSize + o.need m else 0) O + osum (Obl.pendQ m) O =
      osum (Obl.lockQ m) O := by
    unfold osum; rw [← sum_add']; rfl
  have n1 : 0 ≤ osum (Obl.lockB m) O := osum_nonneg (fun o ho => ((h.ok o ho).lock_nonneg hb hq).1)
  have n2 : 0 ≤ osum (Obl.lockQ m) O := osum_nonneg (fun o ho => ((h.ok o ho).lock_nonneg hb hq).2)
  have b := h.base
  have q := h.quote
  have r := h.refs
  have hq0 := (h.acct k a ha).quoteFree.1
  have hex0 := hex k
  refine ⟨by omega, by omega, by omega, by omega⟩

theorem toRefs_nonneg {s : State} (h : Reachable s) : 0 ≤ s.g.market.feesToReferrers := by
  induction h with
  | init a now tokens lamports s h =>
    obtain ⟨_, rfl⟩ := createMarket_inv h
    exact Int.le_refl _
  | step s s' op hs h ih =>
    have hi := reachable_Inv hs
    cases step_mkt hi h with
    | trade avail refs earned up => rw [refs]; exact ih
    | settled c a hop acct res =>
      obtain ⟨_, _, k3, k4, _⟩ := hi.core.linv.acctOk acct
      have : 0 ≤ sweepOf s.g.market a.position := by
        unfold sweepOf; split
        · exact k3.1
        · exact Int.le_refl _
      rw [res]
      simp only [Market.settled]
      have := k4.1
      split <;> omega
    | swept receiver hop res => rw [res]; exact ih
  | again s s' a now hs h ih =>
    obtain ⟨_, _, _, _, rfl⟩ := recreateMarket_inv h
    exact Int.le_refl _

theorem settleAccounting_ok {s : State} (hr : Reachable s) {k : Pubkey} {a : OOA} (ha : s.g.accts.get? k = some a) (hasRef : Bool)
    (hf : hasRef = true → s.g.market.feesToReferrers + a.position.referrerRebatesAvailable + sweepOf s.g.market a.position ≤ u128Max) :
    (∃ x, settleAccounting s.g.market a hasRef = .ok x) ∧
    a.position.quoteFreeNative + (a.position.referrerRebatesAvailable + sweepOf s.g.market a.position) ≤ s.g.market.quoteDepositTotal ∧
    a.position.baseFreeNative ≤ s.g.market.baseDepositTotal ∧ 0 ≤ sweepOf s.g.market a.position := by
  have hi := reachable_Inv hr
  obtain ⟨k1, k2, k3, k4, _⟩ := hi.core.linv.acctOk ha
  have hn := toRefs_nonneg hr
  have hex : ∃ ex : Pubkey → Int, LInv s.g s.book.resting 0 0 ex s.g.market.seqNum ∧ (∀ j, 0 ≤ ex j) ∧
      ex k = sweepOf s.g.market a.position := by
    unfold sweepOf
    split
    · rename_i hc
      refine ⟨_, hi.core.linv.noBids ha hc.2, fun j => ?_, if_pos rfl⟩
      show 0 ≤ if j = k then _ else _
      split
      · exact k3.1
      · exact Int.le_refl _
    · exact ⟨_, hi.core.linv, fun _ => Int.le_refl _, rfl⟩
  obtain ⟨ex, hl, he1, he2⟩ := hex
  obtain ⟨O, q, hw⟩ := hl
  obtain ⟨p1, p2, p3, p4⟩ := hw.ginv.payable he1 hi.core.bls hi.core.qls ha
  rw [he2] at p2
  have hq0 := hi.vq.total
  have hb0 := hi.vb.total
  have hav := hi.core.avail
  have hsw : 0 ≤ sweepOf s.g.market a.position := by rw [← he2]; exact he1 _
  unfold inU64 at *
  refine ⟨?_, by omega, by omega, hsw⟩
  have esw : (if (decide (s.g.market.makerFee > 0 ∧ a.position.bidsBaseLots = 0)) = true then a.position.lockedMakerFees else 0) =
      sweepOf s.g.market a.position := by
    unfold sweepOf; simp only [decide_eq_true_eq]
  have hrr : 0 ≤ s.g.market.referrerRebatesAccrued - a.position.referrerRebatesAvailable ∧
      s.g.market.referrerRebatesAccrued - a.position.referrerRebatesAvailable ≤ u64Max := by
    refine ⟨by omega, ?_⟩
    omega
  unfold settleAccounting
  simp only [esw]
  rw [ckU64_eq (by omega) (by omega)]
  cases hasRef with
  | true =>
    have hf := hf rfl
    simp only [if_true, bind, Except.bind, pure, Except.pure]
    rw [ckU128_eq (by omega) (by omega), ckU64_eq (by omega) (by omega)]
    simp only
    rw [ckU64_eq (by omega) (by omega)]
    simp only
    rw [ckU64_eq (by omega) (by omega)]
    simp only
    rw [ckU64_eq hrr.1 hrr.2]
    exact ⟨_, rfl⟩
  | false =>
    simp only [Bool.false_eq_true, if_false, bind, Except.bind, pure, Except.pure]
    rw [ckU64_eq (by omega) (by omega)]
    simp only
    rw [ckU64_eq (by omega) (by omega)]
    simp only
    rw [ckU64_eq (by omega) (by omega)]
    simp only
    rw [ckU64_eq hrr.1 hrr.2]
    exact ⟨_, rfl⟩

theorem tokenTransfer_ok {t : Tokens} {amt : Int} {src dst auth : Pubkey} (h1 : amt ≤ (t src).amount) (h2 : (t src).mint = (t dst).mint)
    (h3 : (t src).owner = auth) (h4 : 0 ≤ (t dst).amount) (h5 : (t dst).amount + amt ≤ u64Max) :
    ∃ t', tokenTransfer t amt src dst auth = .ok t' := by
  unfold tokenTransfer
  split
  · rename_i hp
    simp only [bind_ok, req_ok]
    split
    · exact ⟨_, (), h1, (), h2, (), h3, rfl⟩
    · refine ⟨(t.setAmount src ((t src).amount - amt)).setAmount dst ((t dst).amount + amt), (), h1, (), h2, (), h3, ?_⟩
      rw [ckU64_eq (by omega) h5]; rfl
  · exact ⟨_, rfl⟩

theorem systemTransfer_ok {l : Lamports} {amt : Int} {src dst : Pubkey} (h1 : amt ≤ l src) (h4 : 0 ≤ l dst) (h5 : l dst + amt ≤ u64Max) :
    ∃ l', systemTransfer l amt src dst = .ok l' := by
  unfold systemTransfer
  split
  · rename_i hp
    simp only [bind_ok, req_ok]
    split
    · exact ⟨_, (), h1, rfl⟩
    · refine ⟨fun i => if i = dst then l dst + amt else if i = src then l src - amt else l i, (), h1, ?_⟩
      rw [ckU64_eq (by omega) h5]; rfl
  · exact ⟨_, rfl⟩

theorem tokenTransfer_ok2 {t : Tokens} {amt : Int} {src dst auth : Pubkey} (h1 : amt ≤ (t src).amount) (h2 : (t src).mint = (t dst).mint)
    (h3 : (t src).owner = auth) (h4 : dst = src ∨ (0 ≤ (t dst).amount ∧ (t dst).amount + amt ≤ u64Max)) :
    ∃ t', tokenTransfer t amt src dst auth = .ok t' := by
  rcases h4 with e | h4
  · unfold tokenTransfer
    split
    · simp only [bind_ok, req_ok]
      rw [if_pos e.symm]
      exact ⟨_, (), h1, (), h2, (), h3, rfl⟩
    · exact ⟨_, rfl⟩
  · exact tokenTransfer_ok h1 h2 h3 h4.1 h4.2

theorem systemTransfer_ok2 {l : Lamports} {amt : Int} {src dst : Pubkey} (h1 : amt ≤ l src) (h4 : src = dst ∨ (0 ≤ l dst ∧ l dst + amt ≤ u64Max)) :
    ∃ l', systemTransfer l amt src dst = .ok l' := by
  rcases h4 with e | h4
  · unfold systemTransfer
    split
    · simp only [bind_ok, req_ok]
      exact ⟨_, (), h1, rfl⟩
    · exact ⟨_, rfl⟩
  · exact systemTransfer_ok h1 h4.1 h4.2

/-- The accounting and transfers of a settlement succeed.  (An account that receives may be the vault itself.) -/
theorem settleCore_ok2 {s : State} (hr : Reachable s) {c : SettleCtx} {a : OOA} (ha : s.g.accts.get? c.ooKey = some a)
    (hm0 : s.g.market.baseMint ≠ 0 ∧ s.g.market.quoteMint ≠ 0)
    (hmB : (s.tokens c.userBase).mint = s.g.market.baseMint) (hmQ : (s.tokens c.userQuote).mint = s.g.market.quoteMint)
    (hmR : ∀ r, c.referrer = some r → (s.tokens r).mint = s.g.market.quoteMint)
    (hB : c.userBase = s.g.market.marketBaseVault ∨
      (0 ≤ (s.tokens c.userBase).amount ∧ (s.tokens c.userBase).amount + a.position.baseFreeNative ≤ u64Max))
    (hQ : c.userQuote = s.g.market.marketQuoteVault ∨ (0 ≤ (s.tokens c.userQuote).amount ∧
      (s.tokens c.userQuote).amount + a.position.quoteFreeNative +
        (a.position.referrerRebatesAvailable + sweepOf s.g.market a.position) ≤ u64Max))
    (hR : ∀ r, c.referrer = some r → r = s.g.market.marketQuoteVault ∨ (0 ≤ (s.tokens r).amount ∧
      (s.tokens r).amount + (a.position.referrerRebatesAvailable + sweepOf s.g.market a.position) ≤ u64Max))
    (hf : c.referrer ≠ none →
      s.g.market.feesToReferrers + a.position.referrerRebatesAvailable + sweepOf s.g.market a.position ≤ u128Max)
    (hL : a.position.penaltyHeapCount ≤ 0 ∨ (a.position.penaltyHeapCount * 500 ≤ s.lamports c.penaltyPayer ∧
      a.position.penaltyHeapCount * 500 ≤ u64Max ∧ (c.penaltyPayer = s.marketKey ∨
        (0 ≤ s.lamports s.marketKey ∧ s.lamports s.marketKey + a.position.penaltyHeapCount * 500 ≤ u64Max)))) :
    ∃ s', settleCore s c = .ok s' := by
  have hi := reachable_Inv hr
  obtain ⟨k1, k2, k3, k4, _⟩ := hi.core.linv.acctOk ha
  obtain ⟨⟨⟨rebate, m', a1⟩, hs⟩, b1, b2, b3⟩ := settleAccounting_ok hr ha c.referrer.isSome (fun h => hf (by
    intro e; rw [e] at h; cases h))
  have hS := settleAccounting_inv hs
  have hreb := hS.rebateEq
  have hmint : s.g.market.baseMint ≠ s.g.market.quoteMint := reachable_mints hr
  have hvb := hi.vb
  have hvq := hi.vq
  unfold inU64 at k1 k2 k4
  -- penalties
  have hpen : ∃ lam, (if a.position.penaltyHeapCount > 0 then do
      let x ← ckU64 (a.position.penaltyHeapCount * penaltyEventHeap)
      systemTransfer s.lamports x c.penaltyPayer s.marketKey
    else .ok s.lamports : R Lamports) = .ok lam := by
    split
    · rename_i hp
      rcases hL with hL | ⟨l1, l2, l3⟩
      · omega
      · unfold penaltyEventHeap
        rw [ckU64_eq (by omega) (by omega)]
        exact systemTransfer_ok2 l1 l3
    · exact ⟨_, rfl⟩
  obtain ⟨lam, hpen⟩ := hpen
  -- rebate
  have ht1 : ∃ t1, (match c.referrer with
      | some k => tokenTransfer s.tokens rebate s.g.market.marketQuoteVault k s.g.market.marketAuthority
      | none => .ok s.tokens : R Tokens) = .ok t1 ∧
      VaultOk t1 s.g.market.marketBaseVault s.g.market.marketAuthority s.g.market.baseMint s.g.market.baseDepositTotal ∧
      VaultOk t1 s.g.market.marketQuoteVault s.g.market.marketAuthority s.g.market.quoteMint (s.g.market.quoteDepositTotal - rebate) ∧
      (t1 c.userBase).mint = s.g.market.baseMint ∧ (t1 c.userQuote).mint = s.g.market.quoteMint ∧
      (t1 c.userBase).amount = (s.tokens c.userBase).amount ∧
      (c.userQuote = s.g.market.marketQuoteVault ∨ (0 ≤ (t1 c.userQuote).amount ∧ (t1 c.userQuote).amount + a.position.quoteFreeNative ≤ u64Max)) := by
    have hr0 : inU64 (s.g.market.quoteDepositTotal - rebate) := by
      have := hvq.total; unfold inU64 at this ⊢; omega
    cases hc : c.referrer with
    | none =>
      refine ⟨s.tokens, rfl, hvb, ⟨hvq.owner, hvq.mint, ?_, hr0⟩, hmB, hmQ, rfl, hQ.imp id (fun h => ⟨h.1, by omega⟩)⟩
      have := hvq.le; omega
    | some r =>
      have r1 := hR r hc
      have hle := hvq.le
      obtain ⟨t1, ht⟩ := tokenTransfer_ok2 (t := s.tokens) (amt := rebate) (src := s.g.market.marketQuoteVault) (dst := r)
        (auth := s.g.market.marketAuthority) (by omega) (by rw [hvq.mint, hmR r hc]) hvq.owner (r1.imp id (fun h => ⟨h.1, by omega⟩))
      have sp := fun k => tokenTransfer_spec ht (by omega) k
      have hne1 : c.userBase ≠ r := by
        intro e; rw [e, hmR r hc] at hmB; exact hmint hmB.symm
      have hne2 : c.userBase ≠ s.g.market.marketQuoteVault := by
        intro e; rw [e, hvq.mint] at hmB; exact hmint hmB.symm
      refine ⟨t1, ht, hvb.wdOther ht (by omega) hi.vaults, hvq.wd ht (by omega) hr0, by rw [(sp _).2.1]; exact hmB, by rw [(sp _).2.1]; exact hmQ, ?_, ?_⟩
      · rw [(sp _).2.2, if_neg hne1, if_neg hne2]; omega
      · by_cases e : c.userQuote = s.g.market.marketQuoteVault
        · exact .inl e
        · right
          rw [(sp _).2.2, if_neg e]
          rcases hQ with hQ | hQ
          · exact absurd hQ e
          · split <;> omega
  obtain ⟨t1, ht1, v1, v2, n1, n2, n3, n4⟩ := ht1
  obtain ⟨t2, ht2⟩ := tokenTransfer_ok2 (t := t1) (amt := a.position.baseFreeNative) (src := s.g.market.marketBaseVault) (dst := c.userBase)
    (auth := s.g.market.marketAuthority) (by have := v1.le; omega) (by rw [v1.mint, n1]) v1.owner (hB.imp id (fun h => by omega))
  have sp := fun k => tokenTransfer_spec ht2 k1.1 k
  have v3 := v2.wdOther ht2 k1.1 (Ne.symm hi.vaults)
  have hne1 : c.userQuote ≠ c.userBase := by
    intro e; rw [e, hmB] at hmQ; exact hmint hmQ
  have hne2 : c.userQuote ≠ s.g.market.marketBaseVault := by
    intro e; rw [e, hvb.mint] at hmQ; exact hmint hmQ
  have ht3 : ∃ t3, tokenTransfer t2 a.position.quoteFreeNative s.g.market.marketQuoteVault c.userQuote s.g.market.marketAuthority = .ok t3 := by
    have hle := v3.le
    rcases n4 with e | ⟨n4, n5⟩
    · rw [e]
      unfold tokenTransfer
      split
      · simp only [bind_ok, req_ok, if_true]
        exact ⟨_, (), (by show a.position.quoteFreeNative ≤ _; omega), (), trivial, (), v3.owner, rfl⟩
      · exact ⟨_, rfl⟩
    · have e1 := (sp c.userQuote).2.2
      rw [if_neg hne1, if_neg hne2] at e1
      refine tokenTransfer_ok (by omega) ?_ v3.owner (by omega) (by omega)
      rw [v3.mint, (sp _).2.1, n2]
  obtain ⟨t3, ht3⟩ := ht3
  have mi : ∀ {k v mint : Pubkey}, (s.tokens k).mint = mint → (s.tokens v).mint = mint → mint ≠ 0 → mintIs s.tokens k v = .ok () := by
    intro k v mint h1 h2 h3
    unfold mintIs; rw [req_ok, h1, h2]; exact ⟨rfl, h3⟩
  have hmr : (match c.referrer with
    | some k => mintIs s.tokens k s.g.market.marketQuoteVault
    | none => .ok () : R Unit) = .ok () := by
    cases hc : c.referrer with
    | none => rfl
    | some r => exact mi (hmR r hc) hvq.mint hm0.2
  unfold settleCore
  simp only [bind_ok, Accts.get_ok]
  exact ⟨_, a, ha, (), mi hmB hvb.mint hm0.1, (), mi hmQ hvq.mint hm0.2, (), hmr, _, hs, lam, hpen, t1, ht1, t2, ht2, t3, ht3, rfl⟩

theorem settleCore_ok {s : State} (hr : Reachable s) {c : SettleCtx} {a : OOA} (ha : s.g.accts.get? c.ooKey = some a)
    (hm0 : s.g.market.baseMint ≠ 0 ∧ s.g.market.quoteMint ≠ 0)
    (hmB : (s.tokens c.userBase).mint = s.g.market.baseMint) (hmQ : (s.tokens c.userQuote).mint = s.g.market.quoteMint)
    (hmR : ∀ r, c.referrer = some r → (s.tokens r).mint = s.g.market.quoteMint)
    (hB : 0 ≤ (s.tokens c.userBase).amount ∧ (s.tokens c.userBase).amount + a.position.baseFreeNative ≤ u64Max)
    (hQ : 0 ≤ (s.tokens c.userQuote).amount ∧ (s.tokens c.userQuote).amount + a.position.quoteFreeNative +
      (a.position.referrerRebatesAvailable + sweepOf s.g.market a.position) ≤ u64Max)
    (hR : ∀ r, c.referrer = some r → 0 ≤ (s.tokens r).amount ∧
      (s.tokens r).amount + (a.position.referrerRebatesAvailable + sweepOf s.g.market a.position) ≤ u64Max)
    (hf : c.referrer ≠ none →
      s.g.market.feesToReferrers + a.position.referrerRebatesAvailable + sweepOf s.g.market a.position ≤ u128Max)
    (hL : a.position.penaltyHeapCount ≤ 0 ∨ (a.position.penaltyHeapCount * 500 ≤ s.lamports c.penaltyPayer ∧
      0 ≤ s.lamports s.marketKey ∧ s.lamports s.marketKey + a.position.penaltyHeapCount * 500 ≤ u64Max)) :
    ∃ s', settleCore s c = .ok s' :=
  settleCore_ok2 hr ha hm0 hmB hmQ hmR (.inr hB) (.inr hQ) (fun r h => .inr (hR r h)) hf
    (hL.imp id (fun h => ⟨h.1, by omega, .inr h.2⟩))

theorem settleFunds_ok {s s' : State} {c : SettleCtx} {a : OOA} (hc : s.closed = false) (ha : s.g.accts.get? c.ooKey = some a)
    (h1 : c.signer ≠ s.g.market.marketAuthority) (h2 : c.penaltyPayer ≠ s.g.market.marketAuthority)
    (h3 : c.signer = a.owner ∨ (a.delegate ≠ 0 ∧ c.signer = a.delegate))
    (h4 : c.signer ≠ a.owner ∨ (a.delegate ≠ 0 ∧ c.signer = a.delegate) →
      (s.tokens c.userBase).owner = a.owner ∧ (s.tokens c.userQuote).owner = a.owner)
    (h : settleCore s c = .ok s') : settleFunds s c = .ok s' := by
  unfold settleFunds State.open? signerOk
  simp only [bind_ok, req_ok, Accts.get_ok]
  refine ⟨(), hc, (), h1, (), h2, a, ha, (), ?_, (), ?_, (), ?_, h⟩
  · unfold OOA.isOwnerOrDelegate
    rcases h3 with e | ⟨e1, e2⟩
    · simp [e]
    · simp [e1, e2]
  · unfold OOA.isSettleDestinationAllowed
    split
    · rename_i hd; simp [(h4 (.inr hd)).1]
    · rename_i hd
      rcases h3 with e | e
      · simp [e]
      · exact absurd e hd
  · unfold OOA.isSettleDestinationAllowed
    split
    · rename_i hd; simp [(h4 (.inr hd)).2]
    · rename_i hd
      rcases h3 with e | e
      · simp [e]
      · exact absurd e hd

end OB
