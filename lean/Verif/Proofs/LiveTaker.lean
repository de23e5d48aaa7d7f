import Verif.Proofs.LiveLoop
/-! The taker accounting after matching succeeds. -/
namespace OB
open OB.Spec

theorem ceilTaker_le {tf a : Int} (h0 : 0 ≤ a) (hm : tf ≤ 1000000) : ceilTaker tf a ≤ a := by
  unfold ceilTaker
  have : a * tf ≤ a * 1000000 := Int.mul_le_mul_of_nonneg_left hm h0
  omega

theorem ceilTaker_mul_ge (tf a : Int) : a * tf ≤ ceilTaker tf a * 1000000 := by
  unfold ceilTaker; omega

/-- The price part of what an obligation holds in quote. -/
theorem OblOk.quote_nonneg {m : Market} {o : Obl} (h : OblOk m o) (hq : 0 < m.quoteLotSize) :
    0 ≤ (if o.side = .bid then o.qty * o.lp * m.quoteLotSize else 0) + o.pendQ m := by
  have h1 := h.qty
  have h2 := h.lp
  have hqn : 0 ≤ o.qty * o.lp * m.quoteLotSize := Int.mul_nonneg (Int.mul_nonneg (by omega) (by omega)) (by omega)
  cases o with
  | rest s c l oo => unfold Obl.pendQ; simp only; split <;> omega
  | out e oo => unfold Obl.pendQ; simp only; split <;> omega
  | fill f oo =>
    obtain ⟨p1, p2, p3⟩ := h.fill f oo rfl
    have hr : 0 ≤ f.rebate m := by
      unfold FillEvent.rebate
      split
      · exact Int.le_refl _
      · exact floorRebate_nonneg (Int.mul_nonneg (Int.mul_nonneg (by have : 1 ≤ f.quantity := h1; omega) (by omega)) (by omega))
    have hqn' : 0 ≤ f.quantity * fillLockPrice f * m.quoteLotSize := hqn
    have hpn : 0 ≤ f.quantity * f.price * m.quoteLotSize :=
      Int.mul_nonneg (Int.mul_nonneg (by have : 1 ≤ f.quantity := h1; omega) (by omega)) (by omega)
    unfold Obl.pendQ
    simp only [Obl.side, Obl.qty, Obl.lp]
    have hcase : f.takerSide = .bid ∨ f.takerSide = .ask := by cases f.takerSide <;> simp
    rcases hcase with hs | hs
    · simp [hs, Side.invert, FillEvent.pendQ]; omega
    · have hle : f.quantity * f.price * m.quoteLotSize ≤ f.quantity * fillLockPrice f * m.quoteLotSize :=
        Int.mul_le_mul_of_nonneg_right (Int.mul_le_mul_of_nonneg_left (p3 hs) (by have : 1 ≤ f.quantity := h1; omega)) (by omega)
      simp [hs, Side.invert, FillEvent.pendQ]; omega

/-- The recorded deposits cover the free balances of an account, its locked fees and all referrer rebates. -/
theorem GInv.covers0 {m : Market} {as : Accts} {O : List Obl} {dB dQ : Int} {ex : Pubkey → Int} (h : GInv m as O dB dQ ex)
    (hb : 0 < m.baseLotSize) (hq : 0 < m.quoteLotSize) (hav : 0 ≤ m.feesAvailable) {k : Pubkey} {a : OOA} (ha : as.get? k = some a) :
    a.position.baseFreeNative ≤ m.baseDepositTotal + dB ∧
    a.position.quoteFreeNative + a.position.lockedMakerFees + m.referrerRebatesAccrued ≤ m.quoteDepositTotal + dQ ∧
    a.position.referrerRebatesAvailable ≤ m.referrerRebatesAccrued := by
  have hget : ∀ x ∈ as, as.get? x.1 = some x.2 := fun x hx => acct_get h.nodup hx
  have hB : asum (acctB m) as = asum (fun a => a.position.baseFreeNative) as +
      osum (fun o => if o.side = .ask then o.qty * m.baseLotSize else 0) O := by
    rw [← osum_spread h.nodup h.owner]
    unfold asum
    rw [← sum_add']
    congr 1
    refine List.map_congr_left (fun x hx => ?_)
    have := (h.acct x.1 x.2 (hget x hx)).asks
    unfold acctB
    rw [this]
    have e : osum (cA x.1) O * m.baseLotSize =
        osum (fun o => if o.acct = x.1 then (if o.side = .ask then o.qty * m.baseLotSize else 0) else 0) O := by
      unfold osum
      rw [← sum_mul']
      congr 1
      refine List.map_congr_left (fun o _ => ?_)
      unfold cA
      by_cases h1 : o.acct = x.1 <;> by_cases h2 : o.side = .ask <;> simp [h1, h2]
    rw [e]
  have hQ : asum (acctQ m) as = asum (fun a => a.position.quoteFreeNative + a.position.lockedMakerFees) as + m.referrerRebatesAccrued +
      osum (fun o => if o.side = .bid then o.qty * o.lp * m.quoteLotSize else 0) O := by
    rw [h.refs, ← osum_spread h.nodup h.owner]
    unfold asum
    rw [← sum_add', ← sum_add']
    congr 1
    refine List.map_congr_left (fun x hx => ?_)
    have h1 := (h.acct x.1 x.2 (hget x hx)).quote
    unfold acctQ acctR
    have e : osum (cQ x.1) O * m.quoteLotSize =
        osum (fun o => if o.acct = x.1 then (if o.side = .bid then o.qty * o.lp * m.quoteLotSize else 0) else 0) O := by
      unfold osum
      rw [← sum_mul']
      congr 1
      refine List.map_congr_left (fun o _ => ?_)
      unfold cQ
      by_cases h1 : o.acct = x.1 <;> by_cases h2 : o.side = .bid <;> simp [h1, h2]
    rw [← e, h1]
    beta_reduce
    omega
  have hfree : a.position.baseFreeNative ≤ asum (fun a => a.position.baseFreeNative) as :=
    asum_get_le ha (fun a => a.position.baseFreeNative) (fun x hx => (h.acct x.1 x.2 (hget x hx)).baseFree.1)
  have hfreeQ : a.position.quoteFreeNative + a.position.lockedMakerFees ≤
      asum (fun a => a.position.quoteFreeNative + a.position.lockedMakerFees) as :=
    asum_get_le ha (fun a => a.position.quoteFreeNative + a.position.lockedMakerFees) (fun x hx => by
      have := (h.acct x.1 x.2 (hget x hx)).quoteFree.1
      have := (h.acct x.1 x.2 (hget x hx)).locked.1
      beta_reduce; omega)
  have hr : a.position.referrerRebatesAvailable ≤ asum acctR as :=
    asum_get_le ha acctR (fun x hx => (h.acct x.1 x.2 (hget x hx)).refs.1)
  have sB : osum (fun o => if o.side = .ask then o.qty * m.baseLotSize else 0) O + osum (Obl.pendB m) O = osum (Obl.lockB m) O := by
    unfold osum; rw [← sum_add']; rfl
  have sQ : osum (fun o => if o.side = .bid then o.qty * o.lp * m.quoteLotSize else 0) O + osum (Obl.pendQ m) O =
      osum (fun o => (if o.side = .bid then o.qty * o.lp * m.quoteLotSize else 0) + o.pendQ m) O := by
    unfold osum; rw [← sum_add']
  have n1 : 0 ≤ osum (Obl.lockB m) O := by
    have := sum_le' O (f := fun _ => 0) (g := Obl.lockB m) (fun o ho => ((h.ok o ho).lock_nonneg hb hq).1)
    simpa [osum] using this
  have n2 : 0 ≤ osum (fun o => (if o.side = .bid then o.qty * o.lp * m.quoteLotSize else 0) + o.pendQ m) O := by
    have := sum_le' O (f := fun _ => 0) (g := fun o => (if o.side = .bid then o.qty * o.lp * m.quoteLotSize else 0) + o.pendQ m)
      (fun o ho => (h.ok o ho).quote_nonneg hq)
    simpa [osum] using this
  have b := h.base
  have q := h.quote
  have r := h.refs
  refine ⟨by omega, by omega, by omega⟩

theorem LInv.covers0 {g : Ledger} {L : Rests} {dB dQ : Int} {ex : Pubkey → Int} {n : Nat} (h : LInv g L dB dQ ex n)
    (hb : 0 < g.market.baseLotSize) (hq : 0 < g.market.quoteLotSize) (hav : 0 ≤ g.market.feesAvailable) {k : Pubkey} {a : OOA}
    (ha : g.accts.get? k = some a) :
    a.position.baseFreeNative ≤ g.market.baseDepositTotal + dB ∧
    a.position.quoteFreeNative + a.position.lockedMakerFees + g.market.referrerRebatesAccrued ≤ g.market.quoteDepositTotal + dQ ∧
    a.position.referrerRebatesAvailable ≤ g.market.referrerRebatesAccrued := by
  obtain ⟨O, q, h⟩ := h
  exact h.ginv.covers0 hb hq hav ha

theorem executeTaker_ok {a : OOA} {m : Market} {side : Side} {baseN quoteN fees ref : Int}
    (free : match side with
      | .bid => inU64 (a.position.baseFreeNative + baseN)
      | .ask => inU64 (quoteN - fees) ∧ inU64 (a.position.quoteFreeNative + (quoteN - fees)))
    (vol : 0 ≤ a.position.takerVolume + quoteN ∧ a.position.takerVolume + quoteN ≤ u128Max)
    (href : inU64 (a.position.referrerRebatesAvailable + ref)) (mref : inU64 (m.referrerRebatesAccrued + ref)) :
    a.executeTaker m side baseN quoteN fees ref = .ok ({ a with position := takerPos side a.position baseN quoteN fees ref },
      { m with referrerRebatesAccrued := m.referrerRebatesAccrued + ref }) := by
  unfold OOA.executeTaker
  cases side with
  | bid =>
    simp only [ckU64_eq free.1 free.2, ok_bind, pure_bind']
    simp only [ckU128_eq vol.1 vol.2, ok_bind, ckU64_eq href.1 href.2, ckU64_eq mref.1 mref.2]
    rfl
  | ask =>
    obtain ⟨f1, f2⟩ := free
    simp only [ckU64_eq f1.1 f1.2, ok_bind, ckU64_eq f2.1 f2.2, pure_bind']
    simp only [ckU128_eq vol.1 vol.2, ok_bind, ckU64_eq href.1 href.2, ckU64_eq mref.1 mref.2]
    rfl

section
variable {env : Env} {price : Int} {E : Comp → HL} {own : Rests} {g0 : Ledger} {maxB maxQ B0 Q0 : Int} {n : Nat}

theorem takerAccounting_ok {s : MatchSt} (hE : LoopEnv env E g0 maxQ) (hr : LoopRoom env g0 maxB maxQ B0 Q0)
    (h : LoopI env price E own g0 maxB maxQ B0 Q0 n [] s) (hmb : env.order.maxBaseLots = maxB)
    (hbm : maxB * g0.market.baseLotSize ≤ i64Max) (hown : env.hasOO = true → ∃ a, g0.accts.get? env.owner = some a)
    {c0 tk k0 : Nat} (hb : Budget g0 c0 (tk + 1) k0 s) :
    ∃ baseN quoteN fees ref qt g1, takerAccounting env maxQ s = .ok (baseN, quoteN, fees, ref, qt, g1) ∧
      LRoom g1 (s.limit + c0) tk ∧ g1.heap = s.g.heap ∧ LightFrame s.g g1 := by
  have hcov := h.frame.covered hr.cov
  have hbls := hE.bls
  have hqls := hE.qls
  have ebls := h.frame.bls
  have eqls := h.frame.qls
  have h1 := h.base0; have h2 := h.baseLe; have h3 := h.quote0; have h4 := h.quoteLe
  have h5 := h.decr0; have h6 := h.decrLe; have h7 := h.reb0; have h8 := h.reb
  have hmq := hE.maxQ
  obtain ⟨d1, d2⟩ := h.frame.deposits
  -- amounts
  obtain ⟨bN, ebN⟩ : ∃ bN, (maxB - s.remBase) * g0.market.baseLotSize = bN := ⟨_, rfl⟩
  obtain ⟨qN, eqN⟩ : ∃ qN, (maxQ - s.remQuote) * g0.market.quoteLotSize = qN := ⟨_, rfl⟩
  obtain ⟨wN, ewN⟩ : ∃ wN, (maxQ - s.remQuote - s.decr) * g0.market.quoteLotSize = wN := ⟨_, rfl⟩
  have b0 : 0 ≤ bN := by rw [← ebN]; exact Int.mul_nonneg (by omega) (by omega)
  have q0 : 0 ≤ qN := by rw [← eqN]; exact Int.mul_nonneg (by omega) (by omega)
  have w0 : 0 ≤ wN := by rw [← ewN]; exact Int.mul_nonneg (by omega) (by omega)
  have b1 : bN ≤ i64Max := by
    rw [← ebN]
    exact Int.le_trans (Int.mul_le_mul_of_nonneg_right (by omega) (by omega)) hbm
  have q1 : qN ≤ i64Max := by
    rw [← eqN]
    exact Int.le_trans (Int.mul_le_mul_of_nonneg_right (by omega) (by omega)) hmq
  have w1 : wN ≤ qN := by
    rw [← ewN, ← eqN]
    exact Int.mul_le_mul_of_nonneg_right (by omega) (by omega)
  have hmq' : maxQ ≤ i64Max := by
    have : maxQ * 1 ≤ maxQ * g0.market.quoteLotSize := Int.mul_le_mul_of_nonneg_left (by omega) (by omega)
    omega
  have hmb' := hr.baseMax
  have hmin : i64Min ≤ 0 := by decide
  have hu : i64Max + i64Max ≤ u64Max := by decide
  have hi0 : 0 ≤ i64Max := by decide
  have hi1 : i64Max ≤ u128Max := by decide
  -- fees
  obtain ⟨F, eF⟩ : ∃ F, ceilTaker g0.market.takerFee wN = F := ⟨_, rfl⟩
  have F0 : 0 ≤ F := by rw [← eF]; exact ceilTaker_nonneg w0 hr.cov.fees.t0
  have F1 : F ≤ wN := by rw [← eF]; exact ceilTaker_le w0 hr.cov.fees.t1
  have F2 : s.rebates ≤ F := by
    have x1 := ceilTaker_mul_ge g0.market.takerFee wN
    rw [eF] at x1
    rw [ewN] at h8
    have x2 : wN * max (-g0.market.makerFee) 0 ≤ wN * g0.market.takerFee :=
      Int.mul_le_mul_of_nonneg_left (by have := hr.cov.fees.m0; have := hr.cov.fees.t0; omega) w0
    omega
  have room := hb.room
  have c1 : ((tk + 1 : Nat) : Int) * i64Max = tk * i64Max + i64Max := succ_mul_i64 tk
  have c2 : ((s.limit + c0 + (tk + 1) : Nat) : Int) * i64Max = (s.limit + c0 + tk : Nat) * i64Max + i64Max := succ_mul_i64 _
  have c3 := i64_nonneg_mul tk
  have c4 := i64_nonneg_mul (s.limit + c0 + tk)
  have fe := room.fees
  rw [c2] at fe
  have wo := room.woOo
  rw [c1] at wo
  -- the generic step
  obtain ⟨res, hres⟩ : ∃ res, takerAccounting env maxQ s = res := ⟨_, rfl⟩
  rw [hres]
  unfold takerAccounting at hres
  rw [hmb, ckI64_eq (by omega) (by omega), ok_bind, ckI64_eq (by omega) (by omega), ok_bind, assertR, req_true (by omega), ok_bind,
    assertR, req_true (by omega), ok_bind] at hres
  have ebN' : (maxB - s.remBase) * s.g.market.baseLotSize = bN := by rw [ebls]; exact ebN
  have eqN' : (maxQ - s.remQuote) * s.g.market.quoteLotSize = qN := by rw [eqls]; exact eqN
  have ewN' : (maxQ - s.remQuote - s.decr) * s.g.market.quoteLotSize = wN := by rw [eqls]; exact ewN
  simp only [ebN', eqN'] at hres
  rw [ckI64_eq (by omega) (by omega), ok_bind, ckI64_eq (by omega) (by omega), ok_bind, asU64_eq b0 (by omega), asU64_eq q0 (by omega)] at hres
  split at hres
  · rw [ckI64_eq (by omega) (by omega), ok_bind, ewN', ckI64_eq (by omega) (by omega), ok_bind, asU64_eq w0 (by omega)] at hres
    -- fees
    have hfee : ∃ m1 : Market, (if wN > 0 then do
        let fees ← s.g.market.takerFeesCeil wN
        let ref ← ckU64 (fees - s.rebates)
        let fa ← ckU128 (s.g.market.feesAccrued + ref)
        return (fees, ref, { s.g.market with feesAccrued := fa })
      else .ok (0, 0, s.g.market) : OB.R (Int × Int × Market)) = .ok (F, F - s.rebates, m1) ∧
        m1 = { s.g.market with feesAccrued := s.g.market.feesAccrued + (F - s.rebates) } := by
      by_cases hw : wN > 0
      · rw [if_pos hw]
        obtain ⟨f, hf⟩ := takerFeesCeil_ok (m := s.g.market) w0 (by omega) hcov.fees.t0 hcov.fees.t1
        have ef := takerFeesCeil_inv w0 hcov.fees.t0 hf
        rw [h.frame.taker, eF] at ef
        subst ef
        rw [hf, ok_bind, ckU64_eq (by omega) (by omega), ok_bind, ckU128_eq (by omega) (by omega)]
        exact ⟨_, rfl, rfl⟩
      · rw [if_neg hw]
        have e0 : wN = 0 := by omega
        have eF0 : F = 0 := by omega
        have er0 : s.rebates = 0 := by omega
        refine ⟨_, ?_, rfl⟩
        rw [eF0, er0]; simp
    obtain ⟨m1, hm1, em1⟩ := hfee
    dsimp only at hm1
    rw [hm1, ok_bind] at hres
    simp only at hres
    -- the credit
    have hcredit : ∃ g1, (if env.hasOO then do
        let a ← s.g.accts.get env.owner
        let (a', m2) ← a.executeTaker m1 env.order.side bN qN F (F - s.rebates)
        return { s.g with market := m2, accts := s.g.accts.set env.owner a' }
      else do
        let tv ← ckU128 (m1.takerVolumeWoOo + qN)
        return { s.g with market := { m1 with takerVolumeWoOo := tv } } : OB.R Ledger) = .ok g1 ∧
        LRoom g1 (s.limit + c0) tk ∧ g1.heap = s.g.heap ∧ LightFrame s.g g1 := by
      cases hoo : env.hasOO with
      | false =>
        simp only [Bool.false_eq_true, if_false]
        rw [ckU128_eq (by rw [em1]; simp only; omega) (by rw [em1]; simp only; omega), ok_bind]
        refine ⟨_, rfl, ⟨?_, ?_, ?_, ?_⟩, rfl, LightFrame.refl _⟩
        · intro k a ha
          obtain ⟨x1, x2, x3, x4, x5⟩ := room.accts k a ha
          rw [c1] at x5
          exact ⟨x1, x2, x3, x4, by omega⟩
        · rw [em1]; exact room.volume
        · rw [em1]; constructor <;> simp only <;> omega
        · rw [em1]; constructor <;> simp only <;> omega
      | true =>
        simp only [if_true]
        obtain ⟨a0, ha0⟩ := hown hoo
        obtain ⟨a, ha, _⟩ := hb.light _ a0 ha0
        obtain ⟨x1, x2, x3, x4, x5⟩ := room.accts _ a ha
        rw [c1] at x5
        obtain ⟨v1, v2, v3⟩ := h.linv.covers0 hcov.bls hcov.qls hcov.avail ha
        obtain ⟨u1, u2, u3, u4, _⟩ := h.linv.acctOk ha
        rw [d1] at v1
        rw [d2] at v2
        have rb := hr.base 0 (Int.le_refl _) (by omega)
        have rq := hr.quote (maxQ - s.remQuote) F (by omega) (by omega) h.takenPost F0
          (by rw [← eF, eqN]; exact ceilTaker_mono hr.cov.fees.t0 w1)
        have rq0 := hr.quote 0 0 (Int.le_refl _) (by omega) (fun _ => rfl) (Int.le_refl _) (by rw [Int.zero_mul, ceilTaker_zero]; exact Int.le_refl _)
        have ub := u1.1; have uq := u2.1; have ul := u3.1; have ur := u4.1
        have hx : a.executeTaker m1 env.order.side bN qN F (F - s.rebates) =
            .ok ({ a with position := takerPos env.order.side a.position bN qN F (F - s.rebates) },
              { m1 with referrerRebatesAccrued := m1.referrerRebatesAccrued + (F - s.rebates) }) := by
          have em : m1.referrerRebatesAccrued = s.g.market.referrerRebatesAccrued := by rw [em1]
          unfold inU64 at *
          unfold loopB at v1 rb
          unfold loopQ at v2 rq rq0
          refine executeTaker_ok ?_ ⟨by omega, by omega⟩ ?_ ?_
          · cases hs : env.order.side <;> rw [hs] at v1 v2 rb rq rq0 <;> simp only [ebN, eqN, Int.zero_mul] at v1 v2 rb rq rq0 ⊢
            · unfold inU64; omega
            · unfold inU64; omega
          · cases hs : env.order.side <;> rw [hs] at v1 v2 rb rq rq0 <;> simp only [ebN, eqN, Int.zero_mul] at v1 v2 rb rq rq0 ⊢ <;>
            · unfold inU64; omega
          · rw [em]
            cases hs : env.order.side <;> rw [hs] at v1 v2 rb rq rq0 <;> simp only [ebN, eqN, Int.zero_mul] at v1 v2 rb rq rq0 ⊢ <;>
            · unfold inU64; omega
        rw [(Accts.get_ok).mpr ha, ok_bind, hx, ok_bind]
        refine ⟨_, rfl, ⟨?_, ?_, ?_, ?_⟩, rfl, LightFrame.set ha ?_⟩
        · intro k b hb'
          by_cases hk : k = env.owner
          · subst hk
            simp only at hb'
            rw [Accts.get?_set_self _ ha] at hb'
            injection hb' with hb'; subst hb'
            cases env.order.side <;> simp only [takerPos]
            · exact ⟨⟨x1.bids, x1.asks, x1.quote⟩, x2, x3, by omega, by omega⟩
            · exact ⟨⟨x1.bids, x1.asks, x1.quote⟩, x2, x3, by omega, by omega⟩
          · simp only at hb'
            rw [Accts.get?_set_ne _ hk] at hb'
            obtain ⟨y1, y2, y3, y4, y5⟩ := room.accts k b hb'
            rw [c1] at y5
            exact ⟨y1, y2, y3, y4, by omega⟩
        · rw [em1]; exact room.volume
        · rw [em1]; constructor <;> simp only <;> omega
        · rw [em1]; constructor <;> simp only <;> omega
        · refine SameLocks.lighter ?_
          cases env.order.side <;> exact ⟨rfl, rfl, rfl, rfl⟩
    obtain ⟨g1, hg1, r1, r2, r3⟩ := hcredit
    dsimp only at hg1
    rw [hg1, ok_bind] at hres
    have hlast : res = .ok (bN, qN, F, F - s.rebates, maxQ - s.remQuote, g1) := by
      rw [← hres]
      cases env.order.side with
      | bid => simp only [ckU64_eq (show 0 ≤ qN + F by omega) (by omega), ok_bind]; rfl
      | ask => simp only [ckU64_eq (show 0 ≤ qN - F by omega) (by omega), ok_bind]; rfl
    exact ⟨_, _, _, _, _, _, hlast, r1, r2, r3⟩
  · exact ⟨_, _, _, _, _, _, hres.symm, room.mono (Nat.le_refl _) (Nat.le_succ tk), rfl, LightFrame.refl _⟩

end
end OB
