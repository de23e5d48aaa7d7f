import Verif.Proofs.Wind
import Verif.Proofs.Live
import Verif.Spec.Exact
/-! Lemmas about the exact conditions of success. -/
namespace OB
open Spec

theorem reachable_mints0 {s : State} (h : Reachable s) : s.g.market.baseMint ≠ 0 ∧ s.g.market.quoteMint ≠ 0 := by
  obtain ⟨a, now, h1, h2⟩ := reachable_cfg h
  rw [h2.baseMint, h2.quoteMint]
  unfold CreateArgs.check at h1
  simp only [bind_ok, req_ok] at h1
  obtain ⟨_, _, _, _, _, _, _, _, _, _, _, _, _, _, _, _, _, _, h10⟩ := h1
  exact ⟨h10.2.1, h10.2.2.1⟩

theorem isExpired_iff {s : State} {now : Int} : s.g.market.isExpired now = true ↔ Ended s now := by
  unfold Market.isExpired Ended
  simp only [decide_eq_true_eq]

theorem not_expired_iff {s : State} {now : Int} : s.g.market.isExpired now = false ↔ ¬ Ended s now := by
  rw [← isExpired_iff]; simp

theorem authClose_iff {s : State} {admin : Pubkey} : authClose s admin = .ok () ↔ s.closed = false ∧ IsCloser s admin := by
  unfold authClose State.open? IsCloser
  simp only [bind_ok, req_ok]
  constructor
  · rintro ⟨_, h1, _, h2, h3⟩; exact ⟨h1, h2, h3⟩
  · rintro ⟨h1, h2, h3⟩; exact ⟨(), h1, (), h2, h3⟩

theorem transfer_needs {t t' : Tokens} {n : Int} {src dst auth : Pubkey} (h : tokenTransfer t n src dst auth = .ok t') :
    0 < n → (t src).owner = auth ∧ n ≤ (t src).amount := by
  intro h0
  rcases tokenTransfer_inv h with ⟨h1, _⟩ | ⟨h1, h2, h3, h4, _⟩
  · omega
  · exact ⟨h4, h2⟩

theorem transfer_pays {t : Tokens} {n : Int} {src dst auth : Pubkey} (h : 0 < n → (t src).owner = auth ∧ n ≤ (t src).amount)
    (h2 : (t src).mint = (t dst).mint) (h4 : 0 < n → 0 ≤ (t dst).amount ∧ (t dst).amount + n ≤ u64Max) :
    ∃ t', tokenTransfer t n src dst auth = .ok t' := by
  by_cases h0 : 0 < n
  · exact tokenTransfer_ok (h h0).2 h2 (h h0).1 (h4 h0).1 (h4 h0).2
  · unfold tokenTransfer; rw [if_neg (by omega)]; exact ⟨_, rfl⟩

theorem mintIs_iff {t : Tokens} {k v m : Pubkey} (hv : (t v).mint = m) (hm : m ≠ 0) : mintIs t k v = .ok () ↔ (t k).mint = m := by
  unfold mintIs
  rw [req_ok, hv]
  exact ⟨fun h => h.1, fun h => ⟨h, by rw [h]; exact hm⟩⟩

theorem deposit_exact {s : State} (hr : Reachable s) {signer k ub uq : Pubkey} {now b q : Int} (hb : 0 ≤ b ∧ b ≤ u64Max)
    (hq : 0 ≤ q ∧ q ≤ u64Max) (hs : signer ≠ s.g.market.marketAuthority)
    (hf : SupplyFits s [s.g.market.marketBaseVault, s.g.market.marketQuoteVault, ub, uq]) :
    (∃ s', deposit s signer k ub uq now b q = .ok s') ↔
      s.closed = false ∧ ¬ Ended s now ∧ (∃ a, s.g.accts.get? k = some a) ∧ (s.tokens ub).mint = s.g.market.baseMint ∧
      (s.tokens uq).mint = s.g.market.quoteMint ∧ CanPay s signer ub b ∧ CanPay s signer uq q := by
  have hi := reachable_Inv hr
  obtain ⟨m1, m2⟩ := reachable_mints0 hr
  have hvb := hi.vb
  have hvq := hi.vq
  have hmint := reachable_mints hr
  have M1 : mintIs s.tokens ub s.g.market.marketBaseVault = .ok () ↔ _ := mintIs_iff hvb.mint m1
  have M2 : mintIs s.tokens uq s.g.market.marketQuoteVault = .ok () ↔ _ := mintIs_iff hvq.mint m2
  obtain ⟨f0, f1⟩ := hf
  unfold CanPay tokens
  constructor
  · rintro ⟨s', h⟩
    unfold deposit State.open? signerOk at h
    simp only [bind_ok, req_ok, Accts.get_ok, pure_ok, ckU64_ok] at h
    obtain ⟨_, h1, _, h2, _, h3, _, h11, _, h12, a, ha, _, h4, t1, h5, _, ⟨h6, rfl⟩, _, ⟨h7, rfl⟩, t2, h8, _, ⟨h9, rfl⟩, _, ⟨h10, rfl⟩, h⟩ := h
    have e1 := M1.mp h11
    have e2 := M2.mp h12
    refine ⟨h1, not_expired_iff.mp h4, ⟨a, ha⟩, e1, e2, transfer_needs h5, ?_⟩
    have := transfer_needs h8
    have sp := tokenTransfer_spec h5 hb.1 uq
    have n1 : uq ≠ ub := by rintro rfl; rw [e1] at e2; exact hmint e2
    have n2 : uq ≠ s.g.market.marketBaseVault := by rintro rfl; rw [hvb.mint] at e2; exact hmint e2
    rw [if_neg n1, if_neg n2] at sp
    rw [sp.1, sp.2.2] at this
    simpa using this
  · rintro ⟨h1, h2, ⟨a, ha⟩, e1, e2, p1, p2⟩
    obtain ⟨k1, k2, _⟩ := hi.core.linv.acctOk ha
    obtain ⟨b1, b2, b3⟩ := (settleAccounting_ok hr ha false (fun h => by cases h)).2
    have n1 : uq ≠ ub := by rintro rfl; rw [e1] at e2; exact hmint e2
    have n2 : uq ≠ s.g.market.marketBaseVault := by rintro rfl; rw [hvb.mint] at e2; exact hmint e2
    have n3 : ub ≠ s.g.market.marketQuoteVault := by rintro rfl; rw [hvq.mint] at e1; exact hmint e1.symm
    have R1 : 0 < b → 0 ≤ (s.tokens s.g.market.marketBaseVault).amount ∧ (s.tokens s.g.market.marketBaseVault).amount + b ≤ u64Max := by
      intro h0
      have n0 : ub ≠ s.g.market.marketBaseVault := by
        rintro rfl
        have := (p1 h0).1
        rw [hvb.owner] at this; exact hs this.symm
      have g1 := f0 s.g.market.marketBaseVault (by simp)
      have g2 := f1 s.g.market.marketBaseVault (by simp) ub (by simp) (Ne.symm n0) (by rw [hvb.mint, e1])
      have g3 := (p1 h0).2
      unfold tokens at g1 g2
      omega
    have R2 : 0 < q → 0 ≤ (s.tokens s.g.market.marketQuoteVault).amount ∧ (s.tokens s.g.market.marketQuoteVault).amount + q ≤ u64Max := by
      intro h0
      have n0 : uq ≠ s.g.market.marketQuoteVault := by
        rintro rfl
        have := (p2 h0).1
        rw [hvq.owner] at this; exact hs this.symm
      have g1 := f0 s.g.market.marketQuoteVault (by simp)
      have g2 := f1 s.g.market.marketQuoteVault (by simp) uq (by simp) (Ne.symm n0) (by rw [hvq.mint, e2])
      have g3 := (p2 h0).2
      unfold tokens at g1 g2
      omega
    have le1 := hvb.le
    have le2 := hvq.le
    have t1' := hvb.total
    have t2' := hvq.total
    unfold inU64 at k1 k2 t1' t2'
    have B : a.position.baseFreeNative + b ≤ u64Max ∧ s.g.market.baseDepositTotal + b ≤ u64Max := by
      by_cases h0 : 0 < b
      · have := R1 h0; omega
      · omega
    have Q : a.position.quoteFreeNative + q ≤ u64Max ∧ s.g.market.quoteDepositTotal + q ≤ u64Max := by
      by_cases h0 : 0 < q
      · have := R2 h0; have := (hi.core.linv.acctOk ha).2.2.2.1; unfold inU64 at this; omega
      · omega
    obtain ⟨t1, ht1⟩ := transfer_pays (dst := s.g.market.marketBaseVault) p1 (by rw [hvb.mint, e1]) R1
    have sp := tokenTransfer_spec ht1 hb.1 uq
    have sv := tokenTransfer_spec ht1 hb.1 s.g.market.marketQuoteVault
    rw [if_neg n1, if_neg n2] at sp
    rw [if_neg (Ne.symm n3), if_neg (Ne.symm hi.vaults)] at sv
    obtain ⟨t2, ht2⟩ := transfer_pays (t := t1) (src := uq) (dst := s.g.market.marketQuoteVault) (auth := signer) (n := q)
      (by rw [sp.1, sp.2.2]; simpa using p2) (by rw [sp.2.1, sv.2.1, hvq.mint, e2]) (by rw [sv.2.2]; simpa using R2)
    unfold deposit State.open? signerOk
    simp only [bind_ok, req_ok, Accts.get_ok, pure_ok, ckU64_ok]
    exact ⟨_, (), h1, (), hs, (), ⟨hb.1, hb.2, hq⟩, (), M1.mpr e1, (), M2.mpr e2, a, ha, (), not_expired_iff.mpr h2, t1, ht1, _, ⟨⟨by omega, by omega⟩, rfl⟩, _, ⟨⟨by omega, by omega⟩, rfl⟩,
      t2, ht2, _, ⟨⟨by omega, by omega⟩, rfl⟩, _, ⟨⟨by omega, by omega⟩, rfl⟩, rfl⟩

/-- The common part of the settle instructions. -/
theorem settle_exact {s : State} (hr : Reachable s) {c : SettleCtx} {a : OOA} (ha : s.g.accts.get? c.ooKey = some a)
    (hf : SupplyFits s ([s.g.market.marketBaseVault, s.g.market.marketQuoteVault, c.userBase, c.userQuote] ++ c.referrer.toList))
    (hl : LamportsFit s c.penaltyPayer) (hs : s.g.market.feesToReferrers < 2 ^ 127) :
    (∃ s', settleCore s c = .ok s') ↔ RightAccounts s c a := by
  have hi := reachable_Inv hr
  obtain ⟨m1, m2⟩ := reachable_mints0 hr
  have hvb := hi.vb
  have hvq := hi.vq
  constructor
  · rintro ⟨s', h⟩
    obtain ⟨P⟩ := settleCore_inv h
    have eP : P.a = a := by have := P.acct; rw [ha] at this; injection this with this; exact this.symm
    unfold settleCore at h
    simp only [bind_ok, Accts.get_ok] at h
    obtain ⟨a2, ha2, _, h1, _, h2, _, h3, _⟩ := h
    refine ⟨(mintIs_iff hvb.mint m1).mp h1, (mintIs_iff hvq.mint m2).mp h2, fun r hr => ?_, fun h0 => ?_⟩
    · rw [hr] at h3
      exact (mintIs_iff hvq.mint m2).mp h3
    · have := P.penalty
      rw [eP, if_pos h0] at this
      simp only [bind_ok, ckU64_ok, penaltyEventHeap] at this
      obtain ⟨x, ⟨hx, rfl⟩, h⟩ := this
      unfold systemTransfer at h
      rw [if_pos (by omega)] at h
      simp only [bind_ok, req_ok] at h
      obtain ⟨_, h, _⟩ := h
      omega
  · intro R
    obtain ⟨k1, k2, k3, k4, _⟩ := hi.core.linv.acctOk ha
    obtain ⟨b1, b2, b3⟩ := (settleAccounting_ok hr ha false (fun h => by cases h)).2
    obtain ⟨f0, f1⟩ := hf
    unfold inU64 at k1 k2 k4
    have le1 := hvb.le
    have le2 := hvq.le
    have t2' := hvq.total
    unfold inU64 at t2'
    refine settleCore_ok2 hr ha ⟨m1, m2⟩ R.base R.quote R.referrer ?_ ?_ ?_ ?_ ?_
    · by_cases e : c.userBase = s.g.market.marketBaseVault
      · exact .inl e
      · have g1 := f0 c.userBase (by simp)
        have g2 := f1 s.g.market.marketBaseVault (by simp) c.userBase (by simp) (Ne.symm e) (by rw [hvb.mint, R.base])
        unfold tokens at g1 g2
        right; omega
    · by_cases e : c.userQuote = s.g.market.marketQuoteVault
      · exact .inl e
      · have g1 := f0 c.userQuote (by simp)
        have g2 := f1 s.g.market.marketQuoteVault (by simp) c.userQuote (by simp) (Ne.symm e) (by rw [hvq.mint, R.quote])
        unfold tokens at g1 g2
        right; omega
    · intro r hr'
      by_cases e : r = s.g.market.marketQuoteVault
      · exact .inl e
      · have g1 := f0 r (by simp [hr'])
        have g2 := f1 s.g.market.marketQuoteVault (by simp) r (by simp [hr']) (Ne.symm e) (by rw [hvq.mint, R.referrer r hr'])
        unfold tokens at g1 g2
        right; omega
    · intro _
      have e1 : u128Max = 2 ^ 128 - 1 := by decide
      have e2 : u64Max = 2 ^ 64 - 1 := by decide
      omega
    · by_cases h0 : 0 < a.position.penaltyHeapCount
      · have p := R.penalty h0
        obtain ⟨l1, l2, l3, l4⟩ := hl
        refine .inr ⟨by omega, by omega, ?_⟩
        by_cases e : c.penaltyPayer = s.marketKey
        · exact .inl e
        · have := l4 e
          right; omega
      · exact .inl (by omega)

theorem asum_nonneg0 {f : OOA → Int} {as : Accts} (h : ∀ x ∈ as, 0 ≤ f x.2) : 0 ≤ asum f as := by
  unfold asum
  induction as with
  | nil => exact Int.le_refl _
  | cons x xs ih =>
    have h1 := h x List.mem_cons_self
    have h2 := ih (fun y hy => h y (List.mem_cons_of_mem _ hy))
    rw [List.map_cons, List.sum_cons]; omega

theorem asum_zero_each {f : OOA → Int} {as : Accts} (h0 : ∀ x ∈ as, 0 ≤ f x.2) (h : asum f as = 0) {k : Pubkey} {a : OOA}
    (ha : as.get? k = some a) : f a = 0 := by
  have h1 := asum_get_le ha f h0
  have h2 := h0 (k, a) (by obtain ⟨_, _, h, _⟩ := Accts.split ha; rw [h]; simp)
  have : f a = f (k, a).2 := rfl
  omega

/-- The fees that can be swept are part of the deposits. -/
theorem fees_covered {s : State} (hi : Inv s) : s.g.market.feesAvailable ≤ s.g.market.quoteDepositTotal := by
  obtain ⟨O, q, hl⟩ := hi.core.linv
  have hQ := hl.ginv.quote
  have hR := hl.ginv.refs
  cases hA : s.g.accts with
  | nil =>
    have hO : O = [] := by
      refine List.eq_nil_iff_forall_not_mem.mpr (fun o ho => ?_)
      obtain ⟨a, ha⟩ := hl.ginv.owner o ho
      rw [hA] at ha; cases ha
    rw [hO, hA, osum_nil, asum_nil] at hQ
    omega
  | cons x xs =>
    have hx : s.g.accts.get? x.1 = some x.2 := acct_get hl.ginv.nodup (by rw [hA]; exact List.mem_cons_self)
    obtain ⟨_, _, p3, p4⟩ := hl.ginv.payable (fun _ => Int.le_refl _) hi.core.bls hi.core.qls hx
    have := (hl.ginv.acct _ _ hx).refs.1
    omega

/-- On a market without orders and events, the totals are zero exactly when nothing is owed to anybody. -/
theorem empty_exact {s : State} (hi : Inv s) (hb : s.book.resting = []) (he : s.g.heap.events = []) :
    s.g.market.isEmpty = true ↔ s.g.market.feesAvailable = 0 ∧ ∀ k a, s.g.accts.get? k = some a → NothingOwed a := by
  obtain ⟨t1, t2, t3⟩ := idle_totals hi hb he
  obtain ⟨O, q, hl⟩ := hi.core.linv
  have hO : O = [] := by
    have hk := hl.kinds
    have hq : q = [] := by
      have : q.map (·.2) = [] := by rw [← hl.heap.events]; exact he
      exact List.map_eq_nil_iff.mp this
    rw [hb, hq] at hk
    have := hk.length_eq
    simp [restKs, evKs] at this
    exact this
  have hget : ∀ x ∈ s.g.accts, s.g.accts.get? x.1 = some x.2 := fun x hx => acct_get hl.ginv.nodup hx
  have hz : ∀ x ∈ s.g.accts, acctB s.g.market x.2 = x.2.position.baseFreeNative ∧
      acctQ s.g.market x.2 = x.2.position.quoteFreeNative + x.2.position.lockedMakerFees + x.2.position.referrerRebatesAvailable := by
    intro x hx
    have A := hl.ginv.acct x.1 x.2 (hget x hx)
    have e1 := A.asks
    have e2 := A.quote
    rw [hO, osum_nil] at e1 e2
    unfold acctB acctQ
    rw [e1, e2]
    constructor <;> omega
  unfold Market.isEmpty
  simp only [decide_eq_true_eq]
  have av := hi.core.avail
  unfold inU64 at av
  constructor
  · rintro ⟨h1, h2, h3, h4⟩
    refine ⟨by omega, fun k a ha => ?_⟩
    have hn : ∀ x ∈ s.g.accts, 0 ≤ x.2.position.baseFreeNative ∧ 0 ≤ x.2.position.quoteFreeNative ∧ 0 ≤ x.2.position.lockedMakerFees ∧
        0 ≤ x.2.position.referrerRebatesAvailable := by
      intro x hx
      have A := hl.ginv.acct x.1 x.2 (hget x hx)
      exact ⟨A.baseFree.1, A.quoteFree.1, A.locked.1, A.refs.1⟩
    have hm : (k, a) ∈ s.g.accts := by obtain ⟨_, _, h, _⟩ := Accts.split ha; rw [h]; simp
    have z1 := asum_zero_each (f := acctB s.g.market) (as := s.g.accts) (fun x hx => by rw [(hz x hx).1]; exact (hn x hx).1) (by omega) ha
    have z2 := asum_zero_each (f := acctQ s.g.market) (as := s.g.accts) (fun x hx => by rw [(hz x hx).2]; have := hn x hx; omega)
      (by have : 0 ≤ asum (acctQ s.g.market) s.g.accts := by
            refine asum_nonneg0 (fun y hy => ?_)
            rw [(hz y hy).2]; have := hn y hy; omega
          omega) ha
    have y1 := hz _ hm
    have y2 := hn _ hm
    simp only at y1 y2
    unfold NothingOwed
    omega
  · rintro ⟨h1, h2⟩
    have z1 : asum (acctB s.g.market) s.g.accts = 0 := asum_all_zero (fun x hx => by
      rw [(hz x hx).1]; exact (h2 _ _ (hget x hx)).1)
    have z2 : asum (acctQ s.g.market) s.g.accts = 0 := asum_all_zero (fun x hx => by
      rw [(hz x hx).2]; have := h2 _ _ (hget x hx); unfold NothingOwed at this; omega)
    have z3 : asum acctR s.g.accts = 0 := asum_all_zero (fun x hx => (h2 _ _ (hget x hx)).2.2.2)
    omega

end OB
