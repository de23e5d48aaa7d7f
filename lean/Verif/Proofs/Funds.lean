import Verif.Proofs.Consume
/-! Instructions move funds between accounts, deposit totals and vaults; the ledger invariant is preserved. -/
namespace OB

/-! ### configuration -/

/-- The part of the market account that is never written after creation, except for the expiry time. -/
structure SameCfg (m m' : Market) : Prop where
  authority : m'.marketAuthority = m.marketAuthority
  collect : m'.collectFeeAdmin = m.collectFeeAdmin
  ooAdmin : m'.openOrdersAdmin = m.openOrdersAdmin
  consume : m'.consumeEventsAdmin = m.consumeEventsAdmin
  close : m'.closeMarketAdmin = m.closeMarketAdmin
  oracleA : m'.oracleA = m.oracleA
  oracleB : m'.oracleB = m.oracleB
  qls : m'.quoteLotSize = m.quoteLotSize
  bls : m'.baseLotSize = m.baseLotSize
  maker : m'.makerFee = m.makerFee
  taker : m'.takerFee = m.takerFee
  baseMint : m'.baseMint = m.baseMint
  quoteMint : m'.quoteMint = m.quoteMint
  baseVault : m'.marketBaseVault = m.marketBaseVault
  quoteVault : m'.marketQuoteVault = m.marketQuoteVault

theorem SameCfg.refl (m : Market) : SameCfg m m := ⟨rfl, rfl, rfl, rfl, rfl, rfl, rfl, rfl, rfl, rfl, rfl, rfl, rfl, rfl, rfl⟩

theorem SameCfg.trans {m1 m2 m3 : Market} (h : SameCfg m1 m2) (k : SameCfg m2 m3) : SameCfg m1 m3 :=
  ⟨k.1.trans h.1, k.2.trans h.2, k.3.trans h.3, k.4.trans h.4, k.5.trans h.5, k.6.trans h.6, k.7.trans h.7, k.8.trans h.8,
   k.9.trans h.9, k.10.trans h.10, k.11.trans h.11, k.12.trans h.12, k.13.trans h.13, k.14.trans h.14, k.15.trans h.15⟩

theorem SameCfg.sameM {m m' : Market} (h : SameCfg m m') : SameM m m' := ⟨h.maker, h.bls, h.qls⟩

theorem SameCfg.feesOk {m m' : Market} (h : SameCfg m m') (f : FeesOk m) : FeesOk m' :=
  ⟨by rw [h.taker]; exact f.t0, by rw [h.taker]; exact f.t1, by rw [h.taker, h.maker]; exact f.m0, by rw [h.maker]; exact f.m1⟩

theorem LFrame.sameCfg {g g' : Ledger} (h : LFrame g g') : SameCfg g.market g'.market := by
  rw [h.cfg]; exact ⟨rfl, rfl, rfl, rfl, rfl, rfl, rfl, rfl, rfl, rfl, rfl, rfl, rfl, rfl, rfl⟩

theorem LFrame.base {g g' : Ledger} (h : LFrame g g') : g'.market.baseDepositTotal = g.market.baseDepositTotal := by rw [h.cfg]
theorem LFrame.quote {g g' : Ledger} (h : LFrame g g') : g'.market.quoteDepositTotal = g.market.quoteDepositTotal := by rw [h.cfg]
theorem LFrame.avail {g g' : Ledger} (h : LFrame g g') : g'.market.feesAvailable = g.market.feesAvailable := by rw [h.cfg]
theorem LFrame.toRefs {g g' : Ledger} (h : LFrame g g') : g'.market.feesToReferrers = g.market.feesToReferrers := by rw [h.cfg]
theorem LFrame.expiry {g g' : Ledger} (h : LFrame g g') : g'.market.timeExpiry = g.market.timeExpiry := by rw [h.cfg]

/-! ### the invariant of ledger and book -/

/-- Ledger and book are consistent up to a deposit of `dB`, `dQ` still to be recorded. -/
structure Core (g : Ledger) (book : Book) (dB dQ : Int) : Prop where
  bookOk : BookOk book
  linv : LInv g book.resting dB dQ (fun _ => 0) g.market.seqNum
  bls : 0 < g.market.baseLotSize
  qls : 0 < g.market.quoteLotSize
  fees : FeesOk g.market
  avail : inU64 g.market.feesAvailable

theorem orderMakerFees_ask {env : Env} {book book' : Book} {g g' : Ledger} {r : OrderResult} {R : NewOrderRun env book g r book' g'}
    {ot : Comp → Option T} {B0 Q0 : Int} (h : PlaceRes env book g r book' g' R ot B0 Q0) (hs : env.order.side = .ask) :
    r.makerFees = 0 := by
  rcases R.post with ⟨_, _, _, _, h3, _⟩ | ⟨c', own, outs, hc', _⟩
  · exact h3
  · obtain ⟨own, outs, _, _, _, _, hP⟩ := h.posted c' hc'
    rw [hP.mfEq, if_neg (by rw [hs]; decide)]

theorem Core.newOrder {env : Env} {book book' : Book} {g g' : Ledger} {r : OrderResult} {B0 Q0 : Int} (h : Core g book B0 Q0)
    (ho : OrderOk env.order) (hnt : env.hasOO = false → g.accts.get? env.owner = none)
    (hn : newOrder env book g = .ok (r, book', g')) :
    Core g' book' (r.costB B0 env.order.side env.hasOO) (r.costQ Q0 env.order.side env.hasOO) ∧ LFrame g g' ∧
      ∃ R ot, PlaceRes env book g r book' g' R ot B0 Q0 := by
  obtain ⟨R⟩ := newOrder_inv hn
  obtain ⟨ot, hP⟩ := newOrder_res h.bookOk h.linv h.bls h.qls h.fees ho hnt R
  refine ⟨⟨hP.book, ?_, by rw [hP.frame.bls]; exact h.bls, by rw [hP.frame.qls]; exact h.qls, hP.frame.fees h.fees,
    by rw [hP.frame.avail]; exact h.avail⟩, hP.frame, R, ot, hP⟩
  rw [hP.seq]; exact hP.linv

/-! ### locking free funds -/

def OOA.withQuote (a : OOA) (x : Int) : OOA := { a with position := { a.position with quoteFreeNative := x } }
def OOA.withBase (a : OOA) (x : Int) : OOA := { a with position := { a.position with baseFreeNative := x } }
def OOA.withPenalty (a : OOA) (x : Int) : OOA := { a with position := { a.position with penaltyHeapCount := x } }

/-- Free balance used, amount to deposit. -/
structure LockedQ (g : Ledger) (k : Pubkey) (amt : Int) (g' : Ledger) (dep : Int) (a : OOA) : Prop where
  acct : g.accts.get? k = some a
  dep0 : 0 ≤ dep
  depEq : dep = amt - min amt a.position.quoteFreeNative
  total : inU64 (g.market.quoteDepositTotal + dep)
  res : g' = { g with
    market := { g.market with quoteDepositTotal := g.market.quoteDepositTotal + dep }
    accts := g.accts.set k (a.withQuote (a.position.quoteFreeNative - min amt a.position.quoteFreeNative)) }

theorem lockBid_inv {g g' : Ledger} {k : Pubkey} {amt dep : Int} (h : lockBid g k amt = .ok (g', dep)) :
    ∃ a, LockedQ g k amt g' dep a := by
  unfold lockBid at h
  simp only [bind_ok, pure_ok, ckU64_ok, Accts.get_ok] at h
  obtain ⟨a, ha, _, ⟨h1, rfl⟩, _, ⟨h2, rfl⟩, _, ⟨h3, rfl⟩, h⟩ := h
  injection h with e1 e2
  subst e2
  exact ⟨a, ha, h1.1, rfl, h3, e1.symm⟩

structure LockedB (g : Ledger) (k : Pubkey) (amt : Int) (g' : Ledger) (dep : Int) (a : OOA) : Prop where
  acct : g.accts.get? k = some a
  dep0 : 0 ≤ dep
  depEq : dep = amt - min amt a.position.baseFreeNative
  total : inU64 (g.market.baseDepositTotal + dep)
  res : g' = { g with
    market := { g.market with baseDepositTotal := g.market.baseDepositTotal + dep }
    accts := g.accts.set k (a.withBase (a.position.baseFreeNative - min amt a.position.baseFreeNative)) }

theorem lockAsk_inv {g g' : Ledger} {k : Pubkey} {amt dep : Int} (h : lockAsk g k amt = .ok (g', dep)) :
    ∃ a, LockedB g k amt g' dep a := by
  unfold lockAsk at h
  simp only [bind_ok, pure_ok, ckU64_ok, Accts.get_ok] at h
  obtain ⟨a, ha, _, ⟨h1, rfl⟩, _, ⟨h2, rfl⟩, _, ⟨h3, rfl⟩, h⟩ := h
  injection h with e1 e2
  subst e2
  exact ⟨a, ha, h1.1, rfl, h3, e1.symm⟩

/-- Changing the free balances of one account and the market counters. -/
theorem Core.setFree {g : Ledger} {book : Book} {dB dQ dB' dQ' : Int} (h : Core g book dB dQ) {k : Pubkey} {a a' : OOA}
    (ha : g.accts.get? k = some a) (hs : SameLocks a a') (hf : a'.position.lockedMakerFees = a.position.lockedMakerFees)
    (h1 : inU64 a'.position.baseFreeNative) (h2 : inU64 a'.position.quoteFreeNative)
    (h4 : a'.position.referrerRebatesAvailable = a.position.referrerRebatesAvailable)
    {m' : Market} (hm : SameCfg g.market m') (hav : m'.feesAvailable = g.market.feesAvailable) (hsq : m'.seqNum = g.market.seqNum)
    (hb : m'.baseDepositTotal + dB' - a'.position.baseFreeNative = g.market.baseDepositTotal + dB - a.position.baseFreeNative)
    (hq : m'.quoteDepositTotal + dQ' - a'.position.quoteFreeNative = g.market.quoteDepositTotal + dQ - a.position.quoteFreeNative)
    (hr : m'.referrerRebatesAccrued = g.market.referrerRebatesAccrued) :
    Core { g with market := m', accts := g.accts.set k a' } book dB' dQ' := by
  obtain ⟨_, _, hk3, hk4, _⟩ := h.linv.acctOk ha
  refine ⟨h.bookOk, ?_, by show 0 < m'.baseLotSize; rw [hm.bls]; exact h.bls, by show 0 < m'.quoteLotSize; rw [hm.qls]; exact h.qls,
    hm.feesOk h.fees, by show inU64 m'.feesAvailable; rw [hav]; exact h.avail⟩
  show LInv _ _ _ _ _ m'.seqNum
  rw [hsq]
  exact h.linv.setFree ha hs (fun _ _ => rfl) (by rw [hf]; omega) h1 h2 (by rw [hf]; exact hk3) (by rw [h4]; exact hk4) hm.sameM hb
    (by rw [hav, hf, h4]; omega) (by rw [hr, h4])

theorem Core.lockBid {g g' : Ledger} {book : Book} {dB dQ amt dep : Int} {k : Pubkey} (h : Core g book dB dQ) {a : OOA}
    (hl : LockedQ g k amt g' dep a) (h0 : 0 ≤ amt) : Core g' book dB (dQ - amt) := by
  obtain ⟨k1, k2, _⟩ := h.linv.acctOk hl.acct
  have e := hl.depEq
  rw [hl.res]
  refine h.setFree hl.acct (a' := a.withQuote (a.position.quoteFreeNative - min amt a.position.quoteFreeNative)) ⟨rfl, rfl, rfl, rfl⟩ rfl k1 ?_ rfl (m' := { g.market with
    quoteDepositTotal := g.market.quoteDepositTotal + dep }) ⟨rfl, rfl, rfl, rfl, rfl, rfl, rfl, rfl, rfl, rfl, rfl, rfl, rfl, rfl, rfl⟩
    rfl rfl rfl ?_ rfl
  · unfold inU64 at *; simp only [OOA.withQuote, OOA.withBase]; omega
  · simp only [OOA.withQuote, OOA.withBase]; omega

theorem Core.lockAsk {g g' : Ledger} {book : Book} {dB dQ amt dep : Int} {k : Pubkey} (h : Core g book dB dQ) {a : OOA}
    (hl : LockedB g k amt g' dep a) (h0 : 0 ≤ amt) : Core g' book (dB - amt) dQ := by
  obtain ⟨k1, k2, _⟩ := h.linv.acctOk hl.acct
  have e := hl.depEq
  rw [hl.res]
  refine h.setFree hl.acct (a' := a.withBase (a.position.baseFreeNative - min amt a.position.baseFreeNative)) ⟨rfl, rfl, rfl, rfl⟩ rfl ?_ k2 rfl (m' := { g.market with
    baseDepositTotal := g.market.baseDepositTotal + dep }) ⟨rfl, rfl, rfl, rfl, rfl, rfl, rfl, rfl, rfl, rfl, rfl, rfl, rfl, rfl, rfl⟩
    rfl rfl ?_ rfl rfl
  · unfold inU64 at *; simp only [OOA.withQuote, OOA.withBase]; omega
  · simp only [OOA.withQuote, OOA.withBase]; omega

theorem addPenalty_inv {g g' : Ledger} {k : Pubkey} {n : Nat} (h : addPenalty g k n = .ok g') :
    g' = g ∨ ∃ a, g.accts.get? k = some a ∧ inU64 (a.position.penaltyHeapCount + 1) ∧ g.heap.len > n ∧
      g' = { g with accts := g.accts.set k (a.withPenalty (a.position.penaltyHeapCount + 1)) } := by
  unfold addPenalty at h
  split at h
  · simp only [bind_ok, pure_ok, ckU64_ok, Accts.get_ok] at h
    obtain ⟨a, ha, _, ⟨h1, rfl⟩, h⟩ := h
    exact .inr ⟨a, ha, h1, by assumption, h.symm⟩
  · cases h; exact .inl rfl

theorem Core.addPenalty {g g' : Ledger} {book : Book} {dB dQ : Int} {k : Pubkey} {n : Nat} (h : Core g book dB dQ)
    (hp : addPenalty g k n = .ok g') : Core g' book dB dQ ∧ g'.market = g.market := by
  rcases addPenalty_inv hp with rfl | ⟨a, ha, _, _, rfl⟩
  · exact ⟨h, rfl⟩
  · obtain ⟨k1, k2, _⟩ := h.linv.acctOk ha
    exact ⟨h.setFree ha (a' := a.withPenalty (a.position.penaltyHeapCount + 1)) ⟨rfl, rfl, rfl, rfl⟩ rfl k1 k2 rfl (SameCfg.refl _) rfl rfl rfl rfl rfl, rfl⟩

/-- The amount the owner has to provide. -/
def OrderResult.cost (side : Side) (r : OrderResult) : Int :=
  match side with
  | .bid => r.totalQuoteTakenNative + r.postedQuoteNative + r.takerFees + r.makerFees
  | .ask => r.totalBaseTakenNative + r.postedBaseNative

theorem orderCost_inv {side : Side} {r : OrderResult} {c : Int} (h : orderCost side r = .ok c) :
    0 ≤ c ∧ c ≤ u64Max ∧ c = r.cost side := by
  unfold orderCost at h
  cases side with
  | bid =>
    simp only [bind_ok, ckU64_ok] at h
    obtain ⟨_, ⟨_, rfl⟩, _, ⟨_, rfl⟩, h1, rfl⟩ := h
    exact ⟨h1.1, h1.2, rfl⟩
  | ask =>
    simp only [ckU64_ok] at h
    obtain ⟨h1, rfl⟩ := h
    exact ⟨h1.1, h1.2, rfl⟩

/-! ### tokens -/

theorem tokenTransfer_inv {t t' : Tokens} {amt : Int} {src dst auth : Pubkey} (h : tokenTransfer t amt src dst auth = .ok t') :
    (amt ≤ 0 ∧ t' = t) ∨ (0 < amt ∧ amt ≤ (t src).amount ∧ (t src).mint = (t dst).mint ∧ (t src).owner = auth ∧
      ((src = dst ∧ t' = t) ∨ (src ≠ dst ∧ inU64 ((t dst).amount + amt) ∧
        t' = (t.setAmount src ((t src).amount - amt)).setAmount dst ((t dst).amount + amt)))) := by
  unfold tokenTransfer at h
  split at h
  · rename_i hp
    simp only [bind_ok, req_ok] at h
    obtain ⟨_, h1, _, h2, _, h3, h⟩ := h
    refine .inr ⟨by omega, h1, h2, h3, ?_⟩
    split at h
    · rename_i he; cases h; exact .inl ⟨he, rfl⟩
    · rename_i he
      simp only [bind_ok, pure_ok, ckU64_ok] at h
      obtain ⟨_, ⟨h4, rfl⟩, h⟩ := h
      exact .inr ⟨he, h4, h.symm⟩
  · rename_i hp; cases h; exact .inl ⟨by omega, rfl⟩

/-- The effect of a transfer on every token account. -/
theorem tokenTransfer_spec {t t' : Tokens} {amt : Int} {src dst auth : Pubkey} (h : tokenTransfer t amt src dst auth = .ok t')
    (h0 : 0 ≤ amt) (k : Pubkey) :
    (t' k).owner = (t k).owner ∧ (t' k).mint = (t k).mint ∧
      (t' k).amount = (t k).amount + (if k = dst then amt else 0) - (if k = src then amt else 0) := by
  rcases tokenTransfer_inv h with ⟨h1, rfl⟩ | ⟨h1, h2, h3, h4, ⟨rfl, rfl⟩ | ⟨h5, h6, rfl⟩⟩
  · refine ⟨rfl, rfl, ?_⟩
    have : amt = 0 := by omega
    subst this; simp
  · refine ⟨rfl, rfl, ?_⟩
    split <;> omega
  · unfold Tokens.setAmount
    by_cases e1 : k = dst
    · subst e1
      simp only [if_true, if_neg (Ne.symm h5)]
      exact ⟨trivial, trivial, by omega⟩
    · by_cases e2 : k = src
      · subst e2
        simp only [if_true, if_neg e1]
        exact ⟨trivial, trivial, by omega⟩
      · simp only [if_neg e1, if_neg e2]
        exact ⟨trivial, trivial, by omega⟩

/-- A vault holds at least what is recorded. -/
structure VaultOk (t : Tokens) (k auth mint : Pubkey) (total : Int) : Prop where
  owner : (t k).owner = auth
  mint : (t k).mint = mint
  le : total ≤ (t k).amount
  total : inU64 total

theorem VaultOk.transfer {t t' : Tokens} {k auth mint : Pubkey} {total total' : Int} (h : VaultOk t k auth mint total)
    {amt : Int} {src dst au : Pubkey} (ht : tokenTransfer t amt src dst au = .ok t') (h0 : 0 ≤ amt) (hr : inU64 total')
    (hle : total' + (if k = src then amt else 0) ≤ total + (if k = dst then amt else 0)) : VaultOk t' k auth mint total' := by
  obtain ⟨s1, s2, s3⟩ := tokenTransfer_spec ht h0 k
  refine ⟨s1.trans h.owner, s2.trans h.mint, ?_, hr⟩
  rw [s3]; have := h.le; omega

/-- A deposit by a user into the vault. -/
theorem VaultOk.dep {t t' : Tokens} {k auth mint : Pubkey} {total : Int} (h : VaultOk t k auth mint total)
    {amt : Int} {src signer : Pubkey} (ht : tokenTransfer t amt src k signer = .ok t') (h0 : 0 ≤ amt) (hr : inU64 (total + amt))
    (hs : signer ≠ auth) : VaultOk t' k auth mint (total + amt) := by
  rcases tokenTransfer_inv ht with ⟨h1, rfl⟩ | ⟨h1, h2, h3, h4, _⟩
  · have : amt = 0 := by omega
    subst this; rw [Int.add_zero]; exact h
  · have hne : k ≠ src := by rintro rfl; exact hs (h4.symm.trans h.owner)
    exact h.transfer ht h0 hr (by rw [if_neg hne, if_pos rfl]; omega)

/-- A deposit by a user into another account. -/
theorem VaultOk.depOther {t t' : Tokens} {k auth mint : Pubkey} {total : Int} (h : VaultOk t k auth mint total)
    {amt : Int} {src dst signer : Pubkey} (ht : tokenTransfer t amt src dst signer = .ok t') (h0 : 0 ≤ amt)
    (hs : signer ≠ auth) : VaultOk t' k auth mint total := by
  rcases tokenTransfer_inv ht with ⟨h1, rfl⟩ | ⟨h1, h2, h3, h4, _⟩
  · exact h
  · have hne : k ≠ src := by rintro rfl; exact hs (h4.symm.trans h.owner)
    exact h.transfer ht h0 h.total (by rw [if_neg hne]; split <;> omega)

/-- A withdrawal from the vault. -/
theorem VaultOk.wd {t t' : Tokens} {k auth mint : Pubkey} {total : Int} (h : VaultOk t k auth mint total)
    {amt : Int} {dst au : Pubkey} (ht : tokenTransfer t amt k dst au = .ok t') (h0 : 0 ≤ amt) (hr : inU64 (total - amt)) :
    VaultOk t' k auth mint (total - amt) :=
  h.transfer ht h0 hr (by rw [if_pos rfl]; split <;> omega)

/-- A withdrawal from another account. -/
theorem VaultOk.wdOther {t t' : Tokens} {k auth mint : Pubkey} {total : Int} (h : VaultOk t k auth mint total)
    {amt : Int} {src dst au : Pubkey} (ht : tokenTransfer t amt src dst au = .ok t') (h0 : 0 ≤ amt) (hne : k ≠ src) :
    VaultOk t' k auth mint total :=
  h.transfer ht h0 h.total (by rw [if_neg hne]; split <;> omega)

end OB
