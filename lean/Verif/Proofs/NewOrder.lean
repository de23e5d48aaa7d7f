import Verif.Proofs.Loop
import Verif.Proofs.Keys
import Verif.Proofs.OrderMapRef
/-! What `new_order` does to the ledger and the book. -/
namespace OB

/-! ### the ledger invariant under changes of balances -/

theorem LInv.mono {g : Ledger} {L : Rests} {dB dQ : Int} {ex : Pubkey → Int} {n n' : Nat} (h : LInv g L dB dQ ex n) (hn : n ≤ n') :
    LInv g L dB dQ ex n' := by
  obtain ⟨O, q, h⟩ := h
  exact ⟨O, q, h.heap, h.kinds, h.ginv, fun x hx => ⟨(h.seq x hx).1, Nat.le_trans (h.seq x hx).2 hn⟩⟩

theorem LInv.market {g : Ledger} {L : Rests} {dB dQ dB' dQ' : Int} {ex : Pubkey → Int} {n : Nat} (h : LInv g L dB dQ ex n)
    {m' : Market} (hm : SameM g.market m')
    (hb : m'.baseDepositTotal + dB' = g.market.baseDepositTotal + dB)
    (hq : m'.quoteDepositTotal + dQ' - m'.feesAvailable = g.market.quoteDepositTotal + dQ - g.market.feesAvailable)
    (hr : m'.referrerRebatesAccrued = g.market.referrerRebatesAccrued) : LInv { g with market := m' } L dB' dQ' ex n := by
  obtain ⟨O, q, h⟩ := h
  exact ⟨O, q, h.heap, h.kinds, h.ginv.market hm hb hq hr, h.seq⟩

theorem LInv.setFree {g : Ledger} {L : Rests} {dB dQ : Int} {ex : Pubkey → Int} {n : Nat} (h : LInv g L dB dQ ex n) {k : Pubkey}
    {a a' : OOA} (ha : g.accts.get? k = some a) (hs : SameLocks a a') {ex' : Pubkey → Int}
    (hex : ∀ j, j ≠ k → ex' j = ex j) (hf : a.position.lockedMakerFees + ex' k ≤ a'.position.lockedMakerFees + ex k)
    (h1 : inU64 a'.position.baseFreeNative) (h2 : inU64 a'.position.quoteFreeNative)
    (h3 : inU64 a'.position.lockedMakerFees) (h4 : inU64 a'.position.referrerRebatesAvailable)
    {m' : Market} (hm : SameM g.market m') {dB' dQ' : Int}
    (hb : m'.baseDepositTotal + dB' - a'.position.baseFreeNative = g.market.baseDepositTotal + dB - a.position.baseFreeNative)
    (hq : m'.quoteDepositTotal + dQ' - m'.feesAvailable - (a'.position.quoteFreeNative + a'.position.lockedMakerFees +
        a'.position.referrerRebatesAvailable) =
      g.market.quoteDepositTotal + dQ - g.market.feesAvailable - (a.position.quoteFreeNative + a.position.lockedMakerFees +
        a.position.referrerRebatesAvailable))
    (hr : m'.referrerRebatesAccrued - a'.position.referrerRebatesAvailable =
      g.market.referrerRebatesAccrued - a.position.referrerRebatesAvailable) :
    LInv { g with market := m', accts := g.accts.set k a' } L dB' dQ' ex' n := by
  obtain ⟨O, q, h⟩ := h
  have := (h.ginv.acct k a ha).fees
  exact ⟨O, q, h.heap, h.kinds, h.ginv.setFree ha hs hex (by omega) h1 h2 h3 h4 hm hb hq hr, h.seq⟩

theorem LInv.acctOk {g : Ledger} {L : Rests} {dB dQ : Int} {ex : Pubkey → Int} {n : Nat} (h : LInv g L dB dQ ex n) {k : Pubkey}
    {a : OOA} (ha : g.accts.get? k = some a) :
    inU64 a.position.baseFreeNative ∧ inU64 a.position.quoteFreeNative ∧ inU64 a.position.lockedMakerFees ∧
      inU64 a.position.referrerRebatesAvailable ∧ a.openOrders.length = 24 := by
  obtain ⟨O, q, h⟩ := h
  have := h.ginv.acct k a ha
  exact ⟨this.baseFree, this.quoteFree, this.locked, this.refs, this.len⟩

theorem LInv.restOk {g : Ledger} {L : Rests} {dB dQ : Int} {ex : Pubkey → Int} {n : Nat} (h : LInv g L dB dQ ex n)
    {s : Side} {c : Comp} {l : LeafNode} (hm : (s, c, l) ∈ L) :
    ∃ oo a, OblOk g.market (.rest s c l oo) ∧ g.accts.get? l.owner = some a ∧ a.openOrders[l.ownerSlot]? = some oo ∧
      seqOf s l.key ≤ n := by
  obtain ⟨A, B, rfl⟩ := List.append_of_mem hm
  obtain ⟨oo, R, q, hw, _⟩ := (h.perm List.perm_middle).takeRest
  obtain ⟨a, ha⟩ := hw.ginv.owner (.rest s c l oo) (by simp)
  have ho := hw.ginv.ok (.rest s c l oo) (by simp)
  refine ⟨oo, a, ho, ha, hw.ginv.link _ (by simp) rfl a ha, ?_⟩
  have := hw.seq (s, l.key) (by
    rw [termIds_cons, if_pos (show (Obl.rest s c l oo).term = true from rfl)]
    have e1 := ho.oside rfl
    have e2 := (ho.rest _ _ _ _ rfl).id
    simp only [Obl.oo, Obl.side] at e1 ⊢
    rw [e1, e2]; simp)
  exact this.2

/-! ### the book -/

structure BookOk (b : Book) : Prop where
  ok : ∀ s, ∃ ot, BSOk (b.side s) ot
  side : ∀ s, (b.side s).side = s

def Book.sideRest (b : Book) (s : Side) : Rests := sideRests s (b.side s).orders

theorem Book.resting_eq (b : Book) : b.resting = b.sideRest .bid ++ b.sideRest .ask := by
  simp [Book.resting, Book.sideRest, sideRests, Book.side, List.append_assoc]

theorem Book.resting_perm (b : Book) (s : Side) : b.resting.Perm (b.sideRest s.invert ++ b.sideRest s) := by
  rw [b.resting_eq]
  cases s with
  | bid => exact List.perm_append_comm
  | ask => exact List.Perm.refl _

theorem Book.side_setSide (b : Book) (s : Side) (x : BookSide) : (b.setSide s x).side s = x := by cases s <;> rfl
theorem Book.side_setSide_invert (b : Book) (s : Side) (x : BookSide) : (b.setSide s.invert x).side s = b.side s := by cases s <;> rfl
theorem Book.side_setSide_invert' (b : Book) (s : Side) (x : BookSide) : (b.setSide s x).side s.invert = b.side s.invert := by
  cases s <;> rfl
theorem side_cases (s t : Side) : t = s ∨ t = s.invert := by cases s <;> cases t <;> simp [Side.invert]
theorem invert_ne (s : Side) : s.invert ≠ s := by cases s <;> decide
theorem invert_invert (s : Side) : s.invert.invert = s := by cases s <;> rfl

theorem BookOk.setSide {b : Book} (h : BookOk b) {s : Side} {x : BookSide} {ot : Comp → Option T} (hx : BSOk x ot) (hs : x.side = s) :
    BookOk (b.setSide s x) := by
  refine ⟨fun t => ?_, fun t => ?_⟩
  · rcases side_cases s t with rfl | rfl
    · rw [Book.side_setSide]; exact ⟨ot, hx⟩
    · rw [Book.side_setSide_invert']; exact h.ok _
  · rcases side_cases s t with rfl | rfl
    · rw [Book.side_setSide]; exact hs
    · rw [Book.side_setSide_invert']; exact h.side _

theorem OT.ord_perm (s : Side) (ot : Option T) : (OT.ord s ot).Perm (OT.leaves ot) := by
  rw [OT.ord_eq]; cases s with
  | bid => exact List.reverse_perm _
  | ask => exact List.Perm.refl _

theorem BSOk.lengths {b : BookSide} {ot : Comp → Option T} (h : BSOk b ot) :
    (OT.leaves (ot .fixed)).length + (OT.leaves (ot .pegged)).length ≤ 1024 := by
  have h1 := (OT.hs_length (ot .fixed)).2.2
  have h2 := (OT.hs_length (ot .pegged)).2.2
  have h3 := h.slab.length_le
  rw [OT.lvs_eq, List.length_map] at h1 h2
  simp only [List.length_append] at h3
  unfold maxOrderTreeNodes at h3
  omega

theorem BSOk.entries {b : BookSide} {ot : Comp → Option T} (h : BSOk b ot) : EntriesOk (fun c => OT.leaves (ot c)) := by
  refine ⟨h.handles, fun c => ?_⟩
  have := h.keys c
  rw [OT.lvs_eq, List.map_map] at this
  exact this

theorem BSOk.orders_fun {b : BookSide} {ot : Comp → Option T} (h : BSOk b ot) : b.orders = fun c => OT.lvs (ot c) := by
  funext c; exact h.orders c

/-! ### taker accounting -/

/-- Accepted fee configuration. -/
structure FeesOk (m : Market) : Prop where
  t0 : 0 ≤ m.takerFee
  t1 : m.takerFee ≤ 1000000
  m0 : -m.takerFee ≤ m.makerFee
  m1 : m.makerFee ≤ 1000000

theorem LFrame.fees {g g' : Ledger} (h : LFrame g g') (hf : FeesOk g.market) : FeesOk g'.market := by
  have e1 := h.maker
  have e2 := h.taker
  exact ⟨by rw [e2]; exact hf.t0, by rw [e2]; exact hf.t1, by rw [e2, e1]; exact hf.m0, by rw [e1]; exact hf.m1⟩

/-- Deposit still owed to the market after the taker has been credited. -/
def takeB (B0 : Int) (side : Side) (hasOO : Bool) (baseN : Int) : Int :=
  match side with
  | .bid => if hasOO then B0 else B0 - baseN
  | .ask => B0 + baseN
def takeQ (Q0 : Int) (side : Side) (hasOO : Bool) (quoteN fees ref : Int) : Int :=
  match side with
  | .bid => if hasOO then Q0 + (quoteN + fees) else Q0 + (quoteN + (fees - ref))
  | .ask => if hasOO then Q0 else Q0 - (quoteN - (fees - ref))

structure TakerRes (env : Env) (g0 : Ledger) (s : MatchSt) (L : Rests) (maxB maxQ B0 Q0 : Int) (n : Nat)
    (baseN quoteN fees ref quoteTaken : Int) (g1 : Ledger) : Prop where
  qt : quoteTaken = maxQ - s.remQuote
  base : baseN = (maxB - s.remBase) * g0.market.baseLotSize
  quote : quoteN = (maxQ - s.remQuote) * g0.market.quoteLotSize
  baseLe : baseN ≤ i64Max
  quoteLe : quoteN ≤ i64Max
  hfees : fees = ceilTaker g0.market.takerFee ((maxQ - s.remQuote - s.decr) * g0.market.quoteLotSize)
  ref0 : 0 ≤ ref
  href : ref = fees - s.rebates
  linv : LInv g1 L (takeB B0 env.order.side env.hasOO baseN) (takeQ Q0 env.order.side env.hasOO quoteN fees ref) (fun _ => 0) n
  frame : LFrame s.g g1
  seq : g1.market.seqNum = s.g.market.seqNum
  heap : g1.heap = s.g.heap
  accrued : g1.market.feesAccrued = s.g.market.feesAccrued + ref
  others : ∀ k, k ≠ env.owner → g1.accts.get? k = s.g.accts.get? k
  noOO : env.hasOO = false → g1.accts = s.g.accts
  owner : env.hasOO = true → ∀ a, s.g.accts.get? env.owner = some a → ∃ a', g1.accts.get? env.owner = some a' ∧
    a'.position.baseFreeNative = a.position.baseFreeNative + (match env.order.side with | .bid => baseN | .ask => 0) ∧
    a'.position.quoteFreeNative = a.position.quoteFreeNative + (match env.order.side with | .bid => 0 | .ask => quoteN - fees) ∧
    a'.position.referrerRebatesAvailable = a.position.referrerRebatesAvailable + ref ∧
    SameLocks a a' ∧ a'.position.lockedMakerFees = a.position.lockedMakerFees

theorem ceilTaker_zero (tf : Int) : ceilTaker tf 0 = 0 := by unfold ceilTaker; simp

/-- What crediting the taker does, given the amounts. -/
theorem LInv.credit {g : Ledger} {L : Rests} {dB dQ : Int} {ex : Pubkey → Int} {n : Nat} (h : LInv g L dB dQ ex n)
    {env : Env} {m1 : Market} (hm1 : ∃ x, m1 = { g.market with feesAccrued := x }) {baseN quoteN fees ref : Int}
    (hacc : m1.feesAccrued = g.market.feesAccrued + ref) (hb0 : 0 ≤ baseN) (hr0 : 0 ≤ ref)
    {g' : Ledger}
    (hg : (if env.hasOO then do
        let a ← g.accts.get env.owner
        let (a', m2) ← a.executeTaker m1 env.order.side baseN quoteN fees ref
        return { g with market := m2, accts := g.accts.set env.owner a' }
      else do
        let tv ← ckU128 (m1.takerVolumeWoOo + quoteN)
        return { g with market := { m1 with takerVolumeWoOo := tv } } : R Ledger) = .ok g') :
    LInv g' L (dB + (if env.hasOO ∧ env.order.side = .bid then baseN else 0))
      (dQ + (if env.hasOO then ref else 0) + (if env.hasOO ∧ env.order.side = .ask then quoteN - fees else 0)) ex n ∧
    LFrame g g' ∧ g'.market.seqNum = g.market.seqNum ∧ g'.heap = g.heap ∧ g'.market.feesAccrued = m1.feesAccrued ∧
    (∀ k, k ≠ env.owner → g'.accts.get? k = g.accts.get? k) ∧ (env.hasOO = false → g'.accts = g.accts) ∧
    (env.hasOO = true → ∀ a, g.accts.get? env.owner = some a → ∃ a', g'.accts.get? env.owner = some a' ∧
      a'.position.baseFreeNative = a.position.baseFreeNative + (match env.order.side with | .bid => baseN | .ask => 0) ∧
      a'.position.quoteFreeNative = a.position.quoteFreeNative + (match env.order.side with | .bid => 0 | .ask => quoteN - fees) ∧
      a'.position.referrerRebatesAvailable = a.position.referrerRebatesAvailable + ref ∧
      SameLocks a a' ∧ a'.position.lockedMakerFees = a.position.lockedMakerFees) := by
  obtain ⟨x, rfl⟩ := hm1
  cases hoo : env.hasOO with
  | false =>
    simp only [hoo, Bool.false_eq_true, if_false, bind_ok, ckU128_ok, pure_ok] at hg
    obtain ⟨_, ⟨_, rfl⟩, rfl⟩ := hg
    refine ⟨?_, ⟨rfl, rfl, fun k a ha => ⟨a, ha, rfl, rfl, Int.le_refl _, Int.le_refl _, rfl⟩, fun _ _ _ => refs_same,
      by simp only at hacc ⊢; omega, by simp only at hacc ⊢; omega⟩, rfl, rfl, rfl, fun _ _ => rfl, fun _ => rfl,
      fun hx => nomatch hx⟩
    simp only [Bool.false_eq_true, if_false, false_and]
    exact h.market ⟨rfl, rfl, rfl⟩ (by simp) (by simp) rfl
  | true =>
    simp only [hoo, if_true, bind_ok, pure_ok, Accts.get_ok] at hg
    obtain ⟨a, ha, ⟨a', m2⟩, hx, rfl⟩ := hg
    have ht := executeTaker_inv hx
    obtain ⟨u1, u2, u3, u4, _⟩ := h.acctOk ha
    have hfree := ht.free
    have hres := ht.res
    have hget : (g.accts.set env.owner a').get? env.owner = some a' := Accts.get?_set_self a' ha
    have hown : a'.position.baseFreeNative = a.position.baseFreeNative + (match env.order.side with | .bid => baseN | .ask => 0) ∧
        a'.position.quoteFreeNative = a.position.quoteFreeNative + (match env.order.side with | .bid => 0 | .ask => quoteN - fees) ∧
        a'.position.referrerRebatesAvailable = a.position.referrerRebatesAvailable + ref ∧
        SameLocks a a' ∧ a'.position.lockedMakerFees = a.position.lockedMakerFees ∧ a'.owner = a.owner ∧
        a'.delegate = a.delegate ∧ a'.position.penaltyHeapCount = a.position.penaltyHeapCount := by
      rw [hres]
      cases env.order.side with
      | bid => exact ⟨rfl, (Int.add_zero _).symm, rfl, ⟨rfl, rfl, rfl, rfl⟩, rfl, rfl, rfl, rfl⟩
      | ask => exact ⟨(Int.add_zero _).symm, rfl, rfl, ⟨rfl, rfl, rfl, rfl⟩, rfl, rfl, rfl, rfl⟩
    obtain ⟨o1, o2, o3, o4, o5, o6, o7, o8⟩ := hown
    have hmm := ht.mkt
    refine ⟨?_, LFrame.setAcct ha o6 o7 ?_ ?_ o8 (.same (by omega) o4.bids o4.asks o4.quote (by rw [hres]; cases env.order.side <;> rfl) o5) (by rw [hmm]) (by rw [hmm]; simp only at hacc ⊢; omega)
      (by rw [hmm]; simp only at hacc ⊢; exact ⟨by omega, Int.le_refl _⟩), by rw [hmm], rfl, by rw [hmm],
      fun k hk => Accts.get?_set_ne a' hk, fun hx => (nomatch hx), ?_⟩
    · refine h.setFree ha o4 (fun _ _ => rfl) (by rw [o5]; omega) ?_ ?_ ?_ ?_ (by rw [hmm]; exact ⟨rfl, rfl, rfl⟩) ?_ ?_ ?_
      · rw [o1]; cases hs : env.order.side with
        | bid => rw [hs] at hfree; exact hfree
        | ask => simpa using u1
      · rw [o2]; cases hs : env.order.side with
        | bid => simpa using u2
        | ask => rw [hs] at hfree; exact hfree.2
      · rw [o5]; exact u3
      · rw [o3]; exact ht.href
      · rw [o1, hmm]; cases env.order.side <;> simp <;> omega
      · rw [o2, o3, o5, hmm]; cases env.order.side <;> simp <;> omega
      · rw [o3, hmm]; simp only; omega
    · rw [o1]; cases env.order.side with
      | bid => simp only; omega
      | ask => simp only; omega
    · rw [o2]; cases hs : env.order.side with
      | bid => simp only; omega
      | ask => rw [hs] at hfree; have := hfree.1.1; simp only; omega
    · intro _ b hb
      rw [ha] at hb; injection hb with hb; subst hb
      exact ⟨a', hget, o1, o2, o3, o4, o5⟩

theorem takerAccounting_res {env : Env} {price : Int} {E : Comp → HL} {own : Rests} {g0 : Ledger} {maxB maxQ B0 Q0 : Int} {n : Nat}
    {s : MatchSt} (hE : LoopEnv env E g0 maxQ) (hfo : FeesOk g0.market) (h : LoopI env price E own g0 maxB maxQ B0 Q0 n [] s)
    (hmb : env.order.maxBaseLots = maxB) {baseN quoteN fees ref qt : Int} {g1 : Ledger}
    (ht : takerAccounting env maxQ s = .ok (baseN, quoteN, fees, ref, qt, g1)) :
    TakerRes env g0 s (sideRests env.order.side.invert (virt E s.changes s.deletes) ++ own) maxB maxQ B0 Q0 n baseN quoteN fees ref qt g1 := by
  unfold takerAccounting at ht
  simp only [bind_ok, ckI64_ok, assertR, req_ok] at ht
  obtain ⟨_, ⟨_, rfl⟩, _, ⟨_, rfl⟩, _, _, _, _, _, ⟨rb, rfl⟩, _, ⟨rq, rfl⟩, ht⟩ := ht
  rw [hmb] at ht rb
  have hbls := hE.bls
  have hqls := hE.qls
  rw [h.frame.bls] at rb
  rw [h.frame.qls] at rq
  have hq0 := h.quoteLe
  have hb0 := h.baseLe
  have eb0 : 0 ≤ (maxB - s.remBase) * g0.market.baseLotSize := Int.mul_nonneg (by omega) (by omega)
  have eq0 : 0 ≤ (maxQ - s.remQuote) * g0.market.quoteLotSize := Int.mul_nonneg (by omega) (by omega)
  have eb : asU64 ((maxB - s.remBase) * s.g.market.baseLotSize) = (maxB - s.remBase) * g0.market.baseLotSize := by
    rw [h.frame.bls]; exact asU64_eq eb0 (by have := rb.2; unfold i64Max at this; unfold u64Max; omega)
  have eq : asU64 ((maxQ - s.remQuote) * s.g.market.quoteLotSize) = (maxQ - s.remQuote) * g0.market.quoteLotSize := by
    rw [h.frame.qls]; exact asU64_eq eq0 (by have := rq.2; unfold i64Max at this; unfold u64Max; omega)
  rw [eb, eq] at ht
  have hreb := h.reb
  have hdl := h.decrLe
  have hd0 := h.decr0
  have hr0 := h.reb0
  have hl := h.linv
  split at ht
  · simp only [bind_ok, ckI64_ok, ok_bind] at ht
    obtain ⟨_, ⟨_, rfl⟩, _, ⟨rw1, rfl⟩, ⟨fees', ref', m1⟩, hfee, g', hg, u, _, hfin⟩ := ht
    rw [pure_ok] at hfin
    cases hfin
    have ew0 : 0 ≤ (maxQ - s.remQuote - s.decr) * g0.market.quoteLotSize := Int.mul_nonneg (by omega) (by omega)
    have ew : asU64 ((maxQ - s.remQuote - s.decr) * s.g.market.quoteLotSize) =
        (maxQ - s.remQuote - s.decr) * g0.market.quoteLotSize := by
      rw [h.frame.qls] at rw1 ⊢
      exact asU64_eq ew0 (by have := rw1.2; unfold i64Max at this; unfold u64Max; omega)
    rw [ew] at hfee
    -- the fee
    have key : fees' = ceilTaker g0.market.takerFee ((maxQ - s.remQuote - s.decr) * g0.market.quoteLotSize) ∧ 0 ≤ ref' ∧
        ref' = fees' - s.rebates ∧ ∃ x, m1 = { s.g.market with feesAccrued := x } ∧ x = s.g.market.feesAccrued + ref' := by
      split at hfee
      · simp only [bind_ok, ckU64_ok, ckU128_ok, pure_ok] at hfee
        obtain ⟨f, hf1, _, ⟨hr1, rfl⟩, _, ⟨_, rfl⟩, hx⟩ := hfee
        cases hx
        have ht0 : 0 ≤ s.g.market.takerFee := by rw [h.frame.taker]; exact hfo.t0
        have := takerFeesCeil_inv ew0 ht0 hf1
        rw [h.frame.taker] at this
        exact ⟨this, hr1.1, rfl, _, rfl, rfl⟩
      · rename_i hz
        cases hfee
        have hz' : (maxQ - s.remQuote - s.decr) * g0.market.quoteLotSize = 0 := by omega
        rw [hz'] at hreb ⊢
        rw [ceilTaker_zero]
        have : s.rebates = 0 := by simp at hreb; omega
        exact ⟨rfl, Int.le_refl _, by omega, _, rfl, (Int.add_zero _).symm⟩
    obtain ⟨k1, k2, k3, x, k4, k5⟩ := key
    obtain ⟨c1, c2, c3, c4, c5, c6, c7, c8⟩ := hl.credit ⟨x, k4⟩ (by rw [k4]; exact k5) eb0 k2 hg
    refine ⟨rfl, rfl, rfl, rb.2, rq.2, k1, k2, k3, ?_, c2, c3, c4, by rw [c5, k4]; exact k5, c6, c7, c8⟩
    have e1 : loopB B0 env.order.side g0.market.baseLotSize (maxB - s.remBase) +
        (if env.hasOO ∧ env.order.side = .bid then (maxB - s.remBase) * g0.market.baseLotSize else 0) =
        takeB B0 env.order.side env.hasOO ((maxB - s.remBase) * g0.market.baseLotSize) := by
      unfold loopB takeB
      cases env.order.side <;> cases env.hasOO <;> simp <;> omega
    have e2 : loopQ Q0 env.order.side g0.market.quoteLotSize (maxQ - s.remQuote) s.rebates + (if env.hasOO then ref' else 0) +
        (if env.hasOO ∧ env.order.side = .ask then (maxQ - s.remQuote) * g0.market.quoteLotSize - fees' else 0) =
        takeQ Q0 env.order.side env.hasOO ((maxQ - s.remQuote) * g0.market.quoteLotSize) fees' ref' := by
      unfold loopQ takeQ
      cases env.order.side <;> cases env.hasOO <;> simp <;> omega
    rw [e1, e2] at c1
    exact c1
  · rename_i hz
    cases ht
    have z1 : maxQ - s.remQuote = 0 := by omega
    have z2 : maxB - s.remBase = 0 := by omega
    have z3 : s.decr = 0 := by omega
    have z4 : s.rebates = 0 := by rw [z1, z3] at hreb; simp at hreb; omega
    refine ⟨rfl, rfl, rfl, rb.2, rq.2, ?_, Int.le_refl _, by omega, ?_, LFrame.refl _, rfl, rfl, (Int.add_zero _).symm,
      fun _ _ => rfl, fun _ => rfl, ?_⟩
    · rw [z1, z3]; simp [ceilTaker_zero]
    · rw [z1, z2, z4] at hl
      rw [z1, z2]
      have e1 : loopB B0 env.order.side g0.market.baseLotSize 0 = takeB B0 env.order.side env.hasOO (0 * g0.market.baseLotSize) := by
        unfold loopB takeB
        cases env.order.side <;> cases env.hasOO <;> simp
      have e2 : loopQ Q0 env.order.side g0.market.quoteLotSize 0 0 = takeQ Q0 env.order.side env.hasOO (0 * g0.market.quoteLotSize) 0 0 := by
        unfold loopQ takeQ
        cases env.order.side <;> cases env.hasOO <;> simp
      rw [e1, e2] at hl
      exact hl
    · intro _ a ha
      refine ⟨a, ha, ?_, ?_, (Int.add_zero _).symm, ⟨rfl, rfl, rfl, rfl⟩, rfl⟩
      · rw [z2]; cases env.order.side <;> simp
      · rw [z1]; cases env.order.side <;> simp

end OB
