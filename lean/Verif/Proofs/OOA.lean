import Verif.Proofs.Basic
import Verif.Proofs.Accts
import Verif.Proofs.Fees
/-! Inversion of the open orders account functions. -/
namespace OB

def inI64' (x : Int) : Prop := i64Min ≤ x ∧ x ≤ i64Max
def inU64 (x : Int) : Prop := 0 ≤ x ∧ x ≤ u64Max

/-- Position after an order of `q` lots locked at `lp` is taken out. -/
def relPos (side : Side) (p : Position) (q lp : Int) : Position :=
  match side with
  | .bid => { p with bidsBaseLots := p.bidsBaseLots - q, bidsQuoteLots := p.bidsQuoteLots - q * lp }
  | .ask => { p with asksBaseLots := p.asksBaseLots - q }

/-- Position after funds of a cancelled order are freed. -/
def freePos (side : Side) (p : Position) (baseN quoteN fees : Int) : Position :=
  match side with
  | .bid => { p with quoteFreeNative := p.quoteFreeNative + (quoteN + fees), lockedMakerFees := p.lockedMakerFees - fees }
  | .ask => { p with baseFreeNative := p.baseFreeNative + baseN }

theorem openOrder_ok {a : OOA} {slot : Nat} {oo : OpenOrder} : a.openOrder slot = .ok oo ↔ a.openOrders[slot]? = some oo :=
  unwrapR_ok

structure RemoveRun (a : OOA) (slot : Nat) (q lp : Int) (a' : OOA) (oo : OpenOrder) : Prop where
  hslot : a.openOrders[slot]? = some oo
  used : oo.isFree = false
  res : a' = { a with position := relPos oo.side a.position q lp, openOrders := a.openOrders.set slot OpenOrder.default }
  range : match oo.side with
    | .bid => inI64' (a.position.bidsBaseLots - q) ∧ inI64' (q * lp) ∧ inI64' (a.position.bidsQuoteLots - q * lp)
    | .ask => inI64' (a.position.asksBaseLots - q)

theorem removeOrder_inv {a a' : OOA} {slot : Nat} {q lp : Int} (h : a.removeOrder slot q lp = .ok a') :
    ∃ oo, RemoveRun a slot q lp a' oo := by
  unfold OOA.removeOrder at h
  simp only [bind_ok, assertR, req_ok, pure_ok, openOrder_ok] at h
  obtain ⟨oo, h1, _, h2, p', h3, rfl⟩ := h
  refine ⟨oo, h1, h2, ?_, ?_⟩
  · cases hs : oo.side <;>
    · simp only [hs, bind_ok, ckI64_ok, pure_ok] at h3
      unfold relPos
      first
      | obtain ⟨_, ⟨_, rfl⟩, _, ⟨_, rfl⟩, _, ⟨_, rfl⟩, rfl⟩ := h3; rfl
      | obtain ⟨_, ⟨_, rfl⟩, rfl⟩ := h3; rfl
  · cases hs : oo.side <;>
    · simp only [hs, bind_ok, ckI64_ok, pure_ok] at h3
      first
      | obtain ⟨_, ⟨r1, rfl⟩, _, ⟨r2, rfl⟩, _, ⟨r3, rfl⟩, rfl⟩ := h3; exact ⟨r1, r2, r3⟩
      | obtain ⟨_, ⟨r1, rfl⟩, rfl⟩ := h3; exact r1

theorem removeOrder_ok {a : OOA} {slot : Nat} {q lp : Int} {oo : OpenOrder} (h1 : a.openOrders[slot]? = some oo)
    (h2 : oo.isFree = false) (h3 : match oo.side with
      | .bid => inI64' (a.position.bidsBaseLots - q) ∧ inI64' (q * lp) ∧ inI64' (a.position.bidsQuoteLots - q * lp)
      | .ask => inI64' (a.position.asksBaseLots - q)) :
    a.removeOrder slot q lp =
      .ok { a with position := relPos oo.side a.position q lp, openOrders := a.openOrders.set slot OpenOrder.default } := by
  unfold OOA.removeOrder
  rw [openOrder_ok.mpr h1]
  simp only [ok_bind]
  rw [show assertR (oo.isFree = false) = .ok () from req_true h2]
  simp only [ok_bind]
  cases hs : oo.side with
  | bid =>
    rw [hs] at h3
    obtain ⟨r1, r2, r3⟩ := h3
    simp only [ckI64_eq r1.1 r1.2, ckI64_eq r2.1 r2.2, ok_bind, ckI64_eq r3.1 r3.2]
    rfl
  | ask =>
    rw [hs] at h3
    simp only [ckI64_eq h3.1 h3.2, ok_bind]
    rfl

structure CancelRun (a : OOA) (slot : Nat) (q : Int) (m : Market) (a' : OOA) (oo : OpenOrder) (fees : Int) : Prop where
  hslot : a.openOrders[slot]? = some oo
  used : oo.isFree = false
  rb : inI64' (q * m.baseLotSize)
  rl : inI64' (q * oo.lockedPrice)
  rq : inI64' (q * oo.lockedPrice * m.quoteLotSize)
  hfees : m.makerFeesCeilU (asU64 (q * oo.lockedPrice * m.quoteLotSize)) = .ok fees
  free : match oo.side with
    | .bid => inU64 (asU64 (q * oo.lockedPrice * m.quoteLotSize) + fees) ∧
        inU64 (a.position.quoteFreeNative + (asU64 (q * oo.lockedPrice * m.quoteLotSize) + fees)) ∧
        inU64 (a.position.lockedMakerFees - fees)
    | .ask => inU64 (a.position.baseFreeNative + asU64 (q * m.baseLotSize))
  range : match oo.side with
    | .bid => inI64' (a.position.bidsBaseLots - q) ∧ inI64' (a.position.bidsQuoteLots - q * oo.lockedPrice)
    | .ask => inI64' (a.position.asksBaseLots - q)
  res : a' = { a with
    position := relPos oo.side (freePos oo.side a.position (asU64 (q * m.baseLotSize))
      (asU64 (q * oo.lockedPrice * m.quoteLotSize)) fees) q oo.lockedPrice
    openOrders := a.openOrders.set slot OpenOrder.default }

theorem cancelOrder_inv {a a' : OOA} {slot : Nat} {q : Int} {m : Market} (h : a.cancelOrder slot q m = .ok a') :
    ∃ oo fees, CancelRun a slot q m a' oo fees := by
  unfold OOA.cancelOrder at h
  simp only [bind_ok, ckI64_ok, openOrder_ok] at h
  obtain ⟨oo, h1, _, ⟨h2, rfl⟩, _, ⟨h3, rfl⟩, _, ⟨h4, rfl⟩, fees, h5, p', h6, h7⟩ := h
  obtain ⟨oo', hr⟩ := removeOrder_inv h7
  have hoo : oo' = oo := by have := hr.hslot; simp only [h1, Option.some.injEq] at this; exact this.symm
  subst hoo
  have hrange := hr.range
  have hres := hr.res
  refine ⟨oo', fees, h1, hr.used, h2, h3, h4, h5, ?_, ?_, ?_⟩
  · cases hs : oo'.side with
    | bid =>
      simp only [hs, bind_ok, ckU64_ok, pure_ok] at h6
      obtain ⟨_, ⟨r1, rfl⟩, _, ⟨r2, rfl⟩, _, ⟨r3, rfl⟩, _⟩ := h6
      exact ⟨r1, r2, r3⟩
    | ask =>
      simp only [hs, bind_ok, ckU64_ok, pure_ok] at h6
      obtain ⟨_, ⟨r1, rfl⟩, _⟩ := h6
      exact r1
  · cases hs : oo'.side with
    | bid =>
      simp only [hs, bind_ok, ckU64_ok, pure_ok] at h6 hrange
      obtain ⟨_, ⟨r1, rfl⟩, _, ⟨r2, rfl⟩, _, ⟨r3, rfl⟩, rfl⟩ := h6
      exact ⟨hrange.1, hrange.2.2⟩
    | ask =>
      simp only [hs, bind_ok, ckU64_ok, pure_ok] at h6 hrange
      obtain ⟨_, ⟨r1, rfl⟩, rfl⟩ := h6
      exact hrange
  · rw [hres]
    cases hs : oo'.side with
    | bid =>
      simp only [hs, bind_ok, ckU64_ok, pure_ok] at h6
      obtain ⟨_, ⟨r1, rfl⟩, _, ⟨r2, rfl⟩, _, ⟨r3, rfl⟩, rfl⟩ := h6
      rfl
    | ask =>
      simp only [hs, bind_ok, ckU64_ok, pure_ok] at h6
      obtain ⟨_, ⟨r1, rfl⟩, rfl⟩ := h6
      rfl

theorem cancelOrder_ok {a : OOA} {slot : Nat} {q : Int} {m : Market} {oo : OpenOrder} {fees : Int}
    (h1 : a.openOrders[slot]? = some oo) (h2 : oo.isFree = false) (rb : inI64' (q * m.baseLotSize))
    (rl : inI64' (q * oo.lockedPrice)) (rq : inI64' (q * oo.lockedPrice * m.quoteLotSize))
    (hf : m.makerFeesCeilU (asU64 (q * oo.lockedPrice * m.quoteLotSize)) = .ok fees)
    (free : match oo.side with
    | .bid => inU64 (asU64 (q * oo.lockedPrice * m.quoteLotSize) + fees) ∧
        inU64 (a.position.quoteFreeNative + (asU64 (q * oo.lockedPrice * m.quoteLotSize) + fees)) ∧
        inU64 (a.position.lockedMakerFees - fees)
    | .ask => inU64 (a.position.baseFreeNative + asU64 (q * m.baseLotSize)))
    (range : match oo.side with
    | .bid => inI64' (a.position.bidsBaseLots - q) ∧ inI64' (a.position.bidsQuoteLots - q * oo.lockedPrice)
    | .ask => inI64' (a.position.asksBaseLots - q)) :
    ∃ a', a.cancelOrder slot q m = .ok a' := by
  unfold OOA.cancelOrder
  rw [openOrder_ok.mpr h1]
  simp only [ok_bind]
  rw [ckI64_eq rb.1 rb.2]
  simp only [ok_bind]
  rw [ckI64_eq rl.1 rl.2]
  simp only [ok_bind]
  rw [ckI64_eq rq.1 rq.2]
  simp only [ok_bind]
  rw [hf]
  simp only [ok_bind]
  cases hs : oo.side with
  | bid =>
    rw [hs] at free range
    obtain ⟨r1, r2, r3⟩ := free
    simp only [ckU64_eq r1.1 r1.2, ok_bind, ckU64_eq r2.1 r2.2, ckU64_eq r3.1 r3.2, pure_bind']
    refine ⟨_, removeOrder_ok (oo := oo) h1 h2 ?_⟩
    rw [hs]
    exact ⟨range.1, rl, range.2⟩
  | ask =>
    rw [hs] at free range
    simp only [ckU64_eq free.1 free.2, ok_bind, pure_bind']
    refine ⟨_, removeOrder_ok (oo := oo) h1 h2 ?_⟩
    rw [hs]
    exact range

/-- Position after an order is added. -/
def addPos (side : Side) (p : Position) (q lp : Int) : Position :=
  match side with
  | .bid => { p with bidsBaseLots := p.bidsBaseLots + q, bidsQuoteLots := p.bidsQuoteLots + q * lp }
  | .ask => { p with asksBaseLots := p.asksBaseLots + q }

structure AddRun (a : OOA) (side : Side) (comp : Comp) (l : LeafNode) (cid : Nat) (lp : Int) (a' : OOA) : Prop where
  hslot : l.ownerSlot < a.openOrders.length
  range : match side with
    | .bid => inI64' (a.position.bidsBaseLots + l.quantity) ∧ inI64' (l.quantity * lp) ∧
        inI64' (a.position.bidsQuoteLots + l.quantity * lp)
    | .ask => inI64' (a.position.asksBaseLots + l.quantity)
  res : a' = { a with position := addPos side a.position l.quantity lp,
                      openOrders := a.openOrders.set l.ownerSlot
                        { isFree := false, side, comp, id := l.key, clientId := cid, lockedPrice := lp } }

theorem addOrder_inv {a a' : OOA} {side : Side} {comp : Comp} {l : LeafNode} {cid : Nat} {lp : Int}
    (h : a.addOrder side comp l cid lp = .ok a') : AddRun a side comp l cid lp a' := by
  unfold OOA.addOrder at h
  simp only [bind_ok, pure_ok, openOrder_ok] at h
  obtain ⟨p', h1, oo, h2, rfl⟩ := h
  have hlen : l.ownerSlot < a.openOrders.length := by
    rw [List.getElem?_eq_some_iff] at h2; exact h2.1
  cases side with
  | bid =>
    simp only [bind_ok, ckI64_ok, pure_ok] at h1
    obtain ⟨_, ⟨r1, rfl⟩, _, ⟨r2, rfl⟩, _, ⟨r3, rfl⟩, rfl⟩ := h1
    exact ⟨hlen, ⟨r1, r2, r3⟩, rfl⟩
  | ask =>
    simp only [bind_ok, ckI64_ok, pure_ok] at h1
    obtain ⟨_, ⟨r1, rfl⟩, rfl⟩ := h1
    exact ⟨hlen, r1, rfl⟩

/-- The price a maker's funds are locked at, as used on a fill. -/
def fillLockPrice (f : FillEvent) : Int := if f.pegLimit ≠ -1 ∧ f.takerSide = .ask then f.pegLimit else f.price

structure LockedRun (m : Market) (f : FillEvent) (quoteN makerFees lf above : Int) : Prop where
  peg : f.pegLimit ≠ -1 ∧ f.takerSide = .ask → inI64' (f.quantity * f.pegLimit) ∧
    inI64' (f.quantity * f.pegLimit * m.quoteLotSize) ∧
    m.makerFeesFloor (asU64 (f.quantity * f.pegLimit * m.quoteLotSize)) = .ok lf ∧
    inU64 (asU64 (f.quantity * f.pegLimit * m.quoteLotSize) - quoteN) ∧ inU64 (lf - makerFees) ∧ inU64 above ∧
    above = asU64 (f.quantity * f.pegLimit * m.quoteLotSize) - quoteN + (lf - makerFees)
  fixed : ¬ (f.pegLimit ≠ -1 ∧ f.takerSide = .ask) → lf = makerFees ∧ above = 0

theorem lockedAmounts_inv {m : Market} {f : FillEvent} {quoteN makerFees lp lf above : Int}
    (h : OOA.lockedAmounts m f f.takerSide.invert quoteN makerFees = .ok (lp, lf, above)) :
    lp = fillLockPrice f ∧ LockedRun m f quoteN makerFees lf above := by
  have hside : f.takerSide.invert = .bid ↔ f.takerSide = .ask := by cases f.takerSide <;> simp [Side.invert]
  unfold OOA.lockedAmounts at h
  simp only [hside] at h
  unfold fillLockPrice
  split at h
  · rename_i hc
    rw [if_pos hc]
    simp only [bind_ok, ckI64_ok, ckU64_ok, pure_ok] at h
    obtain ⟨_, ⟨h1, rfl⟩, _, ⟨h2, rfl⟩, _, ⟨h3, rfl⟩, lf', h4, _, ⟨h5, rfl⟩, _, ⟨h6, rfl⟩, h7⟩ := h
    cases h7
    exact ⟨rfl, fun _ => ⟨h1, h2, h4, h3, h5, h6, rfl⟩, fun hn => absurd hc hn⟩
  · rename_i hc
    rw [if_neg hc]
    cases h
    exact ⟨rfl, fun hn => absurd hn hc, fun _ => ⟨rfl, rfl⟩⟩

/-- Position after a fill, before the order is taken out. -/
def makerPos (side : Side) (p : Position) (baseN quoteN makerFees rebate lf above : Int) : Position :=
  match side with
  | .bid => { p with
      baseFreeNative := p.baseFreeNative + baseN
      quoteFreeNative := p.quoteFreeNative + (rebate + above)
      lockedMakerFees := p.lockedMakerFees - lf
      makerVolume := p.makerVolume + quoteN
      referrerRebatesAvailable := p.referrerRebatesAvailable + makerFees }
  | .ask => { p with
      quoteFreeNative := p.quoteFreeNative + (quoteN + rebate - makerFees)
      makerVolume := p.makerVolume + quoteN
      referrerRebatesAvailable := p.referrerRebatesAvailable + makerFees }

structure MakerRun (a : OOA) (m : Market) (f : FillEvent) (a' : OOA) (m' : Market) (makerFees rebate lf above : Int) : Prop where
  rl : inI64' (f.quantity * f.price)
  rq : inI64' (f.quantity * f.price * m.quoteLotSize)
  hfees : (if f.maker = f.taker then .ok 0 else m.makerFeesFloor (asU64 (f.quantity * f.price * m.quoteLotSize))) = .ok makerFees
  hrebate : (if f.maker = f.taker then .ok 0 else m.makerRebateFloor (asU64 (f.quantity * f.price * m.quoteLotSize))) = .ok rebate
  locked : LockedRun m f (asU64 (f.quantity * f.price * m.quoteLotSize)) makerFees lf above
  free : match f.takerSide.invert with
    | .bid => inI64' (f.quantity * m.baseLotSize) ∧ inU64 (a.position.baseFreeNative + asU64 (f.quantity * m.baseLotSize)) ∧
        inU64 (rebate + above) ∧ inU64 (a.position.quoteFreeNative + (rebate + above)) ∧
        inU64 (a.position.lockedMakerFees - lf)
    | .ask => inU64 (asU64 (f.quantity * f.price * m.quoteLotSize) + rebate) ∧
        inU64 (asU64 (f.quantity * f.price * m.quoteLotSize) + rebate - makerFees) ∧
        inU64 (a.position.quoteFreeNative + (asU64 (f.quantity * f.price * m.quoteLotSize) + rebate - makerFees))
  vol : 0 ≤ a.position.makerVolume + asU64 (f.quantity * f.price * m.quoteLotSize) ∧
    a.position.makerVolume + asU64 (f.quantity * f.price * m.quoteLotSize) ≤ u128Max
  ref : inU64 (a.position.referrerRebatesAvailable + makerFees)
  mref : inU64 (m.referrerRebatesAccrued + makerFees)
  mkt : m' = { m with
    referrerRebatesAccrued := m.referrerRebatesAccrued + makerFees
    makerVolume := m.makerVolume + asU64 (f.quantity * f.price * m.quoteLotSize)
    feesAccrued := m.feesAccrued + makerFees }
  range : match f.takerSide.invert with
    | .bid => f.makerOut = false → inI64' (a.position.bidsBaseLots - f.quantity) ∧ inI64' (f.quantity * fillLockPrice f) ∧
        inI64' (a.position.bidsQuoteLots - f.quantity * fillLockPrice f)
    | .ask => f.makerOut = false → inI64' (a.position.asksBaseLots - f.quantity)
  part : f.makerOut = false → a' = { a with position := (relPos f.takerSide.invert
    (makerPos f.takerSide.invert a.position (asU64 (f.quantity * m.baseLotSize)) (asU64 (f.quantity * f.price * m.quoteLotSize))
      makerFees rebate lf above) f.quantity (fillLockPrice f)) }
  out : f.makerOut = true → ∃ oo, RemoveRun { a with position := (makerPos f.takerSide.invert a.position
    (asU64 (f.quantity * m.baseLotSize)) (asU64 (f.quantity * f.price * m.quoteLotSize))
      makerFees rebate lf above) } f.makerSlot f.quantity (fillLockPrice f) a' oo

theorem executeMaker_inv {a a' : OOA} {m m' : Market} {f : FillEvent} (h : a.executeMaker m f = .ok (a', m')) :
    ∃ makerFees rebate lf above, MakerRun a m f a' m' makerFees rebate lf above := by
  unfold OOA.executeMaker at h
  simp only [ite_bind] at h
  simp only [bind_ok, ckI64_ok, ckU64_ok, ckU128_ok, pure_ok] at h
  obtain ⟨_, ⟨h1, rfl⟩, _, ⟨h2, rfl⟩, mf, h3, rb, h4, ⟨lp, lf, ab⟩, h5, p1, h6, _, ⟨h7, rfl⟩, _, ⟨h8, rfl⟩, _, ⟨h9, rfl⟩,
    _, ⟨h10, rfl⟩, _, ⟨h11, rfl⟩, a2, h12, _, _, h14⟩ := h
  cases h14
  obtain ⟨rfl, hl⟩ := lockedAmounts_inv h5
  cases hs : f.takerSide.invert with
  | bid =>
    simp only [hs, bind_ok, ckI64_ok, ckU64_ok, pure_ok] at h6
    obtain ⟨_, ⟨r1, rfl⟩, _, ⟨r2, rfl⟩, _, ⟨r3, rfl⟩, _, ⟨r4, rfl⟩, _, ⟨r5, rfl⟩, rfl⟩ := h6
    refine ⟨mf, rb, lf, ab, ⟨h1, h2, h3, h4, hl, ?_, h7, h8, h9, rfl, ?_, ?_, ?_⟩⟩
    · rw [hs]; exact ⟨r1, r2, r3, r4, r5⟩
    · rw [hs]
      intro ho
      simp only [ho, Bool.false_eq_true, if_false, hs, bind_ok, ckI64_ok, pure_ok] at h12
      obtain ⟨_, ⟨x1, rfl⟩, _, ⟨x2, rfl⟩, _, ⟨x3, rfl⟩, _⟩ := h12
      exact ⟨x1, x2, x3⟩
    · intro ho
      simp only [ho, Bool.false_eq_true, if_false, hs, bind_ok, ckI64_ok, pure_ok] at h12
      obtain ⟨_, ⟨x1, rfl⟩, _, ⟨x2, rfl⟩, _, ⟨x3, rfl⟩, rfl⟩ := h12
      rw [hs]; rfl
    · intro ho
      simp only [ho, if_true] at h12
      rw [hs]
      exact removeOrder_inv h12
  | ask =>
    simp only [hs, bind_ok, ckI64_ok, ckU64_ok, pure_ok] at h6
    obtain ⟨_, ⟨r1, rfl⟩, _, ⟨r2, rfl⟩, _, ⟨r3, rfl⟩, rfl⟩ := h6
    refine ⟨mf, rb, lf, ab, ⟨h1, h2, h3, h4, hl, ?_, h7, h8, h9, rfl, ?_, ?_, ?_⟩⟩
    · rw [hs]; exact ⟨r1, r2, r3⟩
    · rw [hs]
      intro ho
      simp only [ho, Bool.false_eq_true, if_false, hs, bind_ok, ckI64_ok, pure_ok] at h12
      obtain ⟨_, ⟨x1, rfl⟩, _⟩ := h12
      exact x1
    · intro ho
      simp only [ho, Bool.false_eq_true, if_false, hs, bind_ok, ckI64_ok, pure_ok] at h12
      obtain ⟨_, ⟨x1, rfl⟩, rfl⟩ := h12
      rw [hs]; rfl
    · intro ho
      simp only [ho, if_true] at h12
      rw [hs]
      exact removeOrder_inv h12

/-- Position after taking. -/
def takerPos (side : Side) (p : Position) (baseN quoteN fees ref : Int) : Position :=
  match side with
  | .bid => { p with baseFreeNative := p.baseFreeNative + baseN, takerVolume := p.takerVolume + quoteN,
                     referrerRebatesAvailable := p.referrerRebatesAvailable + ref }
  | .ask => { p with quoteFreeNative := p.quoteFreeNative + (quoteN - fees), takerVolume := p.takerVolume + quoteN,
                     referrerRebatesAvailable := p.referrerRebatesAvailable + ref }

structure TakerRun (a : OOA) (m : Market) (side : Side) (baseN quoteN fees ref : Int) (a' : OOA) (m' : Market) : Prop where
  free : match side with
    | .bid => inU64 (a.position.baseFreeNative + baseN)
    | .ask => inU64 (quoteN - fees) ∧ inU64 (a.position.quoteFreeNative + (quoteN - fees))
  href : inU64 (a.position.referrerRebatesAvailable + ref)
  mref : inU64 (m.referrerRebatesAccrued + ref)
  res : a' = { a with position := takerPos side a.position baseN quoteN fees ref }
  mkt : m' = { m with referrerRebatesAccrued := m.referrerRebatesAccrued + ref }

theorem executeTaker_inv {a a' : OOA} {m m' : Market} {side : Side} {baseN quoteN fees ref : Int}
    (h : a.executeTaker m side baseN quoteN fees ref = .ok (a', m')) : TakerRun a m side baseN quoteN fees ref a' m' := by
  unfold OOA.executeTaker at h
  simp only [bind_ok, ckU64_ok, ckU128_ok, pure_ok] at h
  obtain ⟨p1, h1, _, ⟨h2, rfl⟩, _, ⟨h3, rfl⟩, _, ⟨h4, rfl⟩, h5⟩ := h
  cases h5
  cases side with
  | bid =>
    simp only [bind_ok, ckU64_ok, pure_ok] at h1
    obtain ⟨_, ⟨r1, rfl⟩, rfl⟩ := h1
    exact ⟨r1, h3, h4, rfl, rfl⟩
  | ask =>
    simp only [bind_ok, ckU64_ok, pure_ok] at h1
    obtain ⟨_, ⟨r1, rfl⟩, _, ⟨r2, rfl⟩, rfl⟩ := h1
    exact ⟨⟨r1, r2⟩, h3, h4, rfl, rfl⟩

end OB
