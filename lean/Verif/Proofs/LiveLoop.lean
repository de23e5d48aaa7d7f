import Verif.Proofs.Live
import Verif.Proofs.Amounts
/-! The matching loop succeeds: nothing an order meets on the book can make it fail, as long as the event queue has room. -/
namespace OB
open OB.Spec

/-- Room for `cnt` more fills and `tk` more taker executions in the counters. -/
structure LRoom (g : Ledger) (cnt tk : Nat) : Prop where
  accts : ∀ k a, g.accts.get? k = some a → LotsOk a.position ∧ 0 ≤ a.position.makerVolume ∧
    a.position.makerVolume + cnt * i64Max ≤ u128Max ∧ 0 ≤ a.position.takerVolume ∧ a.position.takerVolume + tk * i64Max ≤ u128Max
  volume : 0 ≤ g.market.makerVolume ∧ g.market.makerVolume + cnt * i64Max ≤ u128Max
  fees : 0 ≤ g.market.feesAccrued ∧ g.market.feesAccrued + (cnt + tk : Nat) * i64Max ≤ u128Max
  woOo : 0 ≤ g.market.takerVolumeWoOo ∧ g.market.takerVolumeWoOo + tk * i64Max ≤ u128Max

/-- Room for `k` more events. -/
structure HRoom (h : EventHeap) (k : Nat) : Prop where
  len : h.events.length + k ≤ maxNumEvents
  seq : h.seqNum + k ≤ 18446744073709551615

theorem HRoom.mono {h : EventHeap} {k k' : Nat} (hr : HRoom h k) (hk : k' ≤ k) : HRoom h k' :=
  ⟨by have := hr.len; omega, by have := hr.seq; omega⟩

theorem mul_i64_mono {a b : Nat} (h : a ≤ b) : (a : Int) * i64Max ≤ b * i64Max :=
  Int.mul_le_mul_of_nonneg_right (by omega) (by decide)

theorem LRoom.mono {g : Ledger} {cnt cnt' tk tk' : Nat} (hr : LRoom g cnt tk) (h : cnt' ≤ cnt) (h' : tk' ≤ tk) : LRoom g cnt' tk' := by
  have m1 := mul_i64_mono h
  have m2 := mul_i64_mono h'
  have m3 := mul_i64_mono (Nat.add_le_add h h')
  refine ⟨fun k a ha => ?_, ⟨hr.volume.1, by have := hr.volume.2; omega⟩, ⟨hr.fees.1, by have := hr.fees.2; omega⟩,
    ⟨hr.woOo.1, by have := hr.woOo.2; omega⟩⟩
  obtain ⟨h1, h2, h3, h4, h5⟩ := hr.accts k a ha
  exact ⟨h1, h2, by omega, h4, by omega⟩

theorem HRoom.push {g : Ledger} {q : List (Nat × Event)} {k : Nat} (hq : HeapRep g.heap q) (hr : HRoom g.heap (k + 1)) (e : Event) :
    ∃ h', g.heap.pushBack e = .ok h' ∧ HRoom h' k := by
  have e1 := hq.events
  have hlen : g.heap.events.length = q.length := by rw [e1, List.length_map]
  obtain ⟨h', s, h1, _, _, h4, h5⟩ := pushBack_spec hq e (by have := hr.len; omega) (by have := hr.seq; omega)
  refine ⟨h', h1, ?_, ?_⟩
  · rw [h4.events, List.map_append, List.length_append, ← e1]
    have := hr.len
    simp only [List.map_cons, List.map_nil, List.length_cons, List.length_nil]; omega
  · rw [h5]; have := hr.seq; omega

theorem cancel_vol {a a' : OOA} {slot : Nat} {q : Int} {m : Market} (h : a.cancelOrder slot q m = .ok a') :
    a'.position.makerVolume = a.position.makerVolume ∧ a'.position.takerVolume = a.position.takerVolume := by
  obtain ⟨oo, fees, hr⟩ := cancelOrder_inv h
  rw [hr.res]
  cases oo.side <;> exact ⟨rfl, rfl⟩

theorem maker_vol {a a' : OOA} {m m' : Market} {f : FillEvent} (hm : m.makerFee ≤ 1000000) (h : a.executeMaker m f = .ok (a', m'))
    (h0 : 0 ≤ fillQuote m f) (h1 : fillQuote m f ≤ i64Max) :
    a'.position.makerVolume = a.position.makerVolume + fillQuote m f ∧ a'.position.takerVolume = a.position.takerVolume ∧
    m'.makerVolume = m.makerVolume + fillQuote m f ∧ m'.takerVolumeWoOo = m.takerVolumeWoOo ∧ m.feesAccrued ≤ m'.feesAccrued ∧
    m'.feesAccrued ≤ m.feesAccrued + fillQuote m f := by
  obtain ⟨mf, rb, lf, ab, hr⟩ := executeMaker_inv h
  have e : asU64 (f.quantity * f.price * m.quoteLotSize) = fillQuote m f :=
    asU64_eq h0 (by unfold i64Max at h1; unfold u64Max fillQuote at *; omega)
  have hmf : 0 ≤ mf ∧ mf ≤ fillQuote m f := by
    have hf := hr.hfees
    split at hf
    · cases hf; exact ⟨Int.le_refl _, h0⟩
    · rw [e] at hf
      rw [makerFeesFloor_inv h0 hf]; exact ⟨floorFee_nonneg h0, floorFee_le h0 hm⟩
  have key : ∀ s, (makerPos s a.position (asU64 (f.quantity * m.baseLotSize))
      (asU64 (f.quantity * f.price * m.quoteLotSize)) mf rb lf ab).makerVolume =
        a.position.makerVolume + fillQuote m f := by rw [e]; intro s; cases s <;> rfl
  have key2 : ∀ s p, (relPos s p f.quantity (fillLockPrice f)).makerVolume = p.makerVolume := by
    intro s p; cases s <;> rfl
  have key3 : ∀ s, (makerPos s a.position (asU64 (f.quantity * m.baseLotSize))
      (asU64 (f.quantity * f.price * m.quoteLotSize)) mf rb lf ab).takerVolume = a.position.takerVolume := by intro s; cases s <;> rfl
  have key4 : ∀ s p, (relPos s p f.quantity (fillLockPrice f)).takerVolume = p.takerVolume := by
    intro s p; cases s <;> rfl
  refine ⟨?_, ?_, by rw [hr.mkt, ← e], by rw [hr.mkt], by rw [hr.mkt]; simp only; omega, by rw [hr.mkt]; simp only; omega⟩
  · cases ho : f.makerOut with
    | false => rw [hr.part ho]; simp only [key2, key]
    | true =>
      obtain ⟨oo, hrr⟩ := hr.out ho
      rw [hrr.res]; simp only [key2, key]
  · cases ho : f.makerOut with
    | false => rw [hr.part ho]; simp only [key4, key3]
    | true =>
      obtain ⟨oo, hrr⟩ := hr.out ho
      rw [hrr.res]; simp only [key4, key3]

/-- Changing one account by a cancel. -/
theorem LRoom.cancel {g : Ledger} {cnt tk : Nat} (hr : LRoom g cnt tk) {k : Pubkey} {a a' : OOA} (ha : g.accts.get? k = some a)
    {slot : Nat} {q : Int} {m : Market} (h : a.cancelOrder slot q m = .ok a') : LRoom { g with accts := g.accts.set k a' } cnt tk := by
  refine ⟨fun j b hb => ?_, hr.volume, hr.fees, hr.woOo⟩
  by_cases hj : j = k
  · subst hj
    simp only at hb
    rw [Accts.get?_set_self _ ha] at hb
    injection hb with hb; subst hb
    obtain ⟨h1, h2, h3, h4, h5⟩ := hr.accts j a ha
    obtain ⟨v1, v2⟩ := cancel_vol h
    exact ⟨(cancel_refs h).lots h1, by omega, by omega, by omega, by omega⟩
  · simp only at hb
    rw [Accts.get?_set_ne _ hj] at hb
    exact hr.accts j b hb

/-- An account after orders of it were filled or taken out: less is locked and free slots stay free. -/
structure Lighter (a a' : OOA) : Prop where
  bids : a'.position.bidsBaseLots ≤ a.position.bidsBaseLots
  asks : a'.position.asksBaseLots ≤ a.position.asksBaseLots
  quote : a'.position.bidsQuoteLots ≤ a.position.bidsQuoteLots
  free : ∀ (i : Nat) (oo : OpenOrder), a.openOrders[i]? = some oo → oo.isFree = true → ∃ oo' : OpenOrder, a'.openOrders[i]? = some oo' ∧ oo'.isFree = true

theorem Lighter.refl (a : OOA) : Lighter a a := ⟨Int.le_refl _, Int.le_refl _, Int.le_refl _, fun _ oo h1 h2 => ⟨oo, h1, h2⟩⟩
theorem Lighter.trans {a b c : OOA} (h1 : Lighter a b) (h2 : Lighter b c) : Lighter a c :=
  ⟨Int.le_trans h2.bids h1.bids, Int.le_trans h2.asks h1.asks, Int.le_trans h2.quote h1.quote, fun i oo e1 e2 => by
    obtain ⟨o, e3, e4⟩ := h1.free i oo e1 e2
    exact h2.free i o e3 e4⟩

theorem SameLocks.lighter {a a' : OOA} (h : SameLocks a a') : Lighter a a' :=
  ⟨by rw [h.bids]; exact Int.le_refl _, by rw [h.asks]; exact Int.le_refl _, by rw [h.quote]; exact Int.le_refl _,
    fun _ oo h1 h2 => ⟨oo, by rw [h.orders]; exact h1, h2⟩⟩

/-- Every account is lighter. -/
def LightFrame (g g' : Ledger) : Prop := ∀ k a, g.accts.get? k = some a → ∃ a', g'.accts.get? k = some a' ∧ Lighter a a'

theorem LightFrame.refl (g : Ledger) : LightFrame g g := fun _ a h => ⟨a, h, .refl a⟩
theorem LightFrame.trans {g1 g2 g3 : Ledger} (h1 : LightFrame g1 g2) (h2 : LightFrame g2 g3) : LightFrame g1 g3 := by
  intro k a ha
  obtain ⟨b, hb, l1⟩ := h1 k a ha
  obtain ⟨c, hc, l2⟩ := h2 k b hb
  exact ⟨c, hc, l1.trans l2⟩

theorem LightFrame.set {g : Ledger} {k : Pubkey} {a a' : OOA} (ha : g.accts.get? k = some a) (h : Lighter a a') {m : Market} {hp : EventHeap} :
    LightFrame g { g with accts := g.accts.set k a', market := m, heap := hp } := by
  intro j b hb
  by_cases hj : j = k
  · subst hj
    rw [ha] at hb; injection hb with hb; subst hb
    exact ⟨a', Accts.get?_set_self _ ha, h⟩
  · exact ⟨b, by simp only; rw [Accts.get?_set_ne _ hj]; exact hb, .refl b⟩

theorem set_free {L : List OpenOrder} (slot i : Nat) (oo : OpenOrder) (h1 : L[i]? = some oo) (h2 : oo.isFree = true) :
    ∃ oo' : OpenOrder, (L.set slot OpenOrder.default)[i]? = some oo' ∧ oo'.isFree = true := by
  by_cases h : slot = i
  · subst h
    refine ⟨OpenOrder.default, ?_, rfl⟩
    rw [List.getElem?_set_self]
    exact (List.getElem?_eq_some_iff.mp h1).1
  · exact ⟨oo, by rw [List.getElem?_set_ne h]; exact h1, h2⟩

theorem cancel_light {a a' : OOA} {slot : Nat} {q : Int} {m : Market} (h : a.cancelOrder slot q m = .ok a') (hq : 0 ≤ q)
    (hlp : ∀ oo : OpenOrder, a.openOrders[slot]? = some oo → 0 ≤ oo.lockedPrice) : Lighter a a' := by
  obtain ⟨oo, fees, hr⟩ := cancelOrder_inv h
  have h0 : 0 ≤ q * oo.lockedPrice := Int.mul_nonneg hq (hlp oo hr.hslot)
  rw [hr.res]
  refine ⟨?_, ?_, ?_, fun i o h1 h2 => set_free slot i o h1 h2⟩ <;>
  · cases oo.side <;> simp only [relPos, freePos] <;> omega

theorem maker_light {a a' : OOA} {m m' : Market} {f : FillEvent} (h : a.executeMaker m f = .ok (a', m')) (hq : 0 ≤ f.quantity)
    (hlp : 0 ≤ fillLockPrice f) : Lighter a a' := by
  obtain ⟨mf, rb, lf, ab, hr⟩ := executeMaker_inv h
  have h0 : 0 ≤ f.quantity * fillLockPrice f := Int.mul_nonneg hq hlp
  cases ho : f.makerOut with
  | false =>
    rw [hr.part ho]
    refine ⟨?_, ?_, ?_, fun i o h1 h2 => ⟨o, h1, h2⟩⟩ <;>
    · cases f.takerSide.invert <;> simp only [relPos, makerPos] <;> omega
  | true =>
    obtain ⟨oo, hrr⟩ := hr.out ho
    rw [hrr.res]
    refine ⟨?_, ?_, ?_, fun i o h1 h2 => set_free _ i o h1 h2⟩ <;>
    · cases oo.side <;> cases f.takerSide.invert <;> simp only [relPos, makerPos] <;> omega

theorem processOut_ok {g : Ledger} {s : Side} {c : Comp} {l : LeafNode} {L : Rests} {dB dQ : Int} {ex : Pubkey → Int} {n : Nat}
    (h : LInv g ((s, c, l) :: L) dB dQ ex n) (hex : ∀ k, 0 ≤ ex k) (hc : Covered g.market)
    (hdB : g.market.baseDepositTotal + dB ≤ u64Max) (hdQ : g.market.quoteDepositTotal + dQ ≤ u64Max)
    {ev : OutEvent} (he : OutOf ev s l) {hasOO : Bool} {owner : Pubkey} {rem : List Pubkey} {cnt tk k : Nat} (hr : LRoom g cnt tk)
    (hh : HRoom g.heap (k + 1)) :
    ∃ g', processOutEvent ev hasOO owner rem g = .ok g' ∧ LRoom g' cnt tk ∧ HRoom g'.heap k ∧ LightFrame g g' := by
  obtain ⟨oo, R, q, hw, _⟩ := h.takeRest
  obtain ⟨a, ha⟩ := hw.ginv.owner (.rest s c l oo) (by simp)
  have ha : g.accts.get? l.owner = some a := ha
  obtain ⟨a', hc'⟩ := h.cancelOk hex hc hdB hdQ ha (hr.accts _ a ha).1
  have hok := hw.ginv.ok (.rest s c l oo) (by simp)
  have hli : Lighter a a' := by
    refine cancel_light hc' (by have : 1 ≤ l.quantity := hok.qty; omega) (fun o ho => ?_)
    have hl := hw.ginv.link (.rest s c l oo) (by simp) rfl a ha
    have e : some o = some oo := ho.symm.trans hl
    injection e with e; subst e
    have : 1 ≤ o.lockedPrice := hok.lp
    omega
  have cancel : ∃ g', (do
      let a ← g.accts.get ev.owner
      let a' ← a.cancelOrder ev.ownerSlot ev.quantity g.market
      return { g with accts := g.accts.set ev.owner a' } : OB.R Ledger) = .ok g' ∧ LRoom g' cnt tk ∧ HRoom g'.heap k ∧ LightFrame g g' := by
    refine ⟨{ g with accts := g.accts.set l.owner a' }, ?_, hr.cancel ha hc', hh.mono (by omega), LightFrame.set ha hli⟩
    simp only [bind_ok, pure_ok, Accts.get_ok]
    rw [he.owner, he.slot, he.qty]
    exact ⟨a, ha, a', hc', rfl⟩
  unfold processOutEvent
  split
  · rename_i hcnd; rw [hcnd.2]; exact cancel
  split
  · exact cancel
  · obtain ⟨h', e1, e2⟩ := hh.push hw.heap (.out ev)
    refine ⟨{ g with heap := h' }, ?_, ⟨hr.accts, hr.volume, hr.fees, hr.woOo⟩, e2, LightFrame.refl _⟩
    rw [e1]; rfl

theorem LFrame.covered {g g' : Ledger} (h : LFrame g g') (hc : Covered g.market) : Covered g'.market := by
  have e := h.cfg
  exact ⟨by rw [h.bls]; exact hc.bls, by rw [h.qls]; exact hc.qls, h.fees hc.fees, by rw [e]; exact hc.avail, by rw [e]; exact hc.base,
    by rw [e]; exact hc.quote⟩

theorem LFrame.deposits {g g' : Ledger} (h : LFrame g g') : g'.market.baseDepositTotal = g.market.baseDepositTotal ∧
    g'.market.quoteDepositTotal = g.market.quoteDepositTotal := by rw [h.cfg]; exact ⟨rfl, rfl⟩

theorem processFill_ok {g : Ledger} {s : Side} {c : Comp} {l : LeafNode} {L : Rests} {dB dQ : Int} {ex : Pubkey → Int} {n : Nat}
    (h : LInv g ((s, c, l) :: L) dB dQ ex n) (hex : ∀ k, 0 ≤ ex k) (hc : Covered g.market)
    {f : FillEvent} (hf : FillOf g.market f c l) (hs : s = f.takerSide.invert)
    (hdB : g.market.baseDepositTotal + (dB + f.pendB g.market) ≤ u64Max)
    (hdQ : g.market.quoteDepositTotal + (dQ + f.pendQ g.market) ≤ u64Max)
    {hasOO : Bool} {owner : Pubkey} {rem : List Pubkey} (hrem : hasOO = true → owner ∉ rem) {p cnt tk k : Nat} (hr : LRoom g (cnt + 1) tk)
    (hh : HRoom g.heap (k + 1)) :
    ∃ g' p', processFillEvent f hasOO owner rem g p = .ok (g', p') ∧ LRoom g' cnt tk ∧ HRoom g'.heap k ∧ LightFrame g g' := by
  obtain ⟨oo, R, q, hw, hk⟩ := h.takeRest
  have hrepl := fillRepl (hw.ginv.ok (.rest s c l oo) (by simp)) hf hs hc.bls hc.qls
  have hg := hw.ginv.replace hrepl
  have eB : dB + osum (Obl.pendB g.market) (.fill f oo :: (if f.makerOut then [] else
      [.rest s c (l.withQty (l.quantity - f.quantity)) oo])) - Obl.pendB g.market (.rest s c l oo) = dB + f.pendB g.market := by
    have : osum (Obl.pendB g.market) (if f.makerOut then [] else
      [.rest s c (l.withQty (l.quantity - f.quantity)) oo]) = 0 := by split <;> simp [osum, Obl.pendB]
    rw [osum_cons, this]
    show dB + (f.pendB g.market + 0) - 0 = _
    omega
  have eQ : dQ + osum (Obl.pendQ g.market) (.fill f oo :: (if f.makerOut then [] else
      [.rest s c (l.withQty (l.quantity - f.quantity)) oo])) - Obl.pendQ g.market (.rest s c l oo) = dQ + f.pendQ g.market := by
    have : osum (Obl.pendQ g.market) (if f.makerOut then [] else
      [.rest s c (l.withQty (l.quantity - f.quantity)) oo]) = 0 := by split <;> simp [osum, Obl.pendQ]
    rw [osum_cons, this]
    show dQ + (f.pendQ g.market + 0) - 0 = _
    omega
  rw [eB, eQ, List.cons_append] at hg
  have hok := hg.ok (.fill f oo) (by simp)
  obtain ⟨p1, p2, _⟩ := hok.fill f oo rfl
  have h1 : 1 ≤ f.quantity := hok.qty
  have q0 : 0 ≤ fillQuote g.market f := Int.mul_nonneg (Int.mul_nonneg (by omega) (by omega)) (by have := hc.qls; omega)
  have q1 : fillQuote g.market f ≤ i64Max := p2
  obtain ⟨a, ha⟩ := hg.owner (.fill f oo) (by simp)
  have ha : g.accts.get? f.maker = some a := ha
  have hi0 : 0 ≤ i64Max := by decide
  have c1 : ((cnt + 1 : Nat) : Int) * i64Max = cnt * i64Max + i64Max := succ_mul_i64 cnt
  have c2 : ((cnt + 1 + tk : Nat) : Int) * i64Max = (cnt + tk : Nat) * i64Max + i64Max := by
    rw [show cnt + 1 + tk = (cnt + tk) + 1 by omega]; exact succ_mul_i64 _
  have c3 := i64_nonneg_mul cnt
  have c4 := i64_nonneg_mul (cnt + tk)
  have v := hr.volume
  have fe := hr.fees
  rw [c1] at v
  rw [c2] at fe
  obtain ⟨l1, l2, l3, l4, l5⟩ := hr.accts _ a ha
  rw [c1] at l3
  unfold processFillEvent
  split
  · rename_i hcnd
    split
    · rename_i hbor
      exact absurd (hbor.2 ▸ hcnd.2) (hrem hbor.1)
    · obtain ⟨a', m', hm'⟩ := hg.maker_ok hex hc hdB hdQ ha l1 l2 (by omega) v.1 (by omega) fe.1 (by omega)
      refine ⟨{ g with market := m', accts := g.accts.set f.maker a' }, p + 1, ?_, ?_, hh.mono (by omega),
        LightFrame.set ha (maker_light hm' (by omega) (by have : 1 ≤ fillLockPrice f := hok.lp; omega))⟩
      · simp only [bind_ok, pure_ok, Accts.get_ok]
        exact ⟨a, ha, (a', m'), hm', rfl⟩
      · obtain ⟨w1, w2, w3, w4, w5, w6⟩ := maker_vol hc.fees.m1 hm' q0 q1
        refine ⟨fun j b hb => ?_, ?_, ?_, ?_⟩
        · by_cases hj : j = f.maker
          · subst hj
            simp only at hb
            rw [Accts.get?_set_self _ ha] at hb
            injection hb with hb; subst hb
            exact ⟨(maker_refs hm').1.lots l1, by omega, by omega, by omega, by omega⟩
          · simp only at hb
            rw [Accts.get?_set_ne _ hj] at hb
            obtain ⟨x1, x2, x3, x4, x5⟩ := hr.accts j b hb
            exact ⟨x1, x2, by omega, x4, x5⟩
        · constructor <;> simp only [w3] <;> omega
        · constructor <;> simp only <;> omega
        · simp only [w4]; exact hr.woOo
  · obtain ⟨h', e1, e2⟩ := hh.push hw.heap (.fill f)
    refine ⟨{ g with heap := h' }, p, ?_, ?_, e2, LightFrame.refl _⟩
    · rw [e1]; rfl
    · exact (LRoom.mono (g := { g with heap := h' }) ⟨hr.accts, hr.volume, hr.fees, hr.woOo⟩ (Nat.le_succ cnt) (Nat.le_refl tk))


section
variable {env : Env} {price : Int} {E : Comp → HL} {own : Rests} {g0 : Ledger} {maxB maxQ B0 Q0 : Int} {n : Nat}

/-- The totals of deposits leave room for everything the loop can add. -/
structure LoopRoom (env : Env) (g0 : Ledger) (maxB maxQ B0 Q0 : Int) : Prop where
  baseMax : maxB ≤ i64Max
  cov : Covered g0.market
  rem : env.hasOO = true → env.owner ∉ env.rem
  base : ∀ taken, 0 ≤ taken → taken ≤ maxB →
    g0.market.baseDepositTotal + loopB B0 env.order.side g0.market.baseLotSize taken ≤ u64Max
  quote : ∀ taken reb, 0 ≤ taken → taken ≤ maxQ → (env.order.isPostOnly = true → taken = 0) → 0 ≤ reb →
    reb ≤ ceilTaker g0.market.takerFee (taken * g0.market.quoteLotSize) →
    g0.market.quoteDepositTotal + loopQ Q0 env.order.side g0.market.quoteLotSize taken reb ≤ u64Max

theorem le_ceilTaker {tf a r mf : Int} (h0 : 0 ≤ a) (ht : 0 ≤ tf) (hm : -mf ≤ tf) (h : r * 1000000 ≤ a * max (-mf) 0) :
    r ≤ ceilTaker tf a := by
  have : a * max (-mf) 0 ≤ a * tf := Int.mul_le_mul_of_nonneg_left (by omega) h0
  unfold ceilTaker; omega

theorem LoopI.takenPost {i : List IterItem} {s : MatchSt} (h : LoopI env price E own g0 maxB maxQ B0 Q0 n i s)
    (hp : env.order.isPostOnly = true) : maxQ - s.remQuote = 0 := by
  have := h.sumQ
  rw [h.post hp] at this
  simp at this; omega

theorem LoopI.rebLe {i : List IterItem} {s : MatchSt} (hE : LoopEnv env E g0 maxQ) (hc : Covered g0.market)
    (h : LoopI env price E own g0 maxB maxQ B0 Q0 n i s) : s.rebates ≤ (maxQ - s.remQuote - s.decr) * g0.market.quoteLotSize := by
  have h1 := h.reb
  have h2 : 0 ≤ (maxQ - s.remQuote - s.decr) * g0.market.quoteLotSize :=
    Int.mul_nonneg (by have := h.decrLe; omega) (by have := hE.qls; omega)
  have h3 : (maxQ - s.remQuote - s.decr) * g0.market.quoteLotSize * max (-g0.market.makerFee) 0 ≤
      (maxQ - s.remQuote - s.decr) * g0.market.quoteLotSize * 1000000 :=
    Int.mul_le_mul_of_nonneg_left (by have := hc.fees.m0; have := hc.fees.t1; omega) h2
  omega

theorem LoopI.room {i : List IterItem} {s : MatchSt} (hE : LoopEnv env E g0 maxQ) (hr : LoopRoom env g0 maxB maxQ B0 Q0)
    (h : LoopI env price E own g0 maxB maxQ B0 Q0 n i s) :
    s.g.market.baseDepositTotal + loopB B0 env.order.side g0.market.baseLotSize (maxB - s.remBase) ≤ u64Max ∧
    s.g.market.quoteDepositTotal + loopQ Q0 env.order.side g0.market.quoteLotSize (maxQ - s.remQuote) s.rebates ≤ u64Max := by
  obtain ⟨d1, d2⟩ := h.frame.deposits
  rw [d1, d2]
  have := h.base0; have := h.baseLe; have := h.quote0; have := h.quoteLe
  refine ⟨hr.base _ (by omega) (by omega), hr.quote _ _ (by omega) (by omega) h.takenPost h.reb0 ?_⟩
  have hq := hE.qls; have := h.decrLe; have := h.decr0
  have h1 := le_ceilTaker (Int.mul_nonneg (by omega) (by omega)) hr.cov.fees.t0 (by have := hr.cov.fees.m0; omega) h.reb
  refine Int.le_trans h1 (ceilTaker_mono hr.cov.fees.t0 (Int.mul_le_mul_of_nonneg_right (by omega) (by omega)))

/-- The budget of counters and of the event queue during the loop. -/
structure Budget (g0 : Ledger) (c0 tk k0 : Nat) (s : MatchSt) : Prop where
  light : LightFrame g0 s.g
  room : LRoom s.g (s.limit + c0) tk
  heap : HRoom s.g.heap (s.limit + (5 - s.dropped) + k0)

theorem matchFill_ok {i : IterItem} {s s0 : MatchSt} {g : Ledger} {processed : Nat}
    (e1 : s.remBase = s0.remBase) (e2 : s.remQuote = s0.remQuote) (e3 : s.g = s0.g) (e4 : s.processed = s0.processed)
    (hf : Filled env i s0 g processed) (hl : s.limit ≠ 0) :
    ∃ s', matchFill env i (matchQty i s0) (matchQty i s0 * i.priceLots) s = .ok s' := by
  unfold matchFill
  rw [e1, e2, e3, e4]
  rw [ckI64_eq hf.rb.1 hf.rb.2, ok_bind, ckI64_eq (by have := hf.rq.1; unfold i64Min; omega) hf.rq.2, ok_bind, assertR, req_true hf.rq.1,
    ok_bind, ckI64_eq hf.nq.1 hf.nq.2, ok_bind]
  have hp := hf.proc
  simp only [hp, ok_bind, assertR, req_true (show s.limit ≥ 1 by omega)]
  exact ⟨_, rfl⟩

/-- Filling an item succeeds. -/
theorem LoopI.filled {i : IterItem} {todo : List IterItem} {s : MatchSt} (hE : LoopEnv env E g0 maxQ)
    (hr : LoopRoom env g0 maxB maxQ B0 Q0) (h : LoopI env price E own g0 maxB maxQ B0 Q0 n (i :: todo) s)
    (hm : Matchable env price i s) {c0 tk k0 : Nat} (hb : Budget g0 c0 tk k0 s) :
    ∃ g processed, Filled env i s g processed ∧ LRoom g (s.limit - 1 + c0) tk ∧ HRoom g.heap (s.limit - 1 + (5 - s.dropped) + k0) ∧ LightFrame s.g g := by
  have hq := h.qtyOk hE hm
  have hi := h.items i (by simp)
  obtain ⟨oo, ho, _⟩ := h.head hE
  have hrr := ho.rest _ _ _ _ rfl
  have hlq : i.leaf.quantity ≤ i64Max := by
    have h1 : i.leaf.quantity * s.g.market.baseLotSize ≤ i64Max := ho.base
    have h2 : 1 ≤ i.leaf.quantity := ho.qty
    have h3 : 0 < s.g.market.baseLotSize := by rw [h.frame.bls]; exact hE.bls
    have h4 : i.leaf.quantity * 1 ≤ i.leaf.quantity * s.g.market.baseLotSize := Int.mul_le_mul_of_nonneg_left (by omega) (by omega)
    omega
  have hmq : maxQ ≤ i64Max := by
    have h1 := hE.maxQ
    have h2 := hE.qls
    have h3 := h.quote0; have h5 := h.quoteLe
    have h4 : maxQ * 1 ≤ maxQ * g0.market.quoteLotSize := Int.mul_le_mul_of_nonneg_left (by omega) (by omega)
    omega
  have hquote : matchQty i s * i.priceLots * s.g.market.quoteLotSize ≤ i64Max := by
    rw [h.frame.qls]
    refine Int.le_trans (Int.mul_le_mul_of_nonneg_right (Int.le_trans hq.leQuote h.quoteLe) ?_) hE.maxQ
    have := hE.qls; omega
  have hfo : FillOf s.g.market (mkFill env s.g.market.seqNum i (i.leaf.quantity - matchQty i s = 0) (matchQty i s)) i.comp i.leaf := by
    refine ⟨rfl, rfl, rfl, hq.qty, hq.leLeaf, ?_, hi.fixed, ?_, hquote⟩
    · simp only [mkFill, decide_eq_true_eq]; omega
    · intro hc
      obtain ⟨o, _, _, hp1, _, hv⟩ := hi.pegged hc
      refine ⟨hp1, ?_⟩
      intro hts
      have hs : env.order.side = .ask := hts
      rcases hv hm.valid with hl | hl
      · have := (hrr.pegged hc).1; omega
      · rw [hs] at hl
        simp only [Side.isPriceBetter, Side.invert, decide_eq_false_iff_not, Int.not_lt] at hl
        show i.priceLots ≤ _
        omega
  have hqp : 0 ≤ matchQty i s * i.priceLots := Int.mul_nonneg (by have := hq.qty; omega) (by have := hq.price; omega)
  -- deposits after the fill
  obtain ⟨d1, d2⟩ := h.frame.deposits
  have hqn : 0 ≤ matchQty i s * i.priceLots * s.g.market.quoteLotSize :=
    Int.mul_nonneg hqp (by rw [h.frame.qls]; have := hE.qls; omega)
  have hrbl : 0 ≤ FillEvent.rebate s.g.market (mkFill env s.g.market.seqNum i (i.leaf.quantity - matchQty i s = 0) (matchQty i s)) ∧
      FillEvent.rebate s.g.market (mkFill env s.g.market.seqNum i (i.leaf.quantity - matchQty i s = 0) (matchQty i s)) * 1000000 ≤
        matchQty i s * i.priceLots * s.g.market.quoteLotSize * max (-s.g.market.makerFee) 0 := by
    unfold FillEvent.rebate
    split
    · exact ⟨Int.le_refl _, by have := Int.mul_nonneg hqn (show 0 ≤ max (-s.g.market.makerFee) 0 by omega); omega⟩
    · exact ⟨floorRebate_nonneg hqn, floorRebate_mul_le s.g.market.makerFee (matchQty i s * i.priceLots * s.g.market.quoteLotSize)⟩
  have hdB : s.g.market.baseDepositTotal + (loopB B0 env.order.side g0.market.baseLotSize (maxB - s.remBase) +
      FillEvent.pendB s.g.market (mkFill env s.g.market.seqNum i (i.leaf.quantity - matchQty i s = 0) (matchQty i s))) ≤ u64Max := by
    have hx := hr.base (maxB - s.remBase + matchQty i s) (by have := hq.qty; have := h.baseLe; omega) (by have := hq.leRem; omega)
    rw [d1]
    have e2 : (mkFill env s.g.market.seqNum i (i.leaf.quantity - matchQty i s = 0) (matchQty i s)).takerSide = env.order.side := rfl
    unfold FillEvent.pendB loopB at *
    rw [e2, h.frame.bls]
    revert hx
    cases env.order.side <;> simp only [mkFill, Int.add_mul] <;> omega
  have hdQ : s.g.market.quoteDepositTotal + (loopQ Q0 env.order.side g0.market.quoteLotSize (maxQ - s.remQuote) s.rebates +
      FillEvent.pendQ s.g.market (mkFill env s.g.market.seqNum i (i.leaf.quantity - matchQty i s = 0) (matchQty i s))) ≤ u64Max := by
    have hdec : (maxQ - s.remQuote - s.decr) * g0.market.quoteLotSize ≤ (maxQ - s.remQuote) * g0.market.quoteLotSize :=
      Int.mul_le_mul_of_nonneg_right (by have := h.decr0; omega) (by have := hE.qls; omega)
    have hdec2 : (maxQ - s.remQuote - s.decr) * g0.market.quoteLotSize * max (-g0.market.makerFee) 0 ≤
        (maxQ - s.remQuote) * g0.market.quoteLotSize * max (-g0.market.makerFee) 0 :=
      Int.mul_le_mul_of_nonneg_right hdec (by omega)
    have hreb := h.reb
    rw [h.frame.qls] at hrbl hqn
    rw [h.frame.maker] at hrbl
    have hnn : 0 ≤ (maxQ - s.remQuote + matchQty i s * i.priceLots) * g0.market.quoteLotSize :=
      Int.mul_nonneg (by have := h.quoteLe; omega) (by have := hE.qls; omega)
    have hx := hr.quote (maxQ - s.remQuote + matchQty i s * i.priceLots) (s.rebates +
      FillEvent.rebate s.g.market (mkFill env s.g.market.seqNum i (i.leaf.quantity - matchQty i s = 0) (matchQty i s)))
      (by have := h.quoteLe; omega) (by have := hq.leQuote; omega) (by rw [hm.notPost]; intro hx; cases hx) (by have := h.reb0; omega)
      (le_ceilTaker (mf := g0.market.makerFee) hnn hr.cov.fees.t0 (by have := hr.cov.fees.m0; omega)
        (by rw [Int.add_mul (maxQ - s.remQuote), Int.add_mul _ _ (max _ _), Int.add_mul]; omega))
    rw [d2]
    have e2 : (mkFill env s.g.market.seqNum i (i.leaf.quantity - matchQty i s = 0) (matchQty i s)).takerSide = env.order.side := rfl
    unfold FillEvent.pendQ loopQ at *
    rw [e2, h.frame.qls]
    revert hx
    cases env.order.side <;> simp only [mkFill, Int.add_mul] <;> omega
  have hl := hm.lim
  have ec : s.limit + c0 = s.limit - 1 + c0 + 1 := by omega
  have ek : s.limit + (5 - s.dropped) + k0 = s.limit - 1 + (5 - s.dropped) + k0 + 1 := by omega
  have r1 := hb.room
  have r2 := hb.heap
  rw [ec] at r1
  rw [ek] at r2
  obtain ⟨g', p', f1, f2, f3, f4⟩ := processFill_ok (p := s.processed) (h.headPerm hE) (fun _ => Int.le_refl _) (h.frame.covered hr.cov) hfo rfl hdB hdQ hr.rem r1 r2
  have := hq.leLeaf; have := hq.leRem; have := hq.leQuote; have := h.baseLe; have := h.quoteLe; have := hr.baseMax
  have := hq.qty
  have hz : i64Min ≤ 0 := by decide
  exact ⟨g', p', ⟨⟨by omega, by omega⟩, ⟨by omega, by omega⟩, ⟨by omega, by omega⟩, f1⟩, f2, f3, f4⟩

theorem matchStep_ok {i : IterItem} {todo : List IterItem} {s : MatchSt} (hE : LoopEnv env E g0 maxQ)
    (hr : LoopRoom env g0 maxB maxQ B0 Q0) (h : LoopI env price E own g0 maxB maxQ B0 Q0 n (i :: todo) s)
    {c0 tk k0 : Nat} (hb : Budget g0 c0 tk k0 s) :
    (∃ go s', matchStep env price i s = .ok (go, s') ∧ Budget g0 c0 tk k0 s') ∨
    (env.order.selfTradeBehavior = .abortTransaction ∧ selfTrade env i ∧ matchStep env price i s = .error .wouldSelfTrade) := by
  have hcov := h.frame.covered hr.cov
  obtain ⟨d1, d2⟩ := h.room hE hr
  obtain ⟨res, hres⟩ : ∃ res, matchStep env price i s = res := ⟨_, rfl⟩
  rw [hres]
  unfold matchStep at hres
  simp only at hres
  split at hres
  · exact .inl ⟨_, _, hres.symm, hb⟩
  rename_i hz
  rw [not_or] at hz
  split at hres
  · rename_i hs
    split at hres
    · rename_i hd
      unfold dropExpiredOrderLimit at hd
      have ek : s.limit + (5 - s.dropped) + k0 = s.limit + (5 - (s.dropped + 1)) + k0 + 1 := by omega
      have r2 := hb.heap
      rw [ek] at r2
      obtain ⟨g', f1, f2, f3, f4⟩ := processOut_ok (ev := dropEvent env i s) (hasOO := env.hasOO) (owner := env.owner) (rem := env.rem)
        (h.headPerm hE) (fun _ => Int.le_refl _) hcov d1 d2 ⟨rfl, rfl, rfl, rfl⟩ hb.room r2
      left
      unfold dropEvent at f1
      rw [f1] at hres
      exact ⟨_, _, hres.symm, hb.light.trans f4, f2, f3⟩
    · exact .inl ⟨_, _, hres.symm, hb⟩
  rename_i hs
  have hs : i.state = .valid := by simpa using hs
  split at hres
  · exact .inl ⟨_, _, hres.symm, hb⟩
  rename_i hw
  have hw : env.order.side.isPriceWithinLimit i.priceLots price = true := by simpa using hw
  split at hres
  · exact .inl ⟨_, _, hres.symm, hb.light, hb.room, hb.heap⟩
  rename_i hp
  have hp : env.order.isPostOnly = false := by simpa using hp
  split at hres
  · exact .inl ⟨_, _, hres.symm, hb.light, hb.room, hb.heap⟩
  rename_i hl
  obtain ⟨oo, aa, ho, haa, hslot, _⟩ := (h.headPerm hE).restOk (List.mem_cons_self ..)
  have hpp := LoopI.pricePos (h.items i (by simp)) ho
  rw [assertR, req_true (show i.priceLots ≠ 0 by omega), ok_bind] at hres
  split at hres
  · exact .inl ⟨_, _, hres.symm, hb.light, hb.room, hb.heap⟩
  rename_i hq
  have hq0 := h.quote0
  have hmq : maxQ ≤ i64Max := by
    have h1 := hE.maxQ
    have h2 := hE.qls
    have h5 := h.quoteLe
    have h4 : maxQ * 1 ≤ maxQ * g0.market.quoteLotSize := Int.mul_le_mul_of_nonneg_left (by omega) (by omega)
    omega
  have hmle : matchQty i s * i.priceLots ≤ s.remQuote := within_of_quote hpp hq0 (by unfold matchQty; omega)
  have hge : 0 ≤ matchQty i s * i.priceLots := by
    refine Int.mul_nonneg ?_ (by omega)
    have hq1 : 1 ≤ i.leaf.quantity := ho.qty
    have hb0 := h.base0
    have hdiv : 0 ≤ s.remQuote.tdiv i.priceLots := by
      rw [Int.tdiv_eq_ediv_of_nonneg hq0]; exact Int.ediv_nonneg hq0 (by omega)
    unfold matchQty; omega
  have hmin : i64Min ≤ 0 := by decide
  have hle2 := h.quoteLe
  have hm : Matchable env price i s := ⟨hz.1, hz.2, hs, hw, hp, hl, by omega, hq, by omega, by omega⟩
  obtain ⟨gf, pf, hf, hf1, hf2, hf3⟩ := h.filled hE hr hm hb
  have hck : ckI64 (min (min s.remBase i.leaf.quantity) (s.remQuote.tdiv i.priceLots) * i.priceLots) =
      .ok (matchQty i s * i.priceLots) := ckI64_eq (x := matchQty i s * i.priceLots) (by omega) (by omega)
  rw [hck, ok_bind] at hres
  split at hres
  · rename_i hself
    cases hstb : env.order.selfTradeBehavior with
    | abortTransaction => rw [hstb] at hres; exact .inr ⟨rfl, hself, hres.symm⟩
    | decrementTake =>
      left
      rw [hstb] at hres
      simp only at hres
      have hdl := h.decrLe
      have hd0 := h.decr0
      rw [ckI64_eq (by omega) (by omega), ok_bind] at hres
      obtain ⟨s1, h1⟩ := matchFill_ok (i := i) (s0 := s) (s := { s with decr := s.decr + matchQty i s * i.priceLots }) rfl rfl rfl rfl hf hl
      obtain ⟨g, p, hf', _, he⟩ := matchFill_inv (i := i) (s0 := s) (s := { s with decr := s.decr + matchQty i s * i.priceLots })
        rfl rfl rfl rfl h1
      have h1' : matchFill env i (min (min s.remBase i.leaf.quantity) (s.remQuote.tdiv i.priceLots)) (matchQty i s * i.priceLots)
        { s with decr := s.decr + matchQty i s * i.priceLots } = .ok s1 := h1
      rw [h1'] at hres
      refine ⟨true, s1, hres.symm, ?_⟩
      have hg : g = gf := by
        have e := hf'.proc.symm.trans hf.proc
        injection e with e; injection e
      subst he; subst hg
      exact ⟨hb.light.trans hf3, hf1, hf2⟩
    | cancelProvide =>
      left
      rw [hstb] at hres
      simp only at hres
      have haa' : s.g.accts.get? env.owner = some aa := by rw [hself.2]; exact haa
      obtain ⟨a', hc'⟩ := (h.headPerm hE).cancelOk (fun _ => Int.le_refl _) hcov d1 d2 haa (hb.room.accts _ aa haa).1
      rw [(Accts.get_ok).mpr haa', ok_bind, hc', ok_bind] at hres
      refine ⟨_, _, hres.symm, hb.light.trans (LightFrame.set haa' (cancel_light hc' (by have : 1 ≤ i.leaf.quantity := ho.qty; omega) ?_)),
        hb.room.cancel haa' hc', hb.heap⟩
      intro o ho'
      have e : some o = some oo := ho'.symm.trans hslot
      injection e with e; subst e
      have : 1 ≤ o.lockedPrice := ho.lp
      omega
  · rename_i hself
    left
    have hqn : 0 ≤ matchQty i s * i.priceLots * s.g.market.quoteLotSize :=
      Int.mul_nonneg hge (by rw [h.frame.qls]; have := hE.qls; omega)
    have hquote : matchQty i s * i.priceLots * s.g.market.quoteLotSize ≤ i64Max := by
      rw [h.frame.qls]
      refine Int.le_trans (Int.mul_le_mul_of_nonneg_right (Int.le_trans hmle h.quoteLe) ?_) hE.maxQ
      have := hE.qls; omega
    have hu : i64Max ≤ u64Max := by decide
    rw [ckI64_eq (by omega) hquote, ok_bind, asU64_eq hqn (by omega), makerRebateFloor_ok hqn (by omega) (by have := hcov.fees.m0; have := hcov.fees.t1; omega), ok_bind] at hres
    have hrb0 : 0 ≤ floorRebate s.g.market.makerFee (matchQty i s * i.priceLots * s.g.market.quoteLotSize) := floorRebate_nonneg hqn
    have hrb1 : floorRebate s.g.market.makerFee (matchQty i s * i.priceLots * s.g.market.quoteLotSize) ≤
        matchQty i s * i.priceLots * s.g.market.quoteLotSize := by
      have hx := floorRebate_mul_le s.g.market.makerFee (matchQty i s * i.priceLots * s.g.market.quoteLotSize)
      have hy : matchQty i s * i.priceLots * s.g.market.quoteLotSize * max (-s.g.market.makerFee) 0 ≤
          matchQty i s * i.priceLots * s.g.market.quoteLotSize * 1000000 :=
        Int.mul_le_mul_of_nonneg_left (by have := hcov.fees.m0; have := hcov.fees.t1; omega) hqn
      omega
    have hrb2 : s.rebates ≤ i64Max := by
      have hx := h.rebLe hE hr.cov
      have hy : (maxQ - s.remQuote - s.decr) * g0.market.quoteLotSize ≤ maxQ * g0.market.quoteLotSize :=
        Int.mul_le_mul_of_nonneg_right (by have := h.decr0; omega) (by have := hE.qls; omega)
      have := hE.maxQ
      omega
    have hr0 := h.reb0
    rw [ckU64_eq (by omega) (by unfold i64Max at hquote hrb2; unfold u64Max; omega), ok_bind] at hres
    obtain ⟨s1, h1⟩ := matchFill_ok (i := i) (s0 := s)
      (s := { s with rebates := s.rebates + floorRebate s.g.market.makerFee (matchQty i s * i.priceLots * s.g.market.quoteLotSize) })
      rfl rfl rfl rfl hf hl
    obtain ⟨g, p, hf', _, he⟩ := matchFill_inv (i := i) (s0 := s)
      (s := { s with rebates := s.rebates + floorRebate s.g.market.makerFee (matchQty i s * i.priceLots * s.g.market.quoteLotSize) })
      rfl rfl rfl rfl h1
    have h1' : matchFill env i (min (min s.remBase i.leaf.quantity) (s.remQuote.tdiv i.priceLots)) (matchQty i s * i.priceLots)
      { s with rebates := s.rebates + floorRebate s.g.market.makerFee (matchQty i s * i.priceLots * s.g.market.quoteLotSize) } = .ok s1 := h1
    rw [h1'] at hres
    refine ⟨true, s1, hres.symm, ?_⟩
    have hg : g = gf := by
      have e := hf'.proc.symm.trans hf.proc
      injection e with e; injection e
    subst he; subst hg
    exact ⟨hb.light.trans hf3, hf1, hf2⟩

/-- The loop succeeds, or aborts on meeting an own order when that was asked for. -/
theorem foldItems_ok (hE : LoopEnv env E g0 maxQ) (hr : LoopRoom env g0 maxB maxQ B0 Q0) {c0 tk k0 : Nat} :
    ∀ (todo : List IterItem) (s : MatchSt), LoopI env price E own g0 maxB maxQ B0 Q0 n todo s → Budget g0 c0 tk k0 s →
    (∃ s', foldItems env price todo s = .ok s' ∧ Budget g0 c0 tk k0 s') ∨
    (env.order.selfTradeBehavior = .abortTransaction ∧ (∃ i ∈ todo, selfTrade env i) ∧ foldItems env price todo s = .error .wouldSelfTrade) := by
  intro todo
  induction todo with
  | nil => intro s _ hb; exact .inl ⟨s, rfl, hb⟩
  | cons i is ih =>
    intro s hI hb
    rw [foldItems]
    rcases matchStep_ok hE hr hI hb with ⟨go, s1, h1, h2⟩ | ⟨h1, h2, h3⟩
    · rw [h1, ok_bind]
      cases go with
      | false => exact .inl ⟨s1, rfl, h2⟩
      | true =>
        rcases ih s1 (hI.step hE (matchStep_inv h1)) h2 with h4 | ⟨h4, ⟨j, h5, h6⟩, h7⟩
        · exact .inl h4
        · exact .inr ⟨h4, ⟨j, by simp [h5], h6⟩, h7⟩
    · right
      rw [h3]
      exact ⟨h1, ⟨i, by simp, h2⟩, rfl⟩

end
end OB
