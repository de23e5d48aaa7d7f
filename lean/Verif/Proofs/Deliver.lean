import Verif.Proofs.Facts
import Verif.Spec.Deliver
/-! Delivery of events to the maker accounts. -/
namespace OB
open Spec

theorem set_getElem? {α} (l : List α) (i j : Nat) (x : α) :
    (l.set i x)[j]? = l[j]?.map (fun y => if i = j then x else y) := by
  rw [List.getElem?_set]
  by_cases h : i = j
  · subst h
    by_cases hl : i < l.length
    · simp [hl]
    · simp [hl, List.getElem?_eq_none (Nat.le_of_not_lt hl)]
  · simp only [if_neg h]; cases l[j]? <;> rfl

theorem total_one (e : Event) (f : Event → Int) : total [e] f = f e := by simp [total]
theorem total_cons (e : Event) (es : List Event) (f : Event → Int) : total (e :: es) f = f e + total es f := by simp [total]
theorem total_nil (f : Event → Int) : total [] f = 0 := rfl
theorem total_congr {es : List Event} {f g : Event → Int} (h : ∀ e ∈ es, f e = g e) : total es f = total es g := by
  unfold total; rw [List.map_congr_left h]

/-- A cancel event, or a cancel of the order. -/
theorem GInv.cancel_credit {m : Market} {as : Accts} {e : OutEvent} {oo : OpenOrder} {R : List Obl} {dB dQ : Int} {ex : Pubkey → Int}
    (h : GInv m as (.out e oo :: R) dB dQ ex) (hb : 0 < m.baseLotSize) (hq : 0 < m.quoteLotSize)
    {a a' : OOA} (ha : as.get? e.owner = some a) (hc : a.cancelOrder e.ownerSlot e.quantity m = .ok a') :
    Credited m e.owner [.out e] a a' := by
  obtain ⟨oo', fees, hr⟩ := cancelOrder_inv hc
  have ho := h.ok (.out e oo) (by simp)
  have hlink : a.openOrders[e.ownerSlot]? = some oo := h.link (.out e oo) (by simp) rfl a ha
  have hoo : oo' = oo := by
    have h1 := hr.hslot
    rw [hlink] at h1; injection h1 with h1; exact h1.symm
  subst hoo
  have hside : oo'.side = e.side := ho.oside rfl
  have hlk : eventLockedAt a (.out e) = oo'.lockedPrice := by simp [eventLockedAt, hlink]
  have h1 : 1 ≤ e.quantity := ho.qty
  have h2 : 1 ≤ oo'.lockedPrice := ho.lp
  have hqn : 0 ≤ e.quantity * oo'.lockedPrice * m.quoteLotSize := Int.mul_nonneg (Int.mul_nonneg (by omega) (by omega)) (by omega)
  have hbn : 0 ≤ e.quantity * m.baseLotSize := Int.mul_nonneg (by omega) (by omega)
  have eq1 : asU64 (e.quantity * oo'.lockedPrice * m.quoteLotSize) = e.quantity * oo'.lockedPrice * m.quoteLotSize :=
    asU64_eq hqn (by have : e.quantity * oo'.lockedPrice * m.quoteLotSize ≤ i64Max := ho.quote; unfold i64Max at this; unfold u64Max; omega)
  have eq2 : asU64 (e.quantity * m.baseLotSize) = e.quantity * m.baseLotSize :=
    asU64_eq hbn (by have : e.quantity * m.baseLotSize ≤ i64Max := ho.base; unfold i64Max at this; unfold u64Max; omega)
  have hfees : fees = bidFee m e.quantity oo'.lockedPrice := by
    have := hr.hfees; rw [eq1] at this; exact makerFeesCeilU_inv hqn this
  have hres := hr.res
  rw [eq1, eq2, hside] at hres
  have hsl : a'.openOrders = a.openOrders.set e.ownerSlot OpenOrder.default := by rw [hres]
  have hslots : ∀ (i : Nat), a'.openOrders[i]? = a.openOrders[i]?.map (fun oo => if [Event.out e].any (frees e.owner i) then OpenOrder.default else oo) := by
    intro i
    rw [hsl, set_getElem?]
    simp [frees]
  cases hs : e.side with
  | bid =>
    rw [hs] at hres
    simp only [relPos, freePos] at hres
    subst hres
    refine ⟨rfl, rfl, ?_, ?_, ?_, ?_, ?_, ?_, ?_, rfl, ?_, rfl, hslots⟩ <;>
      simp [total_one, creditBase, creditQuote, eventSide, eventQuantity, releasedFee, eventRebate, eventVolume, hs, hlk, hfees, bidValue]
  | ask =>
    rw [hs] at hres
    simp only [relPos, freePos] at hres
    subst hres
    refine ⟨rfl, rfl, ?_, ?_, ?_, ?_, ?_, ?_, ?_, rfl, ?_, rfl, hslots⟩ <;>
      simp [total_one, creditBase, creditQuote, eventSide, eventQuantity, releasedFee, eventRebate, eventVolume, hs]

/-- A fill. -/
theorem GInv.deliver_credit {m : Market} {as : Accts} {f : FillEvent} {oo : OpenOrder} {R : List Obl} {dB dQ : Int} {ex : Pubkey → Int}
    (h : GInv m as (.fill f oo :: R) dB dQ ex) (hb : 0 < m.baseLotSize) (hq : 0 < m.quoteLotSize)
    {a a' : OOA} {m' : Market} (ha : as.get? f.maker = some a) (hc : a.executeMaker m f = .ok (a', m')) :
    Credited m f.maker [.fill f] a a' ∧ m' = { m with
      feesAccrued := m.feesAccrued + fillMakerFee m f
      referrerRebatesAccrued := m.referrerRebatesAccrued + fillMakerFee m f
      makerVolume := m.makerVolume + fillQuote m f } := by
  obtain ⟨mf, rb, lf, ab, hr⟩ := executeMaker_inv hc
  have ho := h.ok (.fill f oo) (by simp)
  obtain ⟨hp1, hp2, hp3⟩ := ho.fill f oo rfl
  have h1 : 1 ≤ f.quantity := ho.qty
  have h2 : 1 ≤ fillLockPrice f := ho.lp
  have hquote : f.quantity * fillLockPrice f * m.quoteLotSize ≤ i64Max := ho.quote
  have hbase : f.quantity * m.baseLotSize ≤ i64Max := ho.base
  have hqn : 0 ≤ f.quantity * f.price * m.quoteLotSize := Int.mul_nonneg (Int.mul_nonneg (by omega) (by omega)) (by omega)
  have hln : 0 ≤ f.quantity * fillLockPrice f * m.quoteLotSize := Int.mul_nonneg (Int.mul_nonneg (by omega) (by omega)) (by omega)
  have hbn : 0 ≤ f.quantity * m.baseLotSize := Int.mul_nonneg (by omega) (by omega)
  have eq1 : asU64 (f.quantity * f.price * m.quoteLotSize) = f.quantity * f.price * m.quoteLotSize :=
    asU64_eq hqn (by unfold i64Max at hp2; unfold u64Max; omega)
  have eq2 : asU64 (f.quantity * m.baseLotSize) = f.quantity * m.baseLotSize :=
    asU64_eq hbn (by unfold i64Max at hbase; unfold u64Max; omega)
  have eq3 : asU64 (f.quantity * fillLockPrice f * m.quoteLotSize) = f.quantity * fillLockPrice f * m.quoteLotSize :=
    asU64_eq hln (by unfold i64Max at hquote; unfold u64Max; omega)
  have hrb : rb = fillRebate m f := by
    have := hr.hrebate
    unfold fillRebate
    split at this
    · rename_i he; rw [if_pos he]; cases this; rfl
    · rename_i he; rw [if_neg he]; rw [eq1] at this; exact makerRebateFloor_inv hqn this
  have hmf : mf = fillMakerFee m f := by
    have := hr.hfees
    unfold fillMakerFee
    split at this
    · rename_i he; rw [if_pos he]; cases this; rfl
    · rename_i he; rw [if_neg he]; rw [eq1] at this; exact makerFeesFloor_inv hqn this
  have hmk : m' = { m with
      feesAccrued := m.feesAccrued + fillMakerFee m f
      referrerRebatesAccrued := m.referrerRebatesAccrued + fillMakerFee m f
      makerVolume := m.makerVolume + fillQuote m f } := by
    rw [hr.mkt, eq1, hmf]; rfl
  refine ⟨?_, hmk⟩
  have hpos : a'.position = relPos f.takerSide.invert (makerPos f.takerSide.invert a.position (f.quantity * m.baseLotSize)
      (fillQuote m f) mf rb lf ab) f.quantity (fillLockPrice f) ∧
      a'.openOrders = (if f.makerOut then a.openOrders.set f.makerSlot OpenOrder.default else a.openOrders) ∧
      a'.owner = a.owner ∧ a'.delegate = a.delegate := by
    cases hout : f.makerOut with
    | false =>
      have := hr.part hout
      rw [eq1, eq2] at this
      rw [this]; exact ⟨rfl, rfl, rfl, rfl⟩
    | true =>
      obtain ⟨oo', hrr⟩ := hr.out hout
      have hlink := h.link (.fill f oo) (by simp) hout a ha
      have hoo : oo' = oo := by
        have := hrr.hslot
        simp only at this
        have hl : a.openOrders[f.makerSlot]? = some oo := hlink
        rw [hl] at this; injection this with this; exact this.symm
      subst hoo
      have hsd : oo'.side = f.takerSide.invert := ho.oside hout
      have := hrr.res
      rw [eq1, eq2, hsd] at this
      rw [this]; exact ⟨rfl, rfl, rfl, rfl⟩
  obtain ⟨hp, hsl, how, hde⟩ := hpos
  have hslots : ∀ (i : Nat), a'.openOrders[i]? = a.openOrders[i]?.map (fun oo => if [Event.fill f].any (frees f.maker i) then OpenOrder.default else oo) := by
    intro i
    rw [hsl]
    cases hout : f.makerOut with
    | true => rw [if_pos rfl, set_getElem?]; simp [frees, hout]
    | false => simp [frees, hout]
  cases hts : f.takerSide with
  | ask =>
    have hlf : lf = fillLockedFee m f ∧ ab = (fillLocked m f - fillQuote m f) + (fillLockedFee m f - fillMakerFee m f) ∧
        fillLockPrice f = eventLockedAt a (.fill f) := by
      by_cases hpeg : f.pegLimit ≠ -1 ∧ f.takerSide = .ask
      · obtain ⟨_, _, g3, _, _, _, g7⟩ := hr.locked.peg hpeg
        have elp : fillLockPrice f = f.pegLimit := by unfold fillLockPrice; rw [if_pos hpeg]
        rw [← elp, eq3] at g3 g7
        rw [eq1] at g7
        have e := makerFeesFloor_inv hln g3
        simp only [fillLockedFee, fillLocked, eventLockedAt, if_neg hpeg.1]
        rw [elp] at e g7
        refine ⟨e, ?_, elp⟩
        rw [g7, hmf, e]; rfl
      · have hpl : f.pegLimit = -1 := by
          by_cases hx : f.pegLimit = -1
          · exact hx
          · exact absurd ⟨hx, hts⟩ hpeg
        obtain ⟨g1, g2⟩ := hr.locked.fixed hpeg
        have elp : fillLockPrice f = f.price := by unfold fillLockPrice; rw [if_neg hpeg]
        simp only [fillLockedFee, fillLocked, eventLockedAt, if_pos hpl]
        exact ⟨by omega, by omega, elp⟩
    obtain ⟨e1, e2, e3⟩ := hlf
    rw [hts] at hp
    simp only [Side.invert, relPos, makerPos] at hp
    refine ⟨how, hde, ?_, ?_, ?_, ?_, ?_, ?_, ?_, by rw [hp], ?_, by rw [hp], hslots⟩ <;> rw [hp] <;>
      simp [total_one, creditBase, creditQuote, eventSide, Side.invert, eventQuantity, releasedFee, eventRebate, eventVolume, hts, e1, e2, e3, hrb, hmf]
    omega
  | bid =>
    rw [hts] at hp
    simp only [Side.invert, relPos, makerPos] at hp
    refine ⟨how, hde, ?_, ?_, ?_, ?_, ?_, ?_, ?_, by rw [hp], ?_, by rw [hp], hslots⟩ <;> rw [hp] <;>
      simp [total_one, creditBase, creditQuote, eventSide, Side.invert, eventQuantity, releasedFee, eventRebate, eventVolume, hts, hrb, hmf]

/-! ### sequences -/

theorem Accts.isSome_get? {as : Accts} {k : Pubkey} : (as.get? k).isSome ↔ k ∈ as.map (·.1) := by
  rw [← not_iff_not, ← Accts.get?_none_iff]
  cases as.get? k <;> simp

/-- The amounts depend on lot sizes and maker fee only. -/
theorem Spec.Credited.congr {m m' : Market} {k : Pubkey} {es : List Event} {a a' : OOA} (h : Credited m' k es a a')
    (hb : m'.baseLotSize = m.baseLotSize) (hq : m'.quoteLotSize = m.quoteLotSize) (hf : m'.makerFee = m.makerFee) :
    Credited m k es a a' := by
  have e1 : fillQuote m' = fillQuote m := by funext f; simp [fillQuote, hq]
  have e2 : fillMakerFee m' = fillMakerFee m := by funext f; simp [fillMakerFee, e1, hf]
  have e3 : fillRebate m' = fillRebate m := by funext f; simp [fillRebate, e1, hf]
  have e4 : fillLocked m' = fillLocked m := by funext f; simp [fillLocked, e1, hq]
  have e5 : fillLockedFee m' = fillLockedFee m := by funext f; simp [fillLockedFee, e2, e4, hf]
  have e6 : bidValue m' = bidValue m := by funext f g; simp [bidValue, hq]
  have e7 : bidFee m' = bidFee m := by funext f g; simp [bidFee, e6, hf]
  have c1 : creditBase m' = creditBase m := by funext e; cases e <;> simp [creditBase, hb]
  have c2 : creditQuote m' a = creditQuote m a := by funext e; cases e <;> simp [creditQuote, e1, e2, e3, e4, e5, e6, e7]
  have c3 : releasedFee m' a = releasedFee m a := by funext e; cases e <;> simp [releasedFee, e5, e7]
  have c4 : eventRebate m' = eventRebate m := by funext e; cases e <;> simp [eventRebate, e2]
  have c5 : eventVolume m' = eventVolume m := by funext e; cases e <;> simp [eventVolume, e1]
  obtain ⟨h1, h2, h3, h4, h5, h6, h7, h8, h9, h10, h11, h12, h13⟩ := h
  rw [c1] at h3; rw [c2] at h4; rw [c3] at h8; rw [c4] at h9; rw [c5] at h11
  exact ⟨h1, h2, h3, h4, h5, h6, h7, h8, h9, h10, h11, h12, h13⟩

theorem Spec.Credited.nil (m : Market) (k : Pubkey) (a : OOA) : Credited m k [] a a := by
  refine ⟨rfl, rfl, ?_, ?_, ?_, ?_, ?_, ?_, ?_, rfl, ?_, rfl, ?_⟩ <;> simp [total_nil]

theorem Spec.Credited.cons {m : Market} {k : Pubkey} {e : Event} {es : List Event} {a a1 a' : OOA} (h1 : Credited m k [e] a a1)
    (h2 : Credited m k es a1 a') (hl : ∀ x ∈ es, eventLockedAt a1 x = eventLockedAt a x) : Credited m k (e :: es) a a' := by
  have c2 : total es (creditQuote m a1) = total es (creditQuote m a) := total_congr (fun x hx => by
    cases x <;> simp [creditQuote, hl _ hx])
  have c3 : total es (releasedFee m a1) = total es (releasedFee m a) := total_congr (fun x hx => by
    cases x <;> simp [releasedFee, hl _ hx])
  have c4 : total es (fun e => if eventSide e = .bid then eventQuantity e * eventLockedAt a1 e else 0) =
      total es (fun e => if eventSide e = .bid then eventQuantity e * eventLockedAt a e else 0) := total_congr (fun x hx => by
    simp only [hl _ hx])
  obtain ⟨f1, f2, f3, f4, f5, f6, f7, f8, f9, f10, f11, f12, f13⟩ := h1
  obtain ⟨g1, g2, g3, g4, g5, g6, g7, g8, g9, g10, g11, g12, g13⟩ := h2
  simp only [total_one] at f3 f4 f5 f6 f7 f8 f9 f11
  refine ⟨g1.trans f1, g2.trans f2, ?_, ?_, ?_, ?_, ?_, ?_, ?_, g10.trans f10, ?_, g12.trans f12, ?_⟩
  · rw [total_cons, g3, f3]; omega
  · rw [total_cons, g4, f4, c2]; omega
  · rw [total_cons, g5, f5]; omega
  · rw [total_cons, g6, f6]; omega
  · rw [total_cons, g7, f7, c4]; omega
  · rw [total_cons, g8, f8, c3]; omega
  · rw [total_cons, g9, f9]; omega
  · rw [total_cons, g11, f11]; omega
  · intro i
    rw [g13, f13, Option.map_map]
    congr 1
    funext oo
    simp only [Function.comp, List.any_cons, List.any_nil, Bool.or_false]
    by_cases x1 : frees k i e = true <;> by_cases x2 : es.any (frees k i) = true <;> simp only [x1, x2, Bool.or_true, Bool.true_or, Bool.or_self, if_true, if_false, Bool.false_eq_true]

/-- The ledger part of `Delivered`. -/
structure DeliveredL (g g' : Ledger) (es : List Event) : Prop where
  keys : g'.accts.map (·.1) = g.accts.map (·.1)
  accts : ∀ k a, g.accts.get? k = some a →
    ∃ a', g'.accts.get? k = some a' ∧ Credited g.market k (es.filter (fun e => eventAccount e = k)) a a'
  known : ∀ e ∈ es, (g.accts.get? (eventAccount e)).isSome
  market : g'.market = { g.market with
    feesAccrued := g.market.feesAccrued + total es (eventRebate g.market)
    referrerRebatesAccrued := g.market.referrerRebatesAccrued + total es (eventRebate g.market)
    makerVolume := g.market.makerVolume + total es (eventVolume g.market) }

theorem DeliveredL.nil (g : Ledger) : DeliveredL g g [] :=
  ⟨rfl, fun k a h => ⟨a, h, Credited.nil _ _ _⟩, (fun _ h => nomatch h), by simp [total_nil]⟩

theorem DeliveredL.cons {g g1 g' : Ledger} {e : Event} {es : List Event} (h1 : DeliveredL g g1 [e]) (h2 : DeliveredL g1 g' es)
    (hl : ∀ x ∈ es, ∀ a a1, g.accts.get? (eventAccount x) = some a → g1.accts.get? (eventAccount x) = some a1 →
      eventLockedAt a1 x = eventLockedAt a x) : DeliveredL g g' (e :: es) := by
  have cong : ∀ {k es a a'}, Credited g1.market k es a a' → Credited g.market k es a a' := fun h =>
    h.congr (by rw [h1.market]) (by rw [h1.market]) (by rw [h1.market])
  have c4 : eventRebate g1.market = eventRebate g.market := by
    rw [h1.market]; funext e; cases e <;> rfl
  have c5 : eventVolume g1.market = eventVolume g.market := by
    rw [h1.market]; funext e; cases e <;> rfl
  refine ⟨h2.keys.trans h1.keys, ?_, ?_, ?_⟩
  · intro k a ha
    obtain ⟨a1, ha1, k1⟩ := h1.accts k a ha
    obtain ⟨a', ha', k2⟩ := h2.accts k a1 ha1
    refine ⟨a', ha', ?_⟩
    have k2 := cong k2
    by_cases hk : eventAccount e = k
    · simp only [List.filter_cons, hk, decide_true, if_true, List.filter_nil] at k1 ⊢
      refine k1.cons k2 (fun x hx => ?_)
      simp only [List.mem_filter, decide_eq_true_eq] at hx
      exact hl x hx.1 a a1 (by rw [hx.2]; exact ha) (by rw [hx.2]; exact ha1)
    · simp only [List.filter_cons, hk, decide_false, List.filter_nil] at k1 ⊢
      have hna : ∀ x ∈ es.filter (fun e => eventAccount e = k), eventLockedAt a1 x = eventLockedAt a x := by
        intro x hx
        simp only [List.mem_filter, decide_eq_true_eq] at hx
        exact hl x hx.1 a a1 (by rw [hx.2]; exact ha) (by rw [hx.2]; exact ha1)
      -- an account that the first event leaves alone
      obtain ⟨f1, f2, f3, f4, f5, f6, f7, f8, f9, f10, f11, f12, f13⟩ := k1
      obtain ⟨g1, g2, g3, g4, g5, g6, g7, g8, g9, g10, g11, g12, g13⟩ := k2
      have c2 : total (es.filter (fun e => eventAccount e = k)) (creditQuote g.market a1) = total (es.filter (fun e => eventAccount e = k)) (creditQuote g.market a) :=
        total_congr (fun x hx => by cases x <;> simp [creditQuote, hna _ hx])
      have c3 : total (es.filter (fun e => eventAccount e = k)) (releasedFee g.market a1) = total (es.filter (fun e => eventAccount e = k)) (releasedFee g.market a) :=
        total_congr (fun x hx => by cases x <;> simp [releasedFee, hna _ hx])
      have c4 : total (es.filter (fun e => eventAccount e = k)) (fun e => if eventSide e = .bid then eventQuantity e * eventLockedAt a1 e else 0) =
          total (es.filter (fun e => eventAccount e = k)) (fun e => if eventSide e = .bid then eventQuantity e * eventLockedAt a e else 0) :=
        total_congr (fun x hx => by simp only [hna _ hx])
      simp only [total_nil, Int.add_zero, Int.sub_zero, if_false, Bool.false_eq_true] at f3 f4 f5 f6 f7 f8 f9 f11 ⊢
      refine ⟨g1.trans f1, g2.trans f2, by rw [g3, f3], by rw [g4, f4, c2], by rw [g5, f5], by rw [g6, f6], by rw [g7, f7, c4],
        by rw [g8, f8, c3], by rw [g9, f9], g10.trans f10, by rw [g11, f11], g12.trans f12, ?_⟩
      intro i
      rw [g13, f13, Option.map_map]
      congr 1
  · intro x hx
    rcases List.mem_cons.mp hx with rfl | hx
    · exact h1.known x (by simp)
    · have := h2.known x hx
      rw [Accts.isSome_get?] at this ⊢
      rw [h1.keys] at this; exact this
  · rw [h2.market, c4, c5, h1.market]
    simp only [total_cons, total_nil]
    congr 1 <;> omega

/-! ### one event -/

theorem DeliveredL.one {g : Ledger} {k : Pubkey} {a a' : OOA} {e : Event} {m' : Market} {h' : EventHeap} (ha : g.accts.get? k = some a)
    (he : eventAccount e = k) (hc : Credited g.market k [e] a a') (hm : m' = { g.market with
      feesAccrued := g.market.feesAccrued + eventRebate g.market e
      referrerRebatesAccrued := g.market.referrerRebatesAccrued + eventRebate g.market e
      makerVolume := g.market.makerVolume + eventVolume g.market e }) :
    DeliveredL g { market := m', heap := h', accts := g.accts.set k a' } [e] := by
  refine ⟨Accts.keys_set _ _ _, ?_, ?_, ?_⟩
  · intro j b hb
    by_cases hj : j = k
    · subst hj
      rw [ha] at hb; cases hb
      refine ⟨a', Accts.get?_set_self _ ha, ?_⟩
      simpa [he] using hc
    · refine ⟨b, by rw [Accts.get?_set_ne _ hj]; exact hb, ?_⟩
      have : eventAccount e ≠ j := by rw [he]; exact fun h => hj h.symm
      simpa [this] using Credited.nil _ _ _
  · intro x hx
    simp only [List.mem_singleton] at hx
    rw [hx, he, ha]; rfl
  · rw [hm]; simp [total_one]

/-- One consumed event: what `LInvW.consume` says, with the exact amounts. -/
theorem LInvW.deliver {g g1 : Ledger} {L : Rests} {dB dQ : Int} {ex : Pubkey → Int} {n : Nat} {O : List Obl}
    {q : List (Nat × Event)} (h : LInvW g L dB dQ ex n O q) (hb : 0 < g.market.baseLotSize) (hq : 0 < g.market.quoteLotSize)
    {slot : Nat} {e : Event} (hs : g.heap.atSlot slot = some e) (ha : applyEvent g e = .ok g1) {x : Event} {h' : EventHeap}
    (hd : g1.heap.deleteSlot slot = .ok (x, h')) :
    ∃ o O' q', O.Perm (o :: O') ∧ o.k = .ev e ∧ LInvW { g1 with heap := h' } L dB dQ ex n O' q' ∧
      Consumed g { g1 with heap := h' } q q' slot e ∧ DeliveredL g { g1 with heap := h' } [e] := by
  obtain ⟨o, O', q', p1, p2, p3, p4⟩ := h.consume hb hq hs ha hd
  refine ⟨o, O', q', p1, p2, p3, p4, ?_⟩
  have hw := h.permO p1
  cases o with
  | rest s c l oo => cases p2
  | fill f oo =>
    have he : e = .fill f := by cases p2; rfl
    subst he
    simp only [applyEvent, bind_ok, pure_ok, Accts.get_ok] at ha
    obtain ⟨a, hacc, ⟨a', m'⟩, hex, rfl⟩ := ha
    obtain ⟨c1, c2⟩ := hw.ginv.deliver_credit hb hq hacc hex
    exact DeliveredL.one hacc rfl c1 c2
  | out ev oo =>
    have he : e = .out ev := by cases p2; rfl
    subst he
    simp only [applyEvent, bind_ok, pure_ok, Accts.get_ok] at ha
    obtain ⟨a, hacc, a', hex, rfl⟩ := ha
    exact DeliveredL.one hacc rfl (hw.ginv.cancel_credit hb hq hacc hex) (by simp [eventRebate, eventVolume])

/-- The price an out event releases funds at is still recorded after other events have been delivered. -/
theorem LInvW.locked_same {g g' : Ledger} {L : Rests} {dB dQ : Int} {ex : Pubkey → Int} {n : Nat} {o : Obl} {O : List Obl}
    {q q' : List (Nat × Event)} (h : LInvW g L dB dQ ex n (o :: O) q) (h' : LInvW g' L dB dQ ex n O q') {e : Event}
    (he : e ∈ g'.heap.events) {a a' : OOA} (ha : g.accts.get? (eventAccount e) = some a) (ha' : g'.accts.get? (eventAccount e) = some a') :
    eventLockedAt a' e = eventLockedAt a e := by
  obtain ⟨o1, ho1, hk⟩ := h'.mem_ev he
  cases e with
  | fill f => rfl
  | out ev =>
    cases o1 with
    | rest s c l oo => cases hk
    | fill f oo => cases hk
    | out ev' oo =>
      have e1 : ev' = ev := by cases hk; rfl
      subst e1
      have l1 : a'.openOrders[ev'.ownerSlot]? = some oo := h'.ginv.link _ ho1 rfl a' ha'
      have l2 : a.openOrders[ev'.ownerSlot]? = some oo := h.ginv.link _ (List.mem_cons_of_mem _ ho1) rfl a ha
      simp only [eventLockedAt, l1, l2]

theorem eventAccount_eq (e : Event) : eventAccount e = e.target := by cases e <;> rfl

theorem atSlot_events {h : EventHeap} {q : List (Nat × Event)} (hr : HeapRep h q) {i : Nat} {e : Event} (he : h.atSlot i = some e) :
    e ∈ h.events := by
  rw [hr.events]
  exact List.mem_map.mpr ⟨_, (atSlot_some hr).mp he, rfl⟩

theorem key_unique {q : List (Nat × Event)} (hn : (q.map (·.1)).Nodup) {i : Nat} {e e' : Event} (h : (i, e) ∈ q) (h' : (i, e') ∈ q) :
    e = e' := by
  obtain ⟨j, hj, ej⟩ := List.mem_iff_getElem.mp h
  obtain ⟨j', hj', ej'⟩ := List.mem_iff_getElem.mp h'
  have : j = j' := (List.Nodup.getElem_inj_iff hn (i := j) (j := j') (hi := by simpa using hj) (hj := by simpa using hj')).mp (by
    simp [ej, ej'])
  subst this
  rw [ej] at ej'
  exact (Prod.mk.inj ej').2

/-- The whole loop: exactly the events of the given slots whose account is present are delivered and removed. -/
theorem consumeLoop_deliver {rem : List Pubkey} {todo : List Nat} {g g' : Ledger} {L : Rests} {dB dQ : Int} {ex : Pubkey → Int} {n : Nat}
    {O : List Obl} {q : List (Nat × Event)} (hw : LInvW g L dB dQ ex n O q) (hb : 0 < g.market.baseLotSize)
    (hq : 0 < g.market.quoteLotSize) (hn : todo.Nodup) (hc : consumeLoop rem todo g = .ok g') :
    ∃ O' q', LInvW g' L dB dQ ex n O' q' ∧ q' = q.filter (fun x => !(decide (x.1 ∈ todo) && decide (x.2.target ∈ rem))) ∧
      DeliveredL g g' ((todo.filterMap g.heap.atSlot).filter (fun e => e.target ∈ rem)) := by
  induction todo generalizing g O q with
  | nil =>
    cases hc
    refine ⟨O, q, hw, ?_, DeliveredL.nil _⟩
    simp
  | cons slot rest ih =>
    simp only [consumeLoop, bind_ok, unwrapR_ok] at hc
    obtain ⟨e, he, hc⟩ := hc
    rw [List.nodup_cons] at hn
    have hmem := (atSlot_some hw.heap).mp he
    split at hc
    · rename_i hrem
      simp only [bind_ok] at hc
      obtain ⟨g1, ha, ⟨x, h'⟩, hd, hc⟩ := hc
      obtain ⟨o, O', q1, p1, p2, hw', hcs, hdl⟩ := hw.deliver hb hq he ha hd
      obtain ⟨O2, q2, r1, r2, r3⟩ := ih hw' (by rw [hcs.frame.bls]; exact hb) (by rw [hcs.frame.qls]; exact hq) hn.2 hc
      obtain ⟨A, B, hAB, hq1⟩ := hcs.queue
      have hnd := hw.heap.nodup
      have hne : ∀ x ∈ A ++ B, x.1 ≠ slot := by
        intro x hx hs
        rw [hAB, List.map_append, List.map_cons] at hnd
        have := (List.nodup_middle.mp hnd)
        rw [List.nodup_cons, ← List.map_append] at this
        exact this.1 (List.mem_map.mpr ⟨x, hx, hs⟩)
      have hat : ∀ i ∈ rest, h'.atSlot i = g.heap.atSlot i := by
        intro i hi
        have his : i ≠ slot := fun h => hn.1 (h ▸ hi)
        apply Option.ext
        intro y
        rw [atSlot_some (h := h') (q := q1) hw'.heap, atSlot_some hw.heap, hq1, hAB]
        simp [his]
      have hes : (rest.filterMap h'.atSlot).filter (fun e => e.target ∈ rem) = (rest.filterMap g.heap.atSlot).filter (fun e => e.target ∈ rem) := by
        congr 1
        exact List.filterMap_congr hat
      have hlist : ((slot :: rest).filterMap g.heap.atSlot).filter (fun e => e.target ∈ rem) =
          e :: (rest.filterMap g.heap.atSlot).filter (fun e => e.target ∈ rem) := by
        rw [List.filterMap_cons_some he, List.filter_cons_of_pos (by simpa using hrem)]
      refine ⟨O2, q2, r1, ?_, ?_⟩
      · rw [r2, hq1, hAB]
        have key : ∀ Z : List (Nat × Event), (∀ x ∈ Z, x.1 ≠ slot) →
            Z.filter (fun x => !(decide (x.1 ∈ rest) && decide (x.2.target ∈ rem))) =
            Z.filter (fun x => !(decide (x.1 ∈ slot :: rest) && decide (x.2.target ∈ rem))) := by
          intro Z hZ
          apply List.filter_congr
          intro x hx
          have : (x.1 ∈ slot :: rest) ↔ x.1 ∈ rest := by simp [hZ x hx]
          simp only [this]
        rw [List.filter_append, List.filter_append, List.filter_cons_of_neg (by simp [hrem]),
          key A (fun x hx => hne x (List.mem_append_left _ hx)), key B (fun x hx => hne x (List.mem_append_right _ hx))]
      · rw [hlist]
        refine hdl.cons (by rw [← hes]; exact r3) ?_
        intro x hx a a1 hxa hxa1
        rw [← hes] at hx
        obtain ⟨i, hi, hix⟩ := List.mem_filterMap.mp (List.mem_filter.mp hx).1
        exact (hw.permO p1).locked_same hw' (atSlot_events hw'.heap hix) hxa hxa1
    · rename_i hrem
      obtain ⟨O2, q2, r1, r2, r3⟩ := ih hw hb hq hn.2 hc
      refine ⟨O2, q2, r1, ?_, ?_⟩
      · rw [r2]
        apply List.filter_congr
        intro x hx
        by_cases hs : x.1 = slot
        · have : x.2 = e := key_unique hw.heap.nodup (i := slot) (by rw [← hs]; exact hx) hmem
          rw [this]; simp [hrem]
        · have : (x.1 ∈ slot :: rest) ↔ x.1 ∈ rest := by simp [hs]
          simp only [this]
      · rw [List.filterMap_cons_some he, List.filter_cons_of_neg (by simpa using hrem)]
        exact r3

end OB
