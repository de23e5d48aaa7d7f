import Verif.Proofs.Extra
import Verif.Proofs.Match
import Verif.Spec.Cancel
/-! Cancelling resting orders: exact effect, completeness, and that it does not fail. -/
namespace OB
open OB.Spec

theorem Side.cases (s : Side) : s = .bid ∨ s = .ask := by cases s <;> simp

theorem sumOver_nil (f : Side → Comp → LeafNode → Int) : sumOver [] f = 0 := rfl
theorem sumOver_cons (x : Side × Comp × LeafNode) (ls : Rests) (f : Side → Comp → LeafNode → Int) :
    sumOver (x :: ls) f = f x.1 x.2.1 x.2.2 + sumOver ls f := by simp [sumOver]
theorem sumOver_append (l1 l2 : Rests) (f : Side → Comp → LeafNode → Int) :
    sumOver (l1 ++ l2) f = sumOver l1 f + sumOver l2 f := by simp [sumOver]

theorem Spec.Released.nil (m : Market) (a : OOA) : Released m [] a a := by
  refine ⟨rfl, rfl, ?_, ?_, ?_, ?_, ?_, ?_, rfl, rfl, rfl, rfl, ?_⟩ <;> simp [sumOver_nil]

theorem Spec.Released.trans {m : Market} {l1 l2 : Rests} {a b c : OOA} (h1 : Released m l1 a b) (h2 : Released m l2 b c) :
    Released m (l1 ++ l2) a c := by
  refine ⟨h2.owner.trans h1.owner, h2.delegate.trans h1.delegate, ?_, ?_, ?_, ?_, ?_, ?_, h2.rebates.trans h1.rebates,
    h2.penalty.trans h1.penalty, h2.makerVolume.trans h1.makerVolume, h2.takerVolume.trans h1.takerVolume, ?_⟩
  · rw [h2.base, h1.base, sumOver_append]; omega
  · rw [h2.quote, h1.quote, sumOver_append]; omega
  · rw [h2.bids, h1.bids, sumOver_append]; omega
  · rw [h2.asks, h1.asks, sumOver_append]; omega
  · rw [h2.bidsQuote, h1.bidsQuote, sumOver_append]; omega
  · rw [h2.fees, h1.fees, sumOver_append]; omega
  · intro i
    rw [h2.slots, h1.slots, List.any_append]
    cases a.openOrders[i]? with
    | none => rfl
    | some oo =>
      simp only [Option.map_some]
      cases l1.any (fun x => decide (x.2.2.ownerSlot = i)) <;> cases l2.any (fun x => decide (x.2.2.ownerSlot = i)) <;> simp

/-- One cancelled order. -/
theorem LInv.released {g : Ledger} {s : Side} {c : Comp} {l : LeafNode} {L : Rests} {dB dQ : Int} {ex : Pubkey → Int} {n : Nat}
    (h : LInv g ((s, c, l) :: L) dB dQ ex n) (hb : 0 < g.market.baseLotSize) (hq : 0 < g.market.quoteLotSize)
    {a a' : OOA} (ha : g.accts.get? l.owner = some a) (hc : a.cancelOrder l.ownerSlot l.quantity g.market = .ok a') :
    Released g.market [(s, c, l)] a a' := by
  obtain ⟨oo, R, q, hw, _⟩ := h.takeRest
  obtain ⟨oo', fees, hr⟩ := cancelOrder_inv hc
  have ho := hw.ginv.ok (.rest s c l oo) (by simp)
  have hlink : a.openOrders[l.ownerSlot]? = some oo := hw.ginv.link (.rest s c l oo) (by simp) rfl a ha
  have hoo : oo' = oo := by
    have h1 := hr.hslot
    rw [hlink] at h1; injection h1 with h1; exact h1.symm
  subst hoo
  have hside : oo'.side = s := ho.oside rfl
  have hrest := ho.rest _ _ _ _ rfl
  have hlk : s = .bid → lockedAt c l = oo'.lockedPrice := by
    intro hs
    cases c with
    | fixed => exact (hrest.fixed rfl).2.2.2.symm
    | pegged => exact ((hrest.pegged rfl).2 hs).symm
  have h1 : 1 ≤ l.quantity := ho.qty
  have h2 : 1 ≤ oo'.lockedPrice := ho.lp
  have hqn : 0 ≤ l.quantity * oo'.lockedPrice * g.market.quoteLotSize := Int.mul_nonneg (Int.mul_nonneg (by omega) (by omega)) (by omega)
  have hbn : 0 ≤ l.quantity * g.market.baseLotSize := Int.mul_nonneg (by omega) (by omega)
  have eq1 : asU64 (l.quantity * oo'.lockedPrice * g.market.quoteLotSize) = l.quantity * oo'.lockedPrice * g.market.quoteLotSize :=
    asU64_eq hqn (by have : l.quantity * oo'.lockedPrice * g.market.quoteLotSize ≤ i64Max := ho.quote; unfold i64Max at this; unfold u64Max; omega)
  have eq2 : asU64 (l.quantity * g.market.baseLotSize) = l.quantity * g.market.baseLotSize :=
    asU64_eq hbn (by have : l.quantity * g.market.baseLotSize ≤ i64Max := ho.base; unfold i64Max at this; unfold u64Max; omega)
  have hfees : fees = bidFee g.market l.quantity oo'.lockedPrice := by
    have := hr.hfees; rw [eq1] at this; exact makerFeesCeilU_inv hqn this
  have hres := hr.res
  rw [eq1, eq2, hside] at hres
  have hsl : a'.openOrders = a.openOrders.set l.ownerSlot OpenOrder.default := by rw [hres]
  have hslots : ∀ (i : Nat), a'.openOrders[i]? =
      a.openOrders[i]?.map (fun oo => if [(s, c, l)].any (fun x => x.2.2.ownerSlot = i) then OpenOrder.default else oo) := by
    intro i
    rw [hsl, set_getElem?]
    simp
  cases hs : s with
  | bid =>
    rw [hs] at hres
    have hlk := hlk hs
    simp only [relPos, freePos] at hres
    subst hres
    rw [← hs]
    refine ⟨rfl, rfl, ?_, ?_, ?_, ?_, ?_, ?_, rfl, rfl, rfl, rfl, hslots⟩ <;>
      simp [sumOver, lockedBase, heldQuote, heldFee, hs, hlk, hfees, bidValue]
  | ask =>
    rw [hs] at hres
    simp only [relPos, freePos] at hres
    subst hres
    rw [← hs]
    refine ⟨rfl, rfl, ?_, ?_, ?_, ?_, ?_, ?_, rfl, rfl, rfl, rfl, hslots⟩ <;>
      simp [sumOver, lockedBase, heldQuote, heldFee, hs]

/-- What is recorded in the slot of a resting order. -/
theorem LInv.restRecord {g : Ledger} {L : Rests} {dB dQ : Int} {ex : Pubkey → Int} {n : Nat} (h : LInv g L dB dQ ex n)
    {x : Side × Comp × LeafNode} (hx : x ∈ L) {a : OOA} (ha : g.accts.get? x.2.2.owner = some a) :
    ∃ oo, a.openOrders[x.2.2.ownerSlot]? = some oo ∧ oo.isFree = false ∧ oo.id = x.2.2.key ∧ oo.side = x.1 ∧ oo.comp = x.2.1 ∧
      oo.clientId = x.2.2.clientOrderId := by
  obtain ⟨O, q, hw⟩ := h
  obtain ⟨oo, ho⟩ := hw.mem_rest hx
  have hok := hw.ginv.ok _ ho
  have hr := hok.rest _ _ _ _ rfl
  exact ⟨oo, hw.ginv.link _ ho rfl a ha, hok.used rfl, hr.id, hok.oside rfl, hr.comp, hr.client⟩

/-- Cancelling a resting order of an account does not fail. -/
theorem LInv.cancelOk {g : Ledger} {s : Side} {c : Comp} {l : LeafNode} {L : Rests} {dB dQ : Int} {ex : Pubkey → Int} {n : Nat}
    (h : LInv g ((s, c, l) :: L) dB dQ ex n) (hex : ∀ k, 0 ≤ ex k) (hc : Covered g.market)
    (hdB : g.market.baseDepositTotal + dB ≤ u64Max) (hdQ : g.market.quoteDepositTotal + dQ ≤ u64Max)
    {a : OOA} (ha : g.accts.get? l.owner = some a) (hl : LotsOk a.position) :
    ∃ a', a.cancelOrder l.ownerSlot l.quantity g.market = .ok a' := by
  obtain ⟨oo, R, q, hw, _⟩ := h.takeRest
  exact hw.ginv.cancel_ok hex hc hdB hdQ (.inl ⟨s, c, l, oo, rfl⟩) ha hl

/-- Looking an order up in the book. -/
theorem cancelOnBook_cases {book : Book} (hb : BookOk book) (a : OOA) (m : Market) (id : Nat) (side : Side) (c : Comp)
    (eo : Option Pubkey) :
    (cancelOrderOnBook book a m id side c eo = .error .orderIdNotFound ∧ ∀ l, (side, c, l) ∈ book.resting → l.key ≠ id) ∨
    (∃ l, (side, c, l) ∈ book.resting ∧ l.key = id ∧ ∀ a', a.cancelOrder l.ownerSlot l.quantity m = .ok a' →
      (∀ o, eo = some o → l.owner = o) → ∃ book', cancelOrderOnBook book a m id side c eo = .ok (l, book', a')) := by
  obtain ⟨ot, hot⟩ := hb.ok side
  unfold cancelOrderOnBook
  rcases bs_removeByKey hot c id with ⟨h1, h2⟩ | ⟨l, b', ot', h1, h2, h3, h4, h5, h6⟩
  · left
    rw [h1]
    refine ⟨rfl, fun l hl => ?_⟩
    rw [mem_resting, hot.orders] at hl
    exact h2 l hl
  · right
    refine ⟨l, ?_, h2, fun a' ha ho => ⟨book.setSide side b', ?_⟩⟩
    · rw [mem_resting, hot.orders]
      exact h4.mem_iff.mpr (by simp)
    · rw [h1]
      simp only [ok_bind, ha]
      cases eo with
      | none => rfl
      | some o => simp only [ho o rfl, req, if_true, decide_true]; rfl

/-- The exact effect of the cancel loop. -/
structure LoopRun (g : Ledger) (k : Pubkey) (so : Option Side) (co : Option Nat) (cnt i limit : Nat) (book : Book) (a : OOA)
    (book' : Book) (a' : OOA) (ls : Rests) : Prop where
  rest : book.resting.Perm (ls ++ book'.resting)
  owner : ∀ x ∈ ls, Matches k so co x
  rel : Released g.market ls a a'
  len : ls.length ≤ limit
  all : cnt ≤ limit → ∀ x ∈ book'.resting, Matches k so co x → i ≤ x.2.2.ownerSlot → x.2.2.ownerSlot < i + cnt → False

theorem cancelAllLoop_full {m : Market} {so : Option Side} {co : Option Nat} {cnt i limit : Nat} {book book' : Book} {a a' : OOA}
    {t t' : Int} {g : Ledger} {k : Pubkey} {dB dQ : Int} {ex : Pubkey → Int} {n : Nat} (hm : g.market = m) (hex : ∀ k, 0 ≤ ex k)
    (hcov : Covered g.market) (hdB : g.market.baseDepositTotal + dB ≤ u64Max) (hdQ : g.market.quoteDepositTotal + dQ ≤ u64Max)
    (hb : BookOk book) {a0 : OOA} (ha0 : g.accts.get? k = some a0)
    (hl : LInv (g.put k a) book.resting dB dQ ex n) (hlots : LotsOk a.position)
    (h : cancelAllLoop m so co cnt i limit book a t = .ok (t', book', a')) :
    ∃ ls, LoopRun g k so co cnt i limit book a book' a' ls ∧ t' = t + (ls.map (fun x => x.2.2.quantity)).sum := by
  induction cnt generalizing i limit book a t with
  | zero =>
    cases h
    exact ⟨[], ⟨.refl _, (fun _ hx => nomatch hx), .nil _ _, Nat.zero_le _, fun _ x _ _ h1 h2 => by omega⟩, by simp⟩
  | succ cnt ih =>
    rw [cancelAllLoop] at h
    simp only [bind_ok] at h
    obtain ⟨oo, hoo, h⟩ := h
    have hga : (g.put k a).accts.get? k = some a := Accts.get?_set_self a ha0
    rw [OOA.openOrder, unwrapR_ok] at hoo
    -- what rests in slot `i`
    have slot : ∀ x ∈ book.resting, x.2.2.owner = k → x.2.2.ownerSlot = i →
        oo.isFree = false ∧ oo.id = x.2.2.key ∧ oo.side = x.1 ∧ oo.comp = x.2.1 ∧ oo.clientId = x.2.2.clientOrderId := by
      intro x hx hk hs
      obtain ⟨oo', e1, e2⟩ := hl.restRecord hx (a := a) (by rw [hk]; exact hga)
      rw [hs, hoo] at e1; injection e1 with e1; subst e1
      exact e2
    -- nothing is done in slot `i`
    have skip : ∀ {book1 : Book} {a1 : OOA} {limit1 : Nat} {ls : Rests}, limit1 ≤ limit → limit ≤ limit1 + 1 → 
        LoopRun g k so co cnt (i + 1) limit1 book a book1 a1 ls →
        (∀ x ∈ book.resting, Matches k so co x → x.2.2.ownerSlot = i → False) →
        LoopRun g k so co (cnt + 1) i limit book a book1 a1 ls := by
      intro book1 a1 limit1 ls hlim hlim' r hno
      refine ⟨r.rest, r.owner, r.rel, by have := r.len; omega, fun hc x hx hmx h1 h2 => ?_⟩
      by_cases hxi : x.2.2.ownerSlot = i
      · exact hno x (r.rest.mem_iff.mpr (List.mem_append_right _ hx)) hmx hxi
      · exact r.all (by omega) x hx hmx (by omega) (by omega)
    split at h
    · rename_i hfree
      obtain ⟨ls, r, rt⟩ := ih hb hl hlots h
      refine ⟨ls, skip (Nat.le_refl _) (by omega) r fun x hx hmx hxi => ?_, rt⟩
      have := (slot x hx hmx.1 hxi).1
      rw [hfree] at this; cases this
    rename_i hfree
    split at h
    · rename_i hside
      obtain ⟨ls, r, rt⟩ := ih hb hl hlots h
      refine ⟨ls, skip (Nat.le_refl _) (by omega) r fun x hx hmx hxi => ?_, rt⟩
      have e := (slot x hx hmx.1 hxi).2.2.1
      cases so with
      | none => cases hside
      | some sd => exact (by simpa using hside : ¬ sd = oo.side) (by rw [e]; exact (hmx.2.1 sd rfl).symm)
    rename_i hside
    split at h
    · rename_i hclient
      obtain ⟨ls, r, rt⟩ := ih hb hl hlots h
      refine ⟨ls, skip (Nat.le_refl _) (by omega) r fun x hx hmx hxi => ?_, rt⟩
      have e := (slot x hx hmx.1 hxi).2.2.2.2
      cases co with
      | none => cases hclient
      | some sd => exact (by simpa using hclient : ¬ sd = oo.clientId) (by rw [e]; exact (hmx.2.2 sd rfl).symm)
    rename_i hclient
    split at h
    · rename_i hl0
      cases h
      exact ⟨[], ⟨.refl _, (fun _ hx => nomatch hx), .nil _ _, Nat.zero_le _, fun hc => by omega⟩, by simp⟩
    rename_i hl0
    split at h
    · rename_i hc
      obtain ⟨ls, r, rt⟩ := ih hb hl hlots h
      refine ⟨ls, skip (by omega) (by omega) r fun x hx hmx hxi => ?_, rt⟩
      obtain ⟨_, s1, s2, s3, s4⟩ := slot x hx hmx.1 hxi
      have hx' : (oo.side, oo.comp, x.2.2) ∈ book.resting := by rw [s2, s3]; exact hx
      rcases cancelOnBook_cases hb a m oo.id oo.side oo.comp none with ⟨_, h2⟩ | ⟨l, h2, h3, h4⟩
      · exact h2 x.2.2 hx' s1.symm
      · obtain ⟨L', hp⟩ := List.mem_iff_append.mp h2
        obtain ⟨L'', hp⟩ := hp
        have hl1 := hl.perm (L' := (oo.side, oo.comp, l) :: (L' ++ L'')) (by rw [hp]; exact List.perm_middle)
        obtain ⟨e1, e2, e3⟩ := hl1.slotOwner hga hoo (by simpa using hfree) rfl h3.symm
        obtain ⟨a1, ha1⟩ := hl1.cancelOk hex hcov hdB hdQ (a := a) (by rw [e1]; exact hga) hlots
        obtain ⟨b1, hb1⟩ := h4 a1 (by rw [← hm]; exact ha1) (fun _ ho => nomatch ho)
        rw [hb1] at hc; cases hc
    · cases h
    · rename_i leaf book1 a1 hc
      simp only [bind_ok, ckI64_ok] at h
      obtain ⟨_, ⟨_, rfl⟩, h⟩ := h
      obtain ⟨c1, c2, c3, c4, _⟩ := cancelOnBook_inv hb hc
      have hl1 := hl.perm c3
      obtain ⟨e1, e2, e3⟩ := hl1.slotOwner hga hoo (by simpa using hfree) rfl c1.symm
      have c4' : a.cancelOrder leaf.ownerSlot leaf.quantity g.market = .ok a1 := by rw [hm]; exact c4
      have hcr := hl1.cancelRest hcov.bls hcov.qls (a := a) (a' := a1) (by rw [e1]; exact hga) c4'
      have hrel := hl1.released hcov.bls hcov.qls (a := a) (a' := a1) (by rw [e1]; exact hga) c4'
      have hput : ({ g.put k a with accts := (g.put k a).accts.set leaf.owner a1 } : Ledger) = g.put k a1 := by
        show (_ : Ledger) = _
        simp only [Ledger.put, e1, Accts.set_set]
      rw [hput] at hcr
      obtain ⟨ls, r, rt⟩ := ih c2 hcr.1 ((cancel_refs c4).lots hlots) h
      refine ⟨(oo.side, oo.comp, leaf) :: ls, ⟨c3.trans (r.rest.cons _), ?_, hrel.trans r.rel, ?_, ?_⟩, ?_⟩
      · intro x hx
        rcases List.mem_cons.mp hx with rfl | hx
        · refine ⟨e1, fun s hs => ?_, fun c hc => ?_⟩
          · subst hs; exact (by simpa using hside : s = oo.side).symm
          · subst hc; show leaf.clientOrderId = c; rw [← e3]; exact (by simpa using hclient : c = oo.clientId).symm
        · exact r.owner x hx
      · have := r.len; rw [List.length_cons]; omega
      · intro hcnt x hx hmx h1 h2
        by_cases hxi : x.2.2.ownerSlot = i
        · have hx1 : x ∈ book1.resting := r.rest.mem_iff.mpr (List.mem_append_right _ hx)
          have hg1 : (g.put k a1).accts.get? k = some a1 := Accts.get?_set_self a1 ha0
          obtain ⟨oo1, f1, f2, _⟩ := hcr.1.restRecord hx1 (a := a1) (by rw [hmx.1]; exact hg1)
          have hsl := hrel.slots i
          rw [hxi] at f1
          rw [f1, hoo] at hsl
          simp only [Option.map_some, List.any_cons, e2, decide_true, Bool.true_or, if_true] at hsl
          injection hsl with hsl
          rw [hsl] at f2; cases f2
        · exact r.all (by omega) x hx hmx (by omega) (by omega)
      · rw [rt, List.map_cons, List.sum_cons]; exact Int.add_assoc _ _ _

theorem GInv.lots_nonneg {m : Market} {as : Accts} {O : List Obl} {dB dQ : Int} {ex : Pubkey → Int} (h : GInv m as O dB dQ ex)
    {k : Pubkey} {a : OOA} (ha : as.get? k = some a) : 0 ≤ a.position.bidsBaseLots ∧ 0 ≤ a.position.asksBaseLots := by
  have hk := h.acct _ a ha
  rw [hk.bids, hk.asks]
  have : ∀ (f : Obl → Int), (∀ o ∈ O, 0 ≤ f o) → 0 ≤ osum f O := by
    intro f hf
    have := sum_le' O (f := fun _ => 0) (g := f) hf
    simpa [osum] using this
  refine ⟨this _ fun o ho => ?_, this _ fun o ho => ?_⟩
  · have := (h.ok o ho).qty; unfold cB; split <;> omega
  · have := (h.ok o ho).qty; unfold cA; split <;> omega

/-- The cancel loop does not fail if the total it reports fits. -/
theorem cancelAllLoop_ok {m : Market} {so : Option Side} {co : Option Nat} {cnt i limit : Nat} {book : Book} {a : OOA}
    {t : Int} {g : Ledger} {k : Pubkey} {dB dQ : Int} {ex : Pubkey → Int} {n : Nat} (hm : g.market = m) (hex : ∀ k, 0 ≤ ex k)
    (hcov : Covered g.market) (hdB : g.market.baseDepositTotal + dB ≤ u64Max) (hdQ : g.market.quoteDepositTotal + dQ ≤ u64Max)
    (hb : BookOk book) {a0 : OOA} (ha0 : g.accts.get? k = some a0)
    (hl : LInv (g.put k a) book.resting dB dQ ex n) (hlots : LotsOk a.position) (hcnt : i + cnt = maxOpenOrders)
    (ht0 : 0 ≤ t) (ht : t + a.position.bidsBaseLots + a.position.asksBaseLots ≤ i64Max) :
    ∃ r, cancelAllLoop m so co cnt i limit book a t = .ok r := by
  induction cnt generalizing i limit book a t with
  | zero => exact ⟨_, rfl⟩
  | succ cnt ih =>
    have hga : (g.put k a).accts.get? k = some a := Accts.get?_set_self a ha0
    have hlen : a.openOrders.length = maxOpenOrders := by
      obtain ⟨O, q, hw⟩ := hl
      exact (hw.ginv.acct k a hga).len
    have hoo : a.openOrders[i]? = some a.openOrders[i] := List.getElem?_eq_getElem (by omega)
    generalize a.openOrders[i] = oo at hoo
    have hop : a.openOrder i = .ok oo := by rw [OOA.openOrder, unwrapR_ok]; exact hoo
    rw [cancelAllLoop, hop]
    simp only [ok_bind]
    split
    · exact ih hb hl hlots (by omega) ht0 ht
    rename_i hfree
    split
    · exact ih hb hl hlots (by omega) ht0 ht
    split
    · exact ih hb hl hlots (by omega) ht0 ht
    split
    · exact ⟨_, rfl⟩
    rcases cancelOnBook_cases hb a m oo.id oo.side oo.comp none with ⟨h1, _⟩ | ⟨l, h2, h3, h4⟩
    · rw [h1]
      exact ih hb hl hlots (by omega) ht0 ht
    · obtain ⟨L', L'', hp⟩ := List.mem_iff_append.mp h2
      have hl1 := hl.perm (L' := (oo.side, oo.comp, l) :: (L' ++ L'')) (by rw [hp]; exact List.perm_middle)
      obtain ⟨e1, e2, e3⟩ := hl1.slotOwner hga hoo (by simpa using hfree) rfl h3.symm
      obtain ⟨a1, ha1⟩ := hl1.cancelOk hex hcov hdB hdQ (a := a) (by rw [e1]; exact hga) hlots
      obtain ⟨b1, hb1⟩ := h4 a1 (by rw [← hm]; exact ha1) (fun _ ho => nomatch ho)
      rw [hb1]
      obtain ⟨c1, c2, c3, c4, _⟩ := cancelOnBook_inv hb hb1
      have hl2 := hl.perm c3
      have hrel := hl1.released hcov.bls hcov.qls (a := a) (a' := a1) (by rw [e1]; exact hga) ha1
      have hcr := hl2.cancelRest hcov.bls hcov.qls (a := a) (a' := a1) (by rw [e1]; exact hga) ha1
      have hput : ({ g.put k a with accts := (g.put k a).accts.set l.owner a1 } : Ledger) = g.put k a1 := by
        show (_ : Ledger) = _
        simp only [Ledger.put, e1, Accts.set_set]
      rw [hput] at hcr
      have hq1 : 1 ≤ l.quantity := by
        obtain ⟨oo', R, q, hw, _⟩ := hl1.takeRest
        exact (hw.ginv.ok (.rest oo.side oo.comp l oo') (List.mem_cons_self)).qty
      have hbound := hl1.takeRest
      obtain ⟨oo', R, q, hw, _⟩ := hbound
      have hlt := hw.ginv.lots hex hcov.qls (a := a) (by show (g.put k a).accts.get? l.owner = some a; rw [e1]; exact hga)
      have hnn := hw.ginv.acct k a hga
      have hb1 := hrel.bids
      have hb2 := hrel.asks
      simp only [sumOver, List.map_cons, List.map_nil, List.sum_cons, List.sum_nil] at hb1 hb2
      have hposB : 0 ≤ a.position.bidsBaseLots := (hw.ginv.lots_nonneg hga).1
      have hposA : 0 ≤ a.position.asksBaseLots := (hw.ginv.lots_nonneg hga).2
      have htot : a1.position.bidsBaseLots + a1.position.asksBaseLots = a.position.bidsBaseLots + a.position.asksBaseLots - l.quantity := by
        rcases (Side.cases oo.side) with hs | hs <;> simp [hs] at hb1 hb2 <;> omega
      have hq2 : l.quantity ≤ a.position.bidsBaseLots + a.position.asksBaseLots := by
        rcases (Side.cases oo.side) with hs | hs
        · have := (hlt.1 hs).1
          have : l.quantity ≤ a.position.bidsBaseLots := this
          omega
        · have : l.quantity ≤ a.position.asksBaseLots := hlt.2 hs
          omega
      have hck : ckI64 (t + l.quantity) = .ok (t + l.quantity) := ckI64_eq (by unfold i64Min; omega) (by omega)
      simp only [hck, ok_bind]
      exact ih c2 hcr.1 ((cancel_refs c4).lots hlots) (by omega) (by omega) (by omega)

/-! ### the instructions -/

theorem Inv.put_self {s : State} {k : Pubkey} {a : OOA} (ha : s.g.accts.get? k = some a) : s.g.put k a = s.g := by
  unfold Ledger.put; rw [Accts.set_get ha]

theorem cancelAllFor_full {s s' : State} {k : Pubkey} {limit : Nat} {so : Option Side} {co : Option Nat} {q : Int} (hi : Inv s)
    (hx : Extra s) (h : cancelAllFor s k limit so co = .ok (q, s')) :
    ∃ ls, Cancels s s' k ls ∧ (∀ x ∈ ls, Matches k so co x) ∧ ls.length ≤ limit ∧
      (24 ≤ limit → ∀ x ∈ s'.book.resting, ¬ Matches k so co x) ∧ q = (ls.map (fun x => x.2.2.quantity)).sum := by
  have h0 := h
  unfold cancelAllFor at h
  simp only [bind_ok, pure_ok, Accts.get_ok] at h
  obtain ⟨a, ha, ⟨q', book', a'⟩, hc, h⟩ := h
  injection h with e1 e2
  have e1 : q' = q := e1
  subst e1
  have hc' := hi.covered
  obtain ⟨ls, r, rt⟩ := cancelAllLoop_full (g := s.g) rfl (fun _ => Int.le_refl _) hc' (dB := 0) (dQ := 0)
    (n := s.g.market.seqNum) (by have := hc'.base; omega) (by have := hc'.quote; omega) hi.core.bookOk ha
    (by rw [Inv.put_self ha]; exact hi.core.linv) (hx.lots k a ha).1 hc
  obtain ⟨_, _, _, _, _, _, _, _, _, hi'⟩ := cancelAllFor_res hi h0
  refine ⟨ls, ⟨?_, fun x hx => (r.owner x hx).1, ⟨a, a', ha, ?_, r.rel⟩, ?_, ?_, ?_, ?_, ?_, ?_⟩, r.owner, r.len, ?_, by rw [rt]; omega⟩
  · rw [← e2]; exact r.rest
  · rw [← e2]; exact Accts.get?_set_self _ ha
  · intro j hj; rw [← e2]; exact Accts.get?_set_ne _ hj
  · rw [← e2]
  · rw [← e2]
  · rw [← e2]
  · rw [← e2]
  · rw [← e2]
  · intro hlim x hx hmx
    have hxr : x ∈ book'.resting := by rw [← e2] at hx; exact hx
    refine r.all (by unfold maxOpenOrders; omega) x hxr hmx (Nat.zero_le _) ?_
    obtain ⟨a1, oo, hr⟩ := rest_slot hi' hx
    have hlen : a1.openOrders.length = maxOpenOrders := by
      obtain ⟨O, qs, hw⟩ := hi'.core.linv
      exact (hw.ginv.acct _ a1 hr.acct).len
    have := List.getElem?_eq_some_iff.mp hr.slot
    obtain ⟨h1, _⟩ := this
    omega

theorem cancelAllFor_ok {s : State} {k : Pubkey} {limit : Nat} {so : Option Side} {co : Option Nat} (hi : Inv s)
    (hx : Extra s) {a : OOA} (ha : s.g.accts.get? k = some a)
    (ht : a.position.bidsBaseLots + a.position.asksBaseLots ≤ i64Max) :
    ∃ q s', cancelAllFor s k limit so co = .ok (q, s') := by
  have hc' := hi.covered
  obtain ⟨⟨q, book', a'⟩, hr⟩ := cancelAllLoop_ok (so := so) (co := co) (limit := limit) (g := s.g) rfl (fun _ => Int.le_refl _) hc' (dB := 0) (dQ := 0)
    (n := s.g.market.seqNum) (by have := hc'.base; omega) (by have := hc'.quote; omega) hi.core.bookOk ha
    (by rw [Inv.put_self ha]; exact hi.core.linv) (hx.lots k a ha).1 (cnt := maxOpenOrders) (i := 0) (by omega) (t := 0)
    (Int.le_refl _) (by omega)
  refine ⟨q, { s with book := book', g := s.g.put k a' }, ?_⟩
  unfold cancelAllFor
  simp only [bind_ok, pure_ok, Accts.get_ok]
  exact ⟨a, ha, _, hr, rfl⟩

theorem owner_controls {s : State} {k signer : Pubkey} {a : OOA} (ha : s.g.accts.get? k = some a) (h : a.isOwnerOrDelegate signer = true) :
    Controls s signer k := by
  refine ⟨a, ha, ?_⟩
  unfold OOA.isOwnerOrDelegate at h
  by_cases hd : a.delegate ≠ 0
  · rw [if_pos hd] at h
    rcases (by simpa using h : a.owner = signer ∨ a.delegate = signer) with h | h
    · exact .inl h.symm
    · exact .inr ⟨hd, h.symm⟩
  · rw [if_neg hd] at h
    exact .inl (by simpa using h : a.owner = signer).symm

theorem controls_owner {s : State} {k signer : Pubkey} {a : OOA} (ha : s.g.accts.get? k = some a) (h : Controls s signer k) :
    a.isOwnerOrDelegate signer = true := by
  obtain ⟨b, hb, h⟩ := h
  rw [ha] at hb; injection hb with hb; subst hb
  unfold OOA.isOwnerOrDelegate
  split
  · rcases h with h | ⟨_, h⟩ <;> simp [h]
  · rename_i hd
    rcases h with h | ⟨h0, _⟩
    · simp [h]
    · exact absurd h0 hd

theorem cancelOrderIx_full {s s' : State} {signer k : Pubkey} {id : Nat} (hi : Inv s) (h : cancelOrderIx s signer k id = .ok s') :
    ∃ x, x.2.2.key = id ∧ Cancels s s' k [x] ∧ Controls s signer k := by
  obtain ⟨a, oo, leaf, a', book', h1, h2, h3, h4, h5, h6⟩ := cancelOrderIx_res hi h
  obtain ⟨ha, _, _, hown⟩ := authCancel_ok h1
  obtain ⟨c1, c2, c3, c4, c5⟩ := cancelOnBook_inv hi.core.bookOk h3
  have hk := c5 k rfl
  have hrel := (hi.core.linv.perm c3).released hi.core.bls hi.core.qls (by rw [hk]; exact ha) c4
  refine ⟨(oo.side, oo.comp, leaf), ?_, ⟨?_, ?_, ⟨a, a', ha, ?_, hrel⟩, ?_, ?_, ?_, ?_, ?_, ?_⟩, owner_controls ha hown⟩
  · rw [c1]
    unfold OOA.findOrder at h2
    have := List.find?_some h2
    simp at this
    exact this.2
  · rw [h4]; exact c3
  · intro x hx; rw [List.mem_singleton] at hx; rw [hx]; exact hk
  · rw [h4]; exact Accts.get?_set_self _ ha
  · intro j hj; rw [h4]; exact Accts.get?_set_ne _ hj
  all_goals rw [h4]

end OB
