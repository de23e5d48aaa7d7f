import Verif.Proofs.LiveMulti
import Verif.Proofs.Chain
/-! The instructions that place a batch of orders (C61). -/
namespace OB
open Spec

/-- Slots that are emptied become free. -/
theorem countP_emptied (L' : List OpenOrder) : ∀ (is : List Nat) (L : List OpenOrder), is.Nodup →
    (∀ i ∈ is, ∃ oo : OpenOrder, L[i]? = some oo ∧ oo.isFree = false) →
    (∀ i ∈ is, ∃ oo : OpenOrder, L'[i]? = some oo ∧ oo.isFree = true) →
    (∀ (i : Nat) (oo : OpenOrder), L[i]? = some oo → oo.isFree = true → ∃ oo' : OpenOrder, L'[i]? = some oo' ∧ oo'.isFree = true) →
    L.countP (fun o => o.isFree) + is.length ≤ L'.countP (fun o => o.isFree)
  | [], L, _, _, _, h => by simpa using countP_le_of_free L L' h
  | i :: is, L, hn, h1, h2, h3 => by
    obtain ⟨oo, ho, hu⟩ := h1 i (by simp)
    obtain ⟨hlt, he⟩ := List.getElem?_eq_some_iff.mp ho
    have ih := countP_emptied L' is (L.set i OpenOrder.default) (List.nodup_cons.mp hn).2 (fun j hj => ?_)
      (fun j hj => h2 j (by simp [hj])) (fun j o hj hf => ?_)
    · rw [List.countP_set hlt, he, hu] at ih
      rw [List.length_cons]
      have : OpenOrder.default.isFree = true := rfl
      rw [this] at ih
      simp at ih
      omega
    · have hne : i ≠ j := fun e => (List.nodup_cons.mp hn).1 (e ▸ hj)
      rw [List.getElem?_set_ne hne]
      exact h1 j (by simp [hj])
    · by_cases hne : i = j
      · subst hne; exact h2 i (by simp)
      · rw [List.getElem?_set_ne hne] at hj
        exact h3 j o hj hf

theorem sum_nonneg_of {α : Type} (l : List α) (f : α → Int) (h : ∀ x ∈ l, 0 ≤ f x) : 0 ≤ (l.map f).sum := by
  induction l with
  | nil => simp
  | cons x xs ih =>
    rw [List.map_cons, List.sum_cons]
    have := h x (by simp)
    have := ih (fun y hy => h y (by simp [hy]))
    omega

/-- The state in which the orders of a batch are placed. -/
structure BatchStart (s s1 : State) (k : Pubkey) (cancel : Bool) : Prop where
  reach : Reachable s1
  market : s1.g.market = s.g.market
  heap : s1.g.heap = s.g.heap
  counters : CountersFit s → CountersFit s1
  acct : ∃ a a', s.g.accts.get? k = some a ∧ s1.g.accts.get? k = some a' ∧ a'.position.bidsBaseLots ≤ a.position.bidsBaseLots ∧
    a'.position.bidsQuoteLots ≤ a.position.bidsQuoteLots ∧ a'.position.asksBaseLots ≤ a.position.asksBaseLots ∧
    usableSlots s k cancel a ≤ freeSlots a'
  sides : ∀ side, (staying s k cancel side).length = (s1.book.sideRest side).length

theorem batchStart_keep {s : State} (hr : Reachable s) {k : Pubkey} {a : OOA} (ha : s.g.accts.get? k = some a) : BatchStart s s k false := by
  refine ⟨hr, rfl, rfl, id, ⟨a, a, ha, ha, Int.le_refl _, Int.le_refl _, Int.le_refl _, ?_⟩, fun side => ?_⟩
  · unfold usableSlots freeSlots
    rw [List.countP_eq_length_filter]; simp
  · unfold staying
    rw [← restingOn_length]; simp

theorem batchStart_cancel {s s1 : State} (hr : Reachable s) {c : MultiCtx} {q : Int} (hauth : authPlace s c.signer c.ooKey c.admin = .ok ())
    (h : cancelAllFor s c.ooKey 255 none none = .ok (q, s1)) : BatchStart s s1 c.ooKey true := by
  have hi := reachable_Inv hr
  have hx := reachable_Extra hr
  obtain ⟨ls, hc, hm, _, hall, _⟩ := cancelAllFor_full hi hx h
  have hnone : ∀ x ∈ s1.book.resting, x.2.2.owner ≠ c.ooKey := fun x hx e =>
    hall (by omega) x hx ⟨e, (fun _ h => nomatch h), fun _ h => nomatch h⟩
  have hstep : step s (.cancelAll c.signer c.ooKey none 255) = .ok s1 := by
    obtain ⟨a, ha⟩ := authCancel_of hauth
    show cancelAll s c.signer c.ooKey none 255 = _
    unfold cancelAll
    simp only [bind_ok, pure_ok]
    exact ⟨a, ha, (q, s1), h, rfl⟩
  obtain ⟨a, a', ha, ha', hrel⟩ := hc.acct
  have hmem : ∀ x ∈ ls, x ∈ s.book.resting := fun x hx => (hc.book.mem_iff).mpr (List.mem_append_left _ hx)
  have hslot : ∀ x ∈ ls, ∃ oo, RestSlot s x.1 x.2.1 x.2.2 a oo := by
    intro x hx
    obtain ⟨b, oo, hb⟩ := rest_slot hi (hmem x hx)
    have := hb.acct
    rw [hc.owner x hx, ha] at this
    injection this with this
    subst this
    exact ⟨oo, hb⟩
  have hids : (ls.map restId).Nodup := by
    have h1 := resting_ids hi.core.bookOk
    have h2 := hc.book.map restId
    rw [List.map_append] at h2
    exact (List.nodup_append.mp (h2.nodup_iff.mp h1)).1
  have hsl : (ls.map (fun x => x.2.2.ownerSlot)).Nodup := by
    clear hall hnone hrel h
    have key : ∀ x ∈ ls, ∀ y ∈ ls, x.2.2.ownerSlot = y.2.2.ownerSlot → restId x = restId y := by
      intro x hx y hy e
      obtain ⟨o1, r1⟩ := hslot x hx
      obtain ⟨o2, r2⟩ := hslot y hy
      have h1 := r1.slot; have h2 := r2.slot
      rw [e, h2] at h1
      injection h1 with h1
      subst h1
      unfold restId
      rw [← r1.side, ← r1.comp, ← r1.id, r2.side, r2.comp, r2.id]
    revert key hids
    generalize ls = l
    intro hids key
    induction l with
    | nil => simp
    | cons x xs ih =>
      rw [List.map_cons, List.nodup_cons] at hids ⊢
      refine ⟨?_, ih hids.2 (fun y hy z hz => key y (by simp [hy]) z (by simp [hz]))⟩
      intro hin
      obtain ⟨y, hy, e⟩ := List.mem_map.mp hin
      exact hids.1 (List.mem_map.mpr ⟨y, hy, key y (by simp [hy]) x (by simp) e⟩)
  have hown : (ownResting s c.ooKey).length = ls.length := by
    unfold ownResting
    have h1 := (hc.book.filter (fun x => decide (x.2.2.owner = c.ooKey))).length_eq
    rw [h1, List.filter_append, List.length_append]
    have e1 : ls.filter (fun x => decide (x.2.2.owner = c.ooKey)) = ls := by
      rw [List.filter_eq_self]; intro x hx; simpa using hc.owner x hx
    have e2 : s1.book.resting.filter (fun x => decide (x.2.2.owner = c.ooKey)) = [] := by
      rw [List.filter_eq_nil_iff]; intro x hx; simpa using hnone x hx
    rw [e1, e2]; simp
  have hacc : ∀ j b, s1.g.accts.get? j = some b → ∃ b0, s.g.accts.get? j = some b0 ∧ b.position.makerVolume = b0.position.makerVolume ∧
      b.position.takerVolume = b0.position.takerVolume ∧ b.position.penaltyHeapCount = b0.position.penaltyHeapCount := by
    intro j b hj
    by_cases e : j = c.ooKey
    · subst e
      rw [ha'] at hj; injection hj with hj; subst hj
      exact ⟨a, ha, hrel.makerVolume, hrel.takerVolume, hrel.penalty⟩
    · rw [hc.others j e] at hj
      exact ⟨b, hj, rfl, rfl, rfl⟩
  refine ⟨.step _ _ _ hr hstep, hc.market, hc.heap, fun hcf => ?_, ⟨a, a', ha, ha', ?_, ?_, ?_, ?_⟩, fun side => ?_⟩
  · refine ⟨by rw [hc.market]; exact hcf.maker, by rw [hc.market]; exact hcf.fees, by rw [hc.market]; exact hcf.taker, fun j b hj => ?_,
      by rw [hc.market]; exact hcf.orders, by rw [hc.heap]; exact hcf.events⟩
    obtain ⟨b0, e0, e1, e2, e3⟩ := hacc j b hj
    rw [e1, e2, e3]; exact hcf.accts j b0 e0
  · rw [hrel.bids]
    have : 0 ≤ sumOver ls (fun s _ l => if s = .bid then l.quantity else 0) := by
      refine sum_nonneg_of _ _ (fun x hx => ?_)
      obtain ⟨oo, ho⟩ := hslot x hx
      have := ho.qty
      simp only
      split <;> omega
    omega
  · rw [hrel.bidsQuote]
    have : 0 ≤ sumOver ls (fun s c l => if s = .bid then l.quantity * lockedAt c l else 0) := by
      refine sum_nonneg_of _ _ (fun x hx => ?_)
      obtain ⟨oo, ho⟩ := hslot x hx
      have h1 := ho.qty
      simp only
      split
      · rename_i hs
        rw [← ho.locked (.inl hs)]
        have := ho.lockedPos
        exact Int.mul_nonneg (by omega) (by omega)
      · exact Int.le_refl _
    omega
  · rw [hrel.asks]
    have : 0 ≤ sumOver ls (fun s _ l => if s = .ask then l.quantity else 0) := by
      refine sum_nonneg_of _ _ (fun x hx => ?_)
      obtain ⟨oo, ho⟩ := hslot x hx
      have := ho.qty
      simp only
      split <;> omega
    omega
  · have hany : ∀ x ∈ ls, ls.any (fun y => decide (y.2.2.ownerSlot = x.2.2.ownerSlot)) = true := fun x hx =>
      List.any_eq_true.mpr ⟨x, hx, by simp⟩
    have := countP_emptied a'.openOrders (ls.map (fun x => x.2.2.ownerSlot)) a.openOrders hsl
      (fun i hi => by
        obtain ⟨x, hx, rfl⟩ := List.mem_map.mp hi
        obtain ⟨oo, ho⟩ := hslot x hx
        exact ⟨oo, ho.slot, ho.used⟩)
      (fun i hi => by
        obtain ⟨x, hx, rfl⟩ := List.mem_map.mp hi
        obtain ⟨oo, ho⟩ := hslot x hx
        refine ⟨OpenOrder.default, ?_, rfl⟩
        rw [hrel.slots, ho.slot, Option.map_some, hany x hx]; rfl)
      (fun i oo h1 h2 => by
        rw [hrel.slots, h1, Option.map_some]
        split
        · exact ⟨_, rfl, rfl⟩
        · exact ⟨_, rfl, h2⟩)
    rw [List.length_map] at this
    unfold usableSlots freeSlots
    rw [if_pos rfl, hown, ← List.countP_eq_length_filter]
    exact this
  · rw [← restingOn_length]
    unfold staying restingOn
    have h1 := ((hc.book.filter (fun x => decide (x.1 = side))).filter (fun x => decide (true = false ∨ x.2.2.owner ≠ c.ooKey))).length_eq
    rw [h1, List.filter_append, List.filter_append, List.length_append]
    have e1 : (ls.filter (fun x => decide (x.1 = side))).filter (fun x => decide (true = false ∨ x.2.2.owner ≠ c.ooKey)) = [] := by
      rw [List.filter_eq_nil_iff]; intro x hx
      have := hc.owner x (List.mem_filter.mp hx).1
      simpa using this
    have e2 : (s1.book.resting.filter (fun x => decide (x.1 = side))).filter (fun x => decide (true = false ∨ x.2.2.owner ≠ c.ooKey)) =
        s1.book.resting.filter (fun x => decide (x.1 = side)) := by
      rw [List.filter_eq_self]; intro x hx
      simpa using hnone x (List.mem_filter.mp hx).1
    rw [e1, e2]; simp

theorem cancelAllAndPlace_ok {s : State} {c : MultiCtx} {cancel : Bool} {t : PlaceOrderType} {os : List Order} {limit n : Nat}
    (hr : Reachable s) (hm : MayPlaceAll s c) (hcf : CountersFit s) (hf : BatchFits s c n limit) (hn : os.length ≤ n)
    (ho : ∀ o ∈ os, BatchOrder t s.g.market.quoteLotSize s.g.market.takerFee o) :
    (∃ r, cancelAllAndPlace s c cancel os limit = .ok r) ∨
    (∃ e, (∃ s1, BatchStart s s1 c.ooKey cancel ∧ BatchFails c os s1.book s1.g e) ∧ cancelAllAndPlace s c cancel os limit = .error e) := by
  have hi := reachable_Inv hr
  have hx := reachable_Extra hr
  obtain ⟨a, haa, hsig⟩ := hm.signer
  have hctl := controls_owner haa ⟨a, haa, hsig⟩
  have hexp : s.g.market.isExpired c.now = false := by
    unfold Market.isExpired
    rcases hm.live with h | h
    · simp [h]
    · simp [show ¬ s.g.market.timeExpiry < c.now by omega]
  have hauth : authPlace s c.signer c.ooKey c.admin = .ok () := by
    unfold authPlace State.open? signerOk
    rw [req_true hm.isOpen, ok_bind, req_true hm.notVault, ok_bind, (Accts.get_ok).mpr haa, ok_bind, req_true hctl, ok_bind,
      req_true hm.admin]
  have hnow : nowU64 c.now = .ok c.now.toNat := by
    unfold nowU64 assertR
    rw [req_true hm.clock, ok_bind]; rfl
  have hor : oracleOk s c.oracle = .ok () := by
    unfold oracleOk
    split
    · rfl
    · rename_i p hp; exact req_true (hm.oracle p hp)
  have hmQ : mintIs s.tokens c.userQuote s.g.market.marketQuoteVault = .ok () := req_true hm.quoteMint
  have hmB : mintIs s.tokens c.userBase s.g.market.marketBaseVault = .ok () := req_true hm.baseMint
  obtain ⟨l1, l2, l3, l4⟩ := hf.lots a haa
  have hstart : ∃ s1, (if cancel then do
      let (_, s1) ← cancelAllFor s c.ooKey 255 none none
      return s1
    else .ok s : R State) = .ok s1 ∧ BatchStart s s1 c.ooKey cancel := by
    cases cancel with
    | false => exact ⟨s, rfl, batchStart_keep hr haa⟩
    | true =>
      obtain ⟨q, s1, hq⟩ := cancelAllFor_ok (limit := 255) (so := none) (co := none) hi hx haa l4
      refine ⟨s1, ?_, batchStart_cancel hr hauth hq⟩
      rw [if_pos rfl, hq, ok_bind]; rfl
  obtain ⟨s1, hs1, hst⟩ := hstart
  obtain ⟨res, hres⟩ : ∃ res, cancelAllAndPlace s c cancel os limit = res := ⟨_, rfl⟩
  rw [hres]
  unfold cancelAllAndPlace at hres
  simp only at hres
  rw [hauth, ok_bind, hmQ, ok_bind, hmB, ok_bind, req_true hexp, ok_bind, hnow, ok_bind, hor, ok_bind] at hres
  replace hres := bind_eq_of hres hs1
  have hi1 := reachable_Inv hst.reach
  have hx1 := reachable_Extra hst.reach
  have hcf1 := hst.counters hcf
  obtain ⟨a0, a1, ha0, ha1, p1, p2, p3, p4⟩ := hst.acct
  rw [haa] at ha0; injection ha0 with ha0; subst ha0
  have vb := hi.vb.le; have vb0 := hi.vb.total.1
  have vq := hi.vq.le; have vq0 := hi.vq.total.1
  obtain ⟨w1, w2⟩ := hf.wallets
  have hwb := hf.base; have hwq := hf.quote
  unfold baseAround at hwb l3; unfold quoteAround at hwq l1 l2
  unfold tokens at w1 w2 hwb hwq l1 l2 l3
  obtain ⟨ub, hub⟩ : ∃ x, (s.tokens c.userBase).amount = x := ⟨_, rfl⟩
  obtain ⟨uq, huq⟩ : ∃ x, (s.tokens c.userQuote).amount = x := ⟨_, rfl⟩
  rw [hub] at w1 hwb l3 hres
  rw [huq] at w2 hwq l1 l2 hres
  obtain ⟨VB, hVB⟩ : ∃ x, (s.tokens s.g.market.marketBaseVault).amount = x := ⟨_, rfl⟩
  obtain ⟨VQ, hVQ⟩ : ∃ x, (s.tokens s.g.market.marketQuoteVault).amount = x := ⟨_, rfl⟩
  rw [hVB] at hwb l3 vb
  rw [hVQ] at hwq l1 l2 vq
  have hq := hf.queue
  have hmono : ∀ {x y : Int} {i j : Nat}, 0 ≤ x → x ≤ y → i ≤ j → (i : Int) * x ≤ j * y := fun h0 h1 h2 =>
    Int.mul_le_mul (by omega) h1 h0 (by omega)
  have k1 : (os.length + 1 : Int) * (ub + s.g.market.baseDepositTotal) ≤ (n + 1) * (ub + VB) :=
    hmono (i := os.length + 1) (j := n + 1) (by omega) (by omega) (by omega)
  have k2 : (os.length + 1 : Int) * (uq + s.g.market.quoteDepositTotal) ≤ (n + 1) * (uq + VQ) :=
    hmono (i := os.length + 1) (j := n + 1) (by omega) (by omega) (by omega)
  have k3 : (os.length : Int) * (ub + s.g.market.baseDepositTotal) ≤ n * (ub + VB) := hmono (by omega) (by omega) hn
  have k4 : (os.length : Int) * (uq + s.g.market.quoteDepositTotal) ≤ n * (uq + VQ) := hmono (by omega) (by omega) hn
  have k5 : ((0 + 1 : Nat) : Int) * (ub + VB) ≤ ((n + 1 : Nat) : Int) * (ub + VB) := hmono (by omega) (by omega) (by omega)
  have k6 : ((0 + 1 : Nat) : Int) * (uq + VQ) ≤ ((n + 1 : Nat) : Int) * (uq + VQ) := hmono (by omega) (by omega) (by omega)
  push_cast at k5 k6
  have n1 : os.length * (limit + 7) ≤ n * (limit + 7) := Nat.mul_le_mul_right _ hn
  have n2 : os.length * (limit + 7) = os.length * limit + os.length * 7 := Nat.mul_add _ _ _
  obtain ⟨O1, ql1, hw1⟩ := hi1.core.linv
  have hac1 := hw1.ginv.acct _ _ ha1
  have hbf := hac1.baseFree.1; have hqf := hac1.quoteFree.1
  have hroom : BatchRoom c limit ub uq os.length s1.g 0 0 := by
    refine ⟨?_, by rw [hst.market]; exact hf.lot, hm.rem, w1, w2, ?_, ?_, ⟨a1, ha1, by omega, by omega, ?_, ?_, ?_⟩,
      hcf1.lroom hx1 (by omega), ⟨?_, ?_⟩⟩
    · rw [hst.market]; have := hcf.orders; omega
    · rw [hst.market]; omega
    · rw [hst.market]; omega
    · rw [hst.market]; omega
    · rw [hst.market]; omega
    · rw [hst.market]; omega
    · rw [hst.heap]; unfold maxNumEvents; omega
    · rw [hst.heap]; have := hcf.events; omega
  rcases multiLoop_ok (nowTs := c.now.toNat) (t := t) (by have := hm.clock; omega) (fun p hp => (hm.oracle p hp).2) os
      (.reachable s1 hst.reach) hi1.core hi1.covered (Int.le_refl 0) (Int.le_refl 0) hi1.vb.total.1 hi1.vq.total.1
      (congrArg Market.quoteLotSize hst.market) (congrArg Market.takerFee hst.market) ho hroom with
    ⟨rs, book', g1, b, q, hloop, hr1⟩ | ⟨e, hfail, hloop⟩
  swap
  · rw [hloop, err_bind] at hres
    exact .inr ⟨e, ⟨s1, hst, hfail⟩, hres.symm⟩
  rw [hloop, ok_bind] at hres
  simp only at hres
  obtain ⟨hc1, hfr, b0, q0⟩ := multiLoop_res hi1.core (fun o h => (ho o h).typed) (Int.le_refl 0) (Int.le_refl 0) hloop
  obtain ⟨a2, ha2, f1, f2, _⟩ := hr1.acct
  obtain ⟨O2, ql2, hw2⟩ := hc1.linv
  have hac2 := hw2.ginv.acct _ _ ha2
  have dB := hr1.depB; have dQ := hr1.depQ
  have tb : g1.market.baseDepositTotal = s.g.market.baseDepositTotal := by rw [hfr.base, hst.market]
  have tq : g1.market.quoteDepositTotal = s.g.market.quoteDepositTotal := by rw [hfr.quote, hst.market]
  rw [tb] at dB; rw [tq] at dQ
  obtain ⟨g2, depB, hlB⟩ := lockAsk_ok (amt := b) ha2 b0 (by omega) hac2.baseFree (by omega) (by omega)
  rw [hlB, ok_bind] at hres
  simp only at hres
  obtain ⟨a2', hB⟩ := lockAsk_inv hlB
  have e2 := hB.acct
  rw [ha2] at e2; injection e2 with e2; subst e2
  have hg2 : g2.accts.get? c.ooKey = some (a2.withBase (a2.position.baseFreeNative - min b a2.position.baseFreeNative)) := by
    rw [hB.res]; exact Accts.get?_set_self _ ha2
  have hg2m : g2.market.quoteDepositTotal = s.g.market.quoteDepositTotal := by rw [hB.res]; exact tq
  obtain ⟨g3, depQ, hlQ⟩ := lockBid_ok (amt := q) hg2 q0 (by omega) (show inU64 a2.position.quoteFreeNative from hac2.quoteFree)
    (by omega) (by omega)
  rw [hlQ, ok_bind] at hres
  simp only at hres
  obtain ⟨a3, hQ⟩ := lockBid_inv hlQ
  have e3 := hQ.acct
  rw [hg2] at e3; injection e3 with e3; subst e3
  have hg3 : ∃ a4, g3.accts.get? c.ooKey = some a4 ∧ a4.position.penaltyHeapCount = a2.position.penaltyHeapCount := by
    rw [hQ.res]; exact ⟨_, Accts.get?_set_self _ hg2, rfl⟩
  obtain ⟨a4, hg3, hp4⟩ := hg3
  obtain ⟨a2'', ha2'', _, _, _, _, hpen⟩ := hfr.accts _ _ ha1
  rw [ha2] at ha2''; injection ha2'' with ha2''; subst ha2''
  have hpen1 := (hcf1.accts _ _ ha1).2.2
  obtain ⟨g4, hg4⟩ := addPenalty_ok (n := s.g.heap.len) hg3 (by omega) (by unfold u64Max; omega)
  rw [hg4, ok_bind] at hres
  have dq0 := hQ.dep0; have db0 := hB.dep0
  have dqe : depQ = q - min q a2.position.quoteFreeNative := hQ.depEq
  have dbe := hB.depEq
  have n1 : c.userBase ≠ c.userQuote := user_accounts_differ hr hmB hmQ
  have own : ∀ k, (s.tokens k).owner = c.signer → k ≠ s.g.market.marketBaseVault ∧ k ≠ s.g.market.marketQuoteVault := by
    intro k hk
    refine ⟨fun e => hm.notVault ?_, fun e => hm.notVault ?_⟩
    · rw [← hk, e, hi.vb.owner]
    · rw [← hk, e, hi.vq.owner]
  have nv : s.g.market.marketBaseVault ≠ s.g.market.marketQuoteVault := fun e => reachable_mints hr (by
    rw [← hi.vb.mint, ← hi.vq.mint, e])
  obtain ⟨t1, ht1⟩ := tokenTransfer_ok (t := s.tokens) (amt := depQ) (src := c.userQuote) (dst := s.g.market.marketQuoteVault)
    (auth := c.signer) (by omega) hm.quoteMint.1 hm.quoteWallet (by omega) (by omega)
  rw [ht1, ok_bind] at hres
  obtain ⟨u1, u2, u3⟩ := tokenTransfer_spec ht1 dq0 c.userBase
  obtain ⟨v1, v2, v3⟩ := tokenTransfer_spec ht1 dq0 s.g.market.marketBaseVault
  rw [if_neg (own _ hm.baseWallet).2, if_neg n1] at u3
  rw [if_neg nv, if_neg (fun e => (own _ hm.quoteWallet).1 e.symm)] at v3
  obtain ⟨t2, ht2⟩ := tokenTransfer_ok (t := t1) (amt := depB) (src := c.userBase) (dst := s.g.market.marketBaseVault)
    (auth := c.signer) (by omega) (by rw [u2, v2]; exact hm.baseMint.1) (by rw [u1]; exact hm.baseWallet) (by omega) (by omega)
  rw [ht2, ok_bind] at hres
  exact .inl ⟨_, hres.symm⟩

theorem placeOrdersIx_ok {s : State} {c : MultiCtx} {cancel : Bool} {t : PlaceOrderType} {bids asks : List MultiArgs} {limit : Nat}
    (hr : Reachable s) (hl : limit < 256) (htt : t ≠ .postOnlySlide) (hm : MayPlaceAll s c) (hcf : CountersFit s)
    (hf : BatchFits s c (bids.length + asks.length) limit) (hb : ∀ a ∈ bids, EntryOk s .bid a) (ha : ∀ a ∈ asks, EntryOk s .ask a) :
    (∃ r, placeOrdersIx s c cancel t bids asks limit = .ok r) ∨
    (∃ e, BatchRefusal s c cancel t bids asks e ∧ placeOrdersIx s c cancel t bids asks limit = .error e) := by
  have hnow : nowU64 c.now = .ok c.now.toNat := by
    unfold nowU64 assertR
    rw [req_true hm.clock, ok_bind]; rfl
  obtain ⟨bs, hbs, lb, hba⟩ := multiOrders_ok (now := c.now.toNat) htt bids 0 hb
  obtain ⟨as, has, la, haa⟩ := multiOrders_ok (now := c.now.toNat) htt asks bids.length ha
  unfold placeOrdersIx
  rw [req_true hl, ok_bind, hnow, ok_bind, hbs, ok_bind, has, ok_bind]
  have hall : ∀ o ∈ bs ++ as, BatchOrder t s.g.market.quoteLotSize s.g.market.takerFee o := by
    intro o ho
    rcases List.mem_append.mp ho with h | h
    · exact (hba o h).1
    · exact (haa o h).1
  have hlen : (bs ++ as).length ≤ bids.length + asks.length := by rw [List.length_append]; omega
  rcases cancelAllAndPlace_ok (cancel := cancel) hr hm hcf hf hlen hall with h | ⟨e, ⟨s1, hst, hfail⟩, he⟩
  · exact .inl h
  · refine .inr ⟨e, ?_, he⟩
    have posts : ∀ o ∈ bs ++ as, o.postTarget ≠ none → t = .limit ∨ t = .postOnly := by
      intro o ho hp
      rcases (hall o ho).posts hp with h | h | h
      · exact .inl h
      · exact .inr h
      · exact absurd h htt
    cases hfail with
    | unfilled o h hk => exact .unfilled ((hall o h).kills hk)
    | crowded _ o kind h hp many =>
      refine .crowded e kind (posts o h hp) o.side ?_
      rw [hst.sides]
      rw [List.countP_append] at many
      have z : ∀ (l : List Order) (sd : Side), (∀ x ∈ l, x.side = sd) → sd ≠ o.side → l.countP (fun x => decide (x.side = o.side)) = 0 := by
        intro l sd hx hne
        rw [List.countP_eq_zero]
        intro x hxl
        rw [hx x hxl]; simpa using hne
      cases hs : o.side with
      | bid =>
        have := z as .ask (fun x hx => (haa x hx).2) (by rw [hs]; decide)
        have := List.countP_le_length (p := fun x : Order => decide (x.side = o.side)) (l := bs)
        rw [hs] at many this; simp only; rw [hs] at *; omega
      | ask =>
        have := z bs .bid (fun x hx => (hba x hx).2) (by rw [hs]; decide)
        have := List.countP_le_length (p := fun x : Order => decide (x.side = o.side)) (l := as)
        rw [hs] at many this; simp only; rw [hs] at *; omega
    | slots a' o h hp ha' few =>
      obtain ⟨a, a1, e1, e2, _, _, _, e3⟩ := hst.acct
      rw [e2] at ha'; injection ha' with ha'; subst ha'
      exact .slots a e1 (posts o h hp) (by omega)

end OB
