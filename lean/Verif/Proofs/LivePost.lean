import Verif.Proofs.LiveTaker
import Verif.Proofs.Room
/-! Making room and posting succeed, unless the own side of the book or the account is full. -/
namespace OB
open OB.Spec

theorem pegPrice_range (o : Int) (l : LeafNode) (side : Side) : 1 ≤ (oraclePeggedPrice o l side).2 ∧ (oraclePeggedPrice o l side).2 ≤ i64Max := by
  unfold oraclePeggedPrice
  simp only
  have : satAddI64 o (oraclePeggedPriceOffset l.priceData) ≤ i64Max := by unfold satAddI64 i64Max i64Min; omega
  have h1 : 1 ≤ i64Max := by decide
  split
  · split <;> (simp only; omega)
  · simp only; omega

theorem rankOrders_ok {side : Side} {f p : Option (Nat × LeafNode)} {rw : Bool} {now : Nat} {oracle : Option Int}
    (hf : ∀ x, f = some x → FixedOk x.2) : ∃ r, rankOrders side f p rw now oracle = .ok r := by
  unfold rankOrders
  cases oracle with
  | none =>
    cases f with
    | none => exact ⟨_, rfl⟩
    | some f => simp only; rw [fixedToResult_eq now (hf f rfl)]; exact ⟨_, rfl⟩
  | some o =>
    cases p with
    | none =>
      cases f with
      | none => exact ⟨_, rfl⟩
      | some f => simp only; rw [fixedToResult_eq now (hf f rfl)]; exact ⟨_, rfl⟩
    | some p =>
      obtain ⟨hd, l⟩ := p
      cases f with
      | none => exact ⟨_, rfl⟩
      | some f =>
        obtain ⟨r1, r2⟩ := pegPrice_range o l side
        simp only
        rw [keyForFixedPrice_eq r1 r2, ok_bind]
        generalize (xor _ rw) = B
        cases B with
        | true => rw [if_pos rfl, fixedToResult_eq now (hf f rfl)]; exact ⟨_, rfl⟩
        | false => exact ⟨_, rfl⟩

theorem removeWorst_ok {b : BookSide} {ot : Comp → Option T} (h : BSOk b ot) {now : Nat} {oracle : Option Int}
    (hF : ∀ l ∈ b.orders .fixed, FixedOk l) : ∃ r, b.removeWorst now oracle = .ok r := by
  unfold BookSide.removeWorst
  have e1 := findWorst_spec (h.slabC .fixed) (h.rep .fixed)
  have e2 := findWorst_spec (h.slabC .pegged) (h.rep .pegged)
  change b.nodes.findWorst b.rootFixed = _ at e1
  change b.nodes.findWorst b.rootPegged = _ at e2
  rw [e1, e2]
  simp only [ok_bind]
  obtain ⟨w?, hw⟩ := rankOrders_ok (side := b.side) (p := (OT.ord b.side (ot .pegged)).getLast?) (rw := true) (now := now) (oracle := oracle)
    (f := (OT.ord b.side (ot .fixed)).getLast?) (fun x hx => hF _ (by
      rw [h.orders, OT.lvs_eq]
      exact List.mem_map_of_mem ((OT.ord_perm _ _).mem_iff.mp (mem_getLast? hx))))
  change rankOrders b.side (OT.ord b.nodes.side _).getLast? (OT.ord b.nodes.side _).getLast? true now oracle = _ at hw
  rw [hw]
  simp only [ok_bind]
  cases w? with
  | none => exact ⟨_, rfl⟩
  | some w =>
    have key : ∃ hd, (OT.ord b.side (ot w.comp)).getLast? = some (hd, w.leaf) := by
      rcases rankOrders_inv hw with ⟨hc, hf, _⟩ | ⟨hc, hf, _⟩ <;> rw [hc] <;> exact ⟨_, hf⟩
    obtain ⟨hd, hl⟩ := key
    have hm : w.leaf ∈ OT.lvs (ot w.comp) := by
      rw [OT.lvs_eq]
      exact List.mem_map.mpr ⟨(hd, w.leaf), (OT.ord_perm _ _).mem_iff.mp (mem_getLast? hl), rfl⟩
    obtain ⟨b1, ot', g1, _⟩ := bs_removeByKey_mem h w.comp hm
    simp only [g1, ok_bind]
    exact ⟨_, rfl⟩

theorem RoomRes.out_ok {side : Side} {b b1 b2 : BookSide} {g g1 : Ledger} {L : Rests} {dB dQ : Int} {ex : Pubkey → Int} {n : Nat}
    {outs : List OutEvent} {rm : List (Comp × LeafNode)} {owner : Pubkey} {rem : List Pubkey}
    (h : RoomRes owner rem side b g L dB dQ ex n b1 g1 outs rm) (hc : Covered g.market) (hex : ∀ k, 0 ≤ ex k)
    (hdB : g.market.baseDepositTotal + dB ≤ u64Max) (hdQ : g.market.quoteDepositTotal + dQ ≤ u64Max)
    {ot ot' : Comp → Option T} {c : Comp} {l : LeafNode} (h1 : BSOk b1 ot) (h2 : BSOk b2 ot')
    (hp : (OT.lvs (ot c)).Perm (l :: OT.lvs (ot' c))) (ho : ot' c.other = ot c.other)
    {ev : OutEvent} (hev : OutOf ev side l) {hasOO : Bool} {cnt tk k : Nat} (hr : LRoom g1 cnt tk) (hh : HRoom g1.heap (k + 1)) :
    ∃ g2, processOutEvent ev hasOO owner rem g1 = .ok g2 ∧ LRoom g2 cnt tk ∧ HRoom g2.heap k ∧ LightFrame g1 g2 := by
  have hpp : (sideRests side b1.orders).Perm ((side, c, l) :: sideRests side b2.orders) := by
    rw [h1.orders_fun, h2.orders_fun]
    refine sideRests_cons (L := fun c => OT.lvs (ot c)) (L' := fun c => OT.lvs (ot' c)) hp ?_
    intro c' hc
    rw [other_eq hc, ho]
  have hl2 := h.linv.perm (hpp.append_right L)
  rw [List.cons_append] at hl2
  rw [← h.mkt] at hc hdB hdQ
  exact processOut_ok hl2 hex hc hdB hdQ hev hr hh

/-- The second half of `makeRoom`. -/
def roomTail (env : Env) (priceLots : Int) (b1 : BookSide) (g1 : Ledger) (outs : List OutEvent) : OB.R (BookSide × Ledger × List OutEvent) :=
  if b1.isFull then do
    let (l, worstPrice, b2) ← unwrapR (← b1.removeWorst env.nowTs env.oracle)
    req (env.order.side.isPriceBetter priceLots worstPrice = true) .someError
    let ev : OutEvent := { side := env.order.side, ownerSlot := l.ownerSlot, timestamp := env.nowTs, seqNum := g1.heap.seqNum,
                           owner := l.owner, quantity := l.quantity }
    let g2 ← processOutEvent ev true env.owner env.rem g1
    return (b2, g2, outs ++ [ev])
  else return (b1, g1, outs)

theorem roomTail_ok {env : Env} {price : Int} {b b1 : BookSide} {g g1 : Ledger}
    {L : Rests} {dB dQ : Int} {ex : Pubkey → Int} {n : Nat} (hc : Covered g.market) (hex : ∀ k, 0 ≤ ex k)
    (hdB : g.market.baseDepositTotal + dB ≤ u64Max) (hdQ : g.market.quoteDepositTotal + dQ ≤ u64Max) {outs : List OutEvent}
    {rm : List (Comp × LeafNode)} (key : RoomRes env.owner env.rem env.order.side b g L dB dQ ex n b1 g1 outs rm)
    {cnt tk k : Nat} (hr : LRoom g1 cnt tk) (hh : HRoom g1.heap (k + 1)) (hli : LightFrame g g1) :
    (∃ b' g' outs', roomTail env price b1 g1 outs = .ok (b', g', outs') ∧ LRoom g' cnt tk ∧ HRoom g'.heap k ∧ LightFrame g g' ∧
      (b'.isFull = false ∨ 512 ≤ (sideRests env.order.side b.orders).length)) ∨
    (512 ≤ (sideRests env.order.side b.orders).length ∧
      (roomTail env price b1 g1 outs = .error .someError ∨ roomTail env price b1 g1 outs = .error .panic)) := by
  unfold roomTail
  obtain ⟨ot1, hot1⟩ := key.ok
  cases hfull : b1.isFull with
  | false => exact .inl ⟨_, _, _, rfl, hr, hh.mono (by omega), hli, .inl hfull⟩
  | true =>
    have hlen : 512 ≤ (sideRests env.order.side b.orders).length := by
      have h1 := full_many (s := env.order.side) hot1 hfull
      have h2 := key.perm.length_eq
      rw [List.length_append] at h2
      omega
    have hF : ∀ l ∈ b1.orders .fixed, FixedOk l := by
      intro l hm
      have hm' : (env.order.side, Comp.fixed, l) ∈ sideRests env.order.side b1.orders ++ L :=
        List.mem_append_left _ (List.mem_append_left _ (List.mem_map.mpr ⟨l, hm, rfl⟩))
      obtain ⟨oo, a, hok, _⟩ := key.linv.restOk hm'
      have hr := hok.rest _ _ _ _ rfl
      obtain ⟨q1, q2, _⟩ := hr.fixed rfl
      exact ⟨hr.key, q1, q2⟩
    obtain ⟨w, hw⟩ := removeWorst_ok hot1 (now := env.nowTs) (oracle := env.oracle) hF
    simp only [if_true]
    rw [hw, ok_bind]
    cases w with
    | none => exact .inr ⟨hlen, .inr rfl⟩
    | some w =>
      obtain ⟨l, p, b2⟩ := w
      simp only [unwrapR, ok_bind]
      by_cases hbet : env.order.side.isPriceBetter price p = true
      · rw [req_true hbet, ok_bind]
        obtain ⟨c, ot', hd, w1, w2, w3, w4, _⟩ := bs_removeWorst hot1 hw
        obtain ⟨g2, o1, o2, o3, o4⟩ := key.out_ok hc hex hdB hdQ hot1 w1 w2 w3
          (ev := { side := env.order.side, ownerSlot := l.ownerSlot, timestamp := env.nowTs, seqNum := g1.heap.seqNum,
                   owner := l.owner, quantity := l.quantity }) ⟨rfl, rfl, rfl, rfl⟩ (hasOO := true) hr hh
        rw [o1, ok_bind]
        exact .inl ⟨_, _, _, rfl, o2, o3, hli.trans o4, .inr hlen⟩
      · rw [req, if_neg hbet]
        exact .inr ⟨hlen, .inl rfl⟩

theorem makeRoom_ok {env : Env} {price : Int} {target : Comp} {b : BookSide} {g : Ledger}
    {L : Rests} {dB dQ : Int} {ex : Pubkey → Int} {n : Nat} {ot : Comp → Option T} (hb : BSOk b ot)
    (hl : LInv g (sideRests env.order.side b.orders ++ L) dB dQ ex n) (hc : Covered g.market) (hex : ∀ k, 0 ≤ ex k)
    (hdB : g.market.baseDepositTotal + dB ≤ u64Max) (hdQ : g.market.quoteDepositTotal + dQ ≤ u64Max)
    {cnt tk k : Nat} (hr : LRoom g cnt tk) (hh : HRoom g.heap (k + 2)) :
    (∃ b' g' outs, makeRoom env price target b g = .ok (b', g', outs) ∧ LRoom g' cnt tk ∧ HRoom g'.heap k ∧ LightFrame g g' ∧
      (b'.isFull = false ∨ 512 ≤ (sideRests env.order.side b.orders).length)) ∨
    (512 ≤ (sideRests env.order.side b.orders).length ∧
      (makeRoom env price target b g = .error .someError ∨ makeRoom env price target b g = .error .panic)) := by
  have hr0 := RoomRes.refl (owner := env.owner) (rem := env.rem) ⟨ot, hb⟩ hl
  unfold makeRoom
  rcases bs_removeOneExpired hb target env.nowTs with ⟨k1, k2⟩ | ⟨c', l, b2, ot', k1, k2, k3, k4, k5, k6, k7, k8⟩
  · rw [k1]
    exact roomTail_ok hc hex hdB hdQ hr0 hr (hh.mono (by omega)) (.refl _)
  · rw [k1]
    have hev : OutOf { side := env.order.side, ownerSlot := l.ownerSlot, timestamp := env.nowTs, seqNum := g.heap.seqNum, owner := l.owner, quantity := l.quantity } env.order.side l := ⟨rfl, rfl, rfl, rfl⟩
    obtain ⟨g2, o1, o2, o3, o4⟩ := hr0.out_ok hc hex hdB hdQ hb k5 k6 k7 hev (hasOO := true) hr hh
    have hres' := hr0.remove hc.bls hc.qls hb k5 k6 k7 k8 hev o1
    simp only [ok_bind]
    rw [o1]
    exact roomTail_ok hc hex hdB hdQ hres' o2 o3 o4

theorem makerFeesCeilI_ok {m : Market} {a : Int} (h0 : 0 ≤ a) (h1 : a ≤ i64Max) (hm : m.makerFee ≤ 1000000) :
    m.makerFeesCeilI a = .ok (ceilFee m.makerFee a) := by
  have hn := ceilFee_nonneg (mf := m.makerFee) h0
  have hle := ceilFee_le h0 hm
  have hmin : i64Min ≤ 0 := by decide
  have h : ∃ f, m.makerFeesCeilI a = .ok f := by
    unfold Market.makerFeesCeilI
    split
    · rename_i hp
      unfold ceilFee at hn hle
      rw [Int.max_eq_left (by omega)] at hn hle
      rw [natAbs_pos hp]
      unfold Market.ceilFeeDivision feesScale
      rw [Int.tdiv_eq_ediv_of_nonneg (by have := Int.mul_nonneg h0 (show 0 ≤ m.makerFee by omega); omega)]
      refine ⟨_, ckI64_eq ?_ ?_⟩ <;> omega
    · exact ⟨_, rfl⟩
  obtain ⟨f, hf⟩ := h
  rw [hf, makerFeesCeilI_inv h0 hf]

theorem nextOrderSlot_ok {a : OOA} {i : Nat} {oo : OpenOrder} (h1 : a.openOrders[i]? = some oo) (h2 : oo.isFree = true) :
    ∃ slot, a.nextOrderSlot = .ok slot := by
  unfold OOA.nextOrderSlot
  cases h : a.openOrders.findIdx? (fun o => o.isFree) with
  | some x => exact ⟨x, rfl⟩
  | none =>
    rw [List.findIdx?_eq_none_iff] at h
    have := h oo (List.mem_of_getElem? h1)
    rw [h2] at this; cases this

theorem addOrder_ok {a : OOA} {side : Side} {comp : Comp} {l : LeafNode} {cid : Nat} {lp : Int}
    (hslot : l.ownerSlot < a.openOrders.length)
    (range : match side with
      | .bid => inI64' (a.position.bidsBaseLots + l.quantity) ∧ inI64' (l.quantity * lp) ∧ inI64' (a.position.bidsQuoteLots + l.quantity * lp)
      | .ask => inI64' (a.position.asksBaseLots + l.quantity)) :
    ∃ a', a.addOrder side comp l cid lp = .ok a' := by
  unfold OOA.addOrder
  have ho := openOrder_ok.mpr (List.getElem?_eq_getElem hslot)
  cases side with
  | bid =>
    obtain ⟨r1, r2, r3⟩ := range
    simp only [ckI64_eq r1.1 r1.2, ok_bind, ckI64_eq r2.1 r2.2, ckI64_eq r3.1 r3.2, pure_bind']
    rw [ho, ok_bind]; exact ⟨_, rfl⟩
  | ask =>
    simp only [ckI64_eq range.1 range.2, ok_bind, pure_bind']
    rw [ho, ok_bind]; exact ⟨_, rfl⟩

theorem bind_eq_of {α β : Type} {x : OB.R α} {f : α → OB.R β} {r : OB.R β} (h : (x >>= f) = r) {v : α} (hx : x = .ok v) : f v = r := by
  rw [hx] at h; exact h

/-- The account has no free slot. -/
def NoSlot (a : OOA) : Prop := ∀ (i : Nat) (oo : OpenOrder), a.openOrders[i]? = some oo → oo.isFree = false

theorem Lighter.noSlot {a a' : OOA} (h : Lighter a a') (hn : NoSlot a') : NoSlot a := by
  intro i oo h1
  cases hf : oo.isFree with
  | false => rfl
  | true =>
    obtain ⟨o, h3, h4⟩ := h.free i oo h1 hf
    rw [hn i o h3] at h4; cases h4

/-- The number of free slots. -/
def freeSlots (a : OOA) : Nat := a.openOrders.countP (fun o => o.isFree)

theorem countP_le_of_free : ∀ (l l' : List OpenOrder), (∀ (i : Nat) (oo : OpenOrder), l[i]? = some oo → oo.isFree = true →
    ∃ oo' : OpenOrder, l'[i]? = some oo' ∧ oo'.isFree = true) → l.countP (fun o => o.isFree) ≤ l'.countP (fun o => o.isFree)
  | [], _, _ => by simp
  | x :: xs, [], h => by
    have h0 : ∀ o ∈ x :: xs, ¬ (o.isFree = true) := by
      intro o ho hf
      obtain ⟨i, hi⟩ := List.getElem?_of_mem ho
      obtain ⟨_, h1, _⟩ := h i o hi hf
      simp at h1
    rw [List.countP_eq_zero.mpr h0]; exact Nat.zero_le _
  | x :: xs, y :: ys, h => by
    have ih := countP_le_of_free xs ys (fun i oo h1 h2 => by simpa using h (i + 1) oo (by simpa using h1) h2)
    rw [List.countP_cons, List.countP_cons]
    have h0 : x.isFree = true → y.isFree = true := by
      intro hx
      obtain ⟨oo', h1, h2⟩ := h 0 x (by simp) hx
      simp at h1; rw [h1]; exact h2
    cases hx : x.isFree with
    | false => simp; omega
    | true => simp [h0 hx]; omega

theorem Lighter.slots {a a' : OOA} (h : Lighter a a') : freeSlots a ≤ freeSlots a' := countP_le_of_free _ _ h.free

theorem NoSlot.slots {a : OOA} (h : NoSlot a) : freeSlots a = 0 := by
  unfold freeSlots
  rw [List.countP_eq_zero]
  intro o ho
  obtain ⟨i, hi⟩ := List.getElem?_of_mem ho
  rw [h i o hi]; decide

theorem countP_set_le (p : OpenOrder → Bool) (x : OpenOrder) : ∀ (l : List OpenOrder) (i : Nat), l.countP p ≤ (l.set i x).countP p + 1
  | [], _ => by simp
  | y :: ys, 0 => by simp only [List.set_cons_zero, List.countP_cons]; split <;> split <;> omega
  | y :: ys, i + 1 => by
    have := countP_set_le p x ys i
    simp only [List.set_cons_succ, List.countP_cons]; omega

/-- What an order adds to its account at most: lots it posts (bounded by their native amounts), and a slot. -/
structure Grown (side : Side) (pb pq : Int) (a a' : OOA) : Prop where
  bids : a'.position.bidsBaseLots ≤ a.position.bidsBaseLots + (if side = .bid then pq else 0)
  quote : a'.position.bidsQuoteLots ≤ a.position.bidsQuoteLots + (if side = .bid then pq else 0)
  asks : a'.position.asksBaseLots ≤ a.position.asksBaseLots + (if side = .ask then pb else 0)
  slots : freeSlots a ≤ freeSlots a' + 1

theorem Lighter.grown {a a' : OOA} (h : Lighter a a') {side : Side} {pb pq : Int} (h1 : 0 ≤ pb) (h2 : 0 ≤ pq) : Grown side pb pq a a' := by
  have x1 := h.bids; have x2 := h.asks; have x3 := h.quote; have x4 := h.slots
  refine ⟨?_, ?_, ?_, by omega⟩ <;> split <;> omega

theorem Lighter.trans_grown {a b c : OOA} (h : Lighter a b) {side : Side} {pb pq : Int} (h1 : Grown side pb pq b c) : Grown side pb pq a c := by
  have x1 := h.bids; have x2 := h.asks; have x3 := h.quote; have x4 := h.slots
  have y1 := h1.bids; have y2 := h1.asks; have y3 := h1.quote; have y4 := h1.slots
  exact ⟨by omega, by omega, by omega, by omega⟩

/-- Posting succeeds unless the own side or the account is full. -/
theorem postOrder_ok {env : Env} {orderId : Nat} {priceLots price qty : Int} {target : Comp} {b : BookSide} {g : Ledger}
    {L : Rests} {dB dQ : Int} {n : Nat} {ot : Comp → Option T} (hb : BSOk b ot) (hbs : b.side = env.order.side)
    (hl : LInv g (sideRests env.order.side b.orders ++ L) dB dQ (fun _ => 0) n) (hc : Covered g.market)
    (hkey : orderId < 2 ^ 128) (hseq : seqOf env.order.side orderId = n + 1) (hqty : 1 ≤ qty) (hprice : 1 ≤ price)
    (hoo : env.hasOO = true) {a : OOA} (ha : g.accts.get? env.owner = some a)
    (hql : qty * price ≤ g.market.maxQuoteLots) (hqb : qty * g.market.baseLotSize ≤ i64Max)
    (hdB : g.market.baseDepositTotal + dB ≤ u64Max)
    (hdQ : g.market.quoteDepositTotal + (dQ + if env.order.side = .bid then ceilFee g.market.makerFee (qty * price * g.market.quoteLotSize) else 0) ≤ u64Max)
    (hlots : match env.order.side with
      | .bid => a.position.bidsBaseLots + qty ≤ i64Max ∧ a.position.bidsQuoteLots + qty * price ≤ i64Max
      | .ask => a.position.asksBaseLots + qty ≤ i64Max)
    {cnt tk k : Nat} (hr : LRoom g cnt tk) (hh : HRoom g.heap (k + 2)) :
    (∃ r, postOrder env orderId priceLots price qty target b g = .ok r ∧ LRoom r.2.1 cnt tk ∧ HRoom r.2.1.heap k ∧
      ∃ a', r.2.1.accts.get? env.owner = some a' ∧ Grown env.order.side r.2.2.1 r.2.2.2.1 a a') ∨
    (512 ≤ (sideRests env.order.side b.orders).length ∧
      (postOrder env orderId priceLots price qty target b g = .error .someError ∨
       postOrder env orderId priceLots price qty target b g = .error .panic)) ∨
    (NoSlot a ∧ postOrder env orderId priceLots price qty target b g = .error .openOrdersFull) := by
  have q0 : 0 ≤ qty * price := Int.mul_nonneg (by omega) (by omega)
  have pb0 : 0 ≤ qty * g.market.baseLotSize := Int.mul_nonneg (by omega) (by have := hc.bls; omega)
  have pq1 := maxQuote_mul hc.qls hql
  have pq0 : 0 ≤ qty * price * g.market.quoteLotSize := Int.mul_nonneg q0 (by have := hc.qls; omega)
  have q1 : qty * price ≤ i64Max := by
    have : qty * price * 1 ≤ qty * price * g.market.quoteLotSize := Int.mul_le_mul_of_nonneg_left (by have := hc.qls; omega) q0
    omega
  have hmin : i64Min ≤ 0 := by decide
  obtain ⟨u1, u2, u3, u4, _⟩ := hl.acctOk ha
  obtain ⟨F, eF⟩ : ∃ F, (if env.order.side = .bid then ceilFee g.market.makerFee (qty * price * g.market.quoteLotSize) else 0) = F := ⟨_, rfl⟩
  rw [eF] at hdQ
  have F0 : 0 ≤ F := by rw [← eF]; split; exact ceilFee_nonneg pq0; exact Int.le_refl _
  have F1 : F ≤ i64Max := by
    rw [← eF]; split
    · have := ceilFee_le (mf := g.market.makerFee) pq0 hc.fees.m1; omega
    · decide
  have hlk : inU64 (a.position.lockedMakerFees + F) := by
    obtain ⟨_, v2, v3⟩ := hl.covers0 hc.bls hc.qls hc.avail ha
    have := u2.1; have := u3.1; have := u4.1
    constructor <;> omega
  obtain ⟨a1, ea1⟩ : ∃ a1 : OOA, a1 = { a with position := { a.position with lockedMakerFees := a.position.lockedMakerFees + F } } := ⟨_, rfl⟩
  have hfee : (match env.order.side with
    | .bid => do
      let f ← ckU64 (← g.market.makerFeesCeilI (qty * price * g.market.quoteLotSize))
      let l ← ckU64 (a.position.lockedMakerFees + f)
      return (f, { a with position := { a.position with lockedMakerFees := l } })
    | .ask => .ok (0, a) : OB.R (Int × OOA)) = .ok (F, a1) := by
    have hu : i64Max ≤ u64Max := by decide
    cases hs : env.order.side with
    | bid =>
      rw [hs, if_pos rfl] at eF
      simp only
      rw [makerFeesCeilI_ok pq0 pq1 hc.fees.m1, ok_bind, eF, ckU64_eq F0 (by omega), ok_bind, ckU64_eq hlk.1 hlk.2, ok_bind, ea1]
      rfl
    | ask =>
      rw [hs] at eF
      simp only [reduceCtorEq, if_false] at eF
      rw [ea1, ← eF]; simp
  have hl1 : LInv { g with accts := g.accts.set env.owner a1 } (sideRests env.order.side b.orders ++ L) dB (dQ + F)
      (fun k => if k = env.owner then F else 0) n := by
    have := hl.setFree (a' := a1) (ex' := fun k => if k = env.owner then F else 0) (m' := g.market) (dB' := dB)
      (dQ' := dQ + F) ha ⟨by rw [ea1], by rw [ea1], by rw [ea1], by rw [ea1]⟩ (fun j hj => by simp [hj])
      (by rw [ea1]; simp) (by rw [ea1]; exact u1) (by rw [ea1]; exact u2) (by rw [ea1]; exact hlk) (by rw [ea1]; exact u4)
      ⟨rfl, rfl, rfl⟩ (by rw [ea1]) (by rw [ea1]; simp only; omega) (by rw [ea1])
    exact this
  have hr1 : LRoom { g with accts := g.accts.set env.owner a1 } cnt tk := by
    refine ⟨fun j c hj => ?_, hr.volume, hr.fees, hr.woOo⟩
    by_cases hk : j = env.owner
    · subst hk
      simp only at hj
      rw [Accts.get?_set_self _ ha] at hj
      injection hj with hj; subst hj
      obtain ⟨x1, x2, x3, x4, x5⟩ := hr.accts _ a ha
      rw [ea1]
      exact ⟨⟨x1.bids, x1.asks, x1.quote⟩, x2, x3, x4, x5⟩
    · simp only at hj
      rw [Accts.get?_set_ne _ hk] at hj
      exact hr.accts j c hj
  have hex : ∀ k, 0 ≤ (fun k => if k = env.owner then F else 0) k := by intro k; beta_reduce; split <;> omega
  obtain ⟨res, hres⟩ : ∃ res, postOrder env orderId priceLots price qty target b g = res := ⟨_, rfl⟩
  rw [hres]
  unfold postOrder at hres
  rw [ckI64_eq (by omega) q1, ok_bind, req_true (by omega), ok_bind, ckI64_eq (by omega) hqb, ok_bind, ckI64_eq (by omega) pq1, ok_bind,
    assertR, req_true hoo, ok_bind, (Accts.get_ok).mpr ha, ok_bind] at hres
  replace hres := bind_eq_of hres hfee
  dsimp only at hres
  rcases makeRoom_ok (env := env) (price := priceLots) (target := target) (g := { g with accts := g.accts.set env.owner a1 }) hb hl1 hc hex hdB
    hdQ hr1 hh with ⟨b1, g2, outs, m1, m2, m3, m4, m5⟩ | ⟨m1, m2⟩
  · rw [m1, ok_bind] at hres
    obtain ⟨rm, hrr, _⟩ := makeRoom_res hb hbs hl1 hc.bls hc.qls m1
    obtain ⟨a2, ha2, hli⟩ := m4 env.owner a1 (Accts.get?_set_self _ ha)
    have hli0 : Lighter a a2 := by
      refine Lighter.trans ?_ hli
      rw [ea1]; exact SameLocks.lighter ⟨rfl, rfl, rfl, rfl⟩
    dsimp only at hres
    rw [(Accts.get_ok).mpr ha2, ok_bind] at hres
    cases hns : a2.nextOrderSlot with
    | error e =>
      right; right
      have : e = .openOrdersFull ∧ NoSlot a2 := by
        unfold OOA.nextOrderSlot at hns
        cases hf : a2.openOrders.findIdx? (fun o => o.isFree) with
        | some x => rw [hf] at hns; cases hns
        | none =>
          rw [hf] at hns; cases hns
          rw [List.findIdx?_eq_none_iff] at hf
          refine ⟨rfl, fun i oo h1 => ?_⟩
          exact hf oo (List.mem_of_getElem? h1)
      rw [hns] at hres
      obtain ⟨rfl, hno⟩ := this
      exact ⟨hli0.noSlot hno, hres.symm⟩
    | ok slot =>
      rw [hns, ok_bind] at hres
      obtain ⟨oldo, hs1, hs2, hs3⟩ := nextOrderSlot_inv hns
      have hlen := (hrr.linv.acctOk ha2).2.2.2.2
      have hmod : slot % 256 = slot := Nat.mod_eq_of_lt (by omega)
      rw [hmod] at hres
      obtain ⟨ot1, hb1⟩ := hrr.ok
      have hso := hb1.orders_fun
      have hfresh : ∀ c, ∀ l ∈ OT.lvs (ot1 c), l.key ≠ orderId := by
        intro c l hm he
        have hm' : (env.order.side, c, l) ∈ sideRests env.order.side b1.orders ++ L := by
          refine List.mem_append_left _ ?_
          rw [hso]; unfold sideRests
          cases c with
          | fixed => exact List.mem_append_left _ (List.mem_map.mpr ⟨l, hm, rfl⟩)
          | pegged => exact List.mem_append_right _ (List.mem_map.mpr ⟨l, hm, rfl⟩)
        obtain ⟨_, _, _, _, _, hle⟩ := hrr.linv.restOk hm'
        rw [he] at hle
        omega
      rcases bs_insertLeaf hb1 target (leaf := newLeaf env orderId qty slot) hkey (hfresh target) with ⟨hav, k⟩ | ⟨_, b3, ot2, k1, _⟩
      · right; left
        unfold newLeaf at k
        rw [k] at hres
        rcases m5 with m5 | m5
        · have := isFull_avail m5; omega
        · exact ⟨m5, .inl hres.symm⟩
      · left
        have k1' := k1
        unfold newLeaf at k1
        rw [k1, ok_bind] at hres
        dsimp only at hres
        obtain ⟨O, q, hw⟩ := hrr.linv
        have hok := hw.ginv.acct env.owner a2 ha2
        have hlb : 0 ≤ a2.position.bidsBaseLots ∧ 0 ≤ a2.position.asksBaseLots ∧ 0 ≤ a2.position.bidsQuoteLots := by
          obtain ⟨y1, y2⟩ := hw.ginv.lots_nonneg ha2
          refine ⟨y1, y2, ?_⟩
          rw [hok.quote]
          have : ∀ (f : Obl → Int), (∀ o ∈ O, 0 ≤ f o) → 0 ≤ osum f O := by
            intro f hf
            have := sum_le' O (f := fun _ => 0) (g := f) hf
            simpa [osum] using this
          refine this _ fun o ho => ?_
          have z := hw.ginv.ok o ho
          have := Int.mul_nonneg (show 0 ≤ o.qty by have := z.qty; omega) (show 0 ≤ o.lp by have := z.lp; omega)
          unfold cQ; split <;> omega
        obtain ⟨x1, x2, x3, x4, x5⟩ := m2.accts _ a2 ha2
        have hadd : ∃ a3, a2.addOrder env.order.side target (newLeaf env orderId qty slot) env.order.clientOrderId price = .ok a3 := by
          refine addOrder_ok hs3 ?_
          have z1 := hli0.bids; have z2 := hli0.asks; have z3 := hli0.quote
          show match env.order.side with
            | .bid => inI64' (a2.position.bidsBaseLots + qty) ∧ inI64' (qty * price) ∧ inI64' (a2.position.bidsQuoteLots + qty * price)
            | .ask => inI64' (a2.position.asksBaseLots + qty)
          cases hs : env.order.side with
          | bid =>
            rw [hs] at hlots
            obtain ⟨l1, l2⟩ := hlots
            exact ⟨⟨by omega, by omega⟩, ⟨by omega, by omega⟩, ⟨by omega, by omega⟩⟩
          | ask =>
            rw [hs] at hlots
            simp only at hlots ⊢
            exact ⟨by omega, by omega⟩
        obtain ⟨a3, hadd⟩ := hadd
        have hadd' := hadd
        unfold newLeaf at hadd'
        rw [hadd', ok_bind] at hres
        have hrun := addOrder_inv hadd
        refine ⟨_, hres.symm, ?_, m3, a3, Accts.get?_set_self _ ha2, ?_⟩
        rotate_left
        · refine hli0.trans_grown ?_
          have hbl := hc.bls; have hqs := hc.qls
          have e1 : qty * 1 ≤ qty * g.market.baseLotSize := Int.mul_le_mul_of_nonneg_left (by omega) (by omega)
          have e2 : qty * price * 1 ≤ qty * price * g.market.quoteLotSize := Int.mul_le_mul_of_nonneg_left (by omega) (by omega)
          have e3 : qty * 1 ≤ qty * price := Int.mul_le_mul_of_nonneg_left (by omega) (by omega)
          have a1 : asU64 (qty * g.market.baseLotSize) = qty * g.market.baseLotSize := asU64_eq pb0 (Int.le_trans hqb (by decide))
          have a2' : asU64 (qty * price * g.market.quoteLotSize) = qty * price * g.market.quoteLotSize := asU64_eq pq0 (Int.le_trans pq1 (by decide))
          rw [hrun.res]
          show Grown env.order.side (asU64 (qty * g.market.baseLotSize)) (asU64 (qty * price * g.market.quoteLotSize)) a2 _
          rw [a1, a2']
          have hsl : freeSlots a2 ≤ (a2.openOrders.set slot { isFree := false, side := env.order.side, comp := target, id := orderId, clientId := env.order.clientOrderId, lockedPrice := price }).countP (fun o => o.isFree) + 1 := countP_set_le _ _ _ _
          cases hs : env.order.side with
          | bid =>
            rw [hs] at hsl
            refine ⟨?_, ?_, ?_, hsl⟩
            · show a2.position.bidsBaseLots + qty ≤ _; simp; omega
            · show a2.position.bidsQuoteLots + qty * price ≤ _; simp; omega
            · show a2.position.asksBaseLots ≤ _; simp
          | ask =>
            rw [hs] at hsl
            refine ⟨?_, ?_, ?_, hsl⟩
            · show a2.position.bidsBaseLots ≤ _; simp
            · show a2.position.bidsQuoteLots ≤ _; simp
            · show a2.position.asksBaseLots + qty ≤ _; simp; omega
        refine ⟨fun j c hj => ?_, m2.volume, m2.fees, m2.woOo⟩
        by_cases hk : j = env.owner
        · subst hk
          simp only at hj
          rw [Accts.get?_set_self _ ha2] at hj
          injection hj with hj; subst hj
          have hrg := hrun.range
          rw [hrun.res]
          cases hs : env.order.side with
          | bid => rw [hs] at hrg; exact ⟨⟨hrg.1.2, x1.asks, hrg.2.2.2⟩, x2, x3, x4, x5⟩
          | ask => rw [hs] at hrg; exact ⟨⟨x1.bids, hrg.2, x1.quote⟩, x2, x3, x4, x5⟩
        · simp only at hj
          rw [Accts.get?_set_ne _ hk] at hj
          exact m2.accts j c hj
  · right; left
    refine ⟨m1, ?_⟩
    rcases m2 with m2 | m2
    · rw [m2] at hres; exact .inl hres.symm
    · rw [m2] at hres; exact .inr hres.symm

end OB
