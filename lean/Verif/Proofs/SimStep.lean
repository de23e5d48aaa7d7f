import Verif.Proofs.SimBook
/-! The instructions on two states which differ in the memory layout of the book only. -/
namespace OB

def StateSim (s t : State) : Prop := t = { s with book := t.book } ∧ BookSim s.book t.book

theorem orderParams_priceTyped {t : PlaceOrderType} {p : Int} {q : OrderParams} (hp : p ≤ i64Max) (h : orderParams t p = .ok q) :
    ∀ r, q = .immediateOrCancel r ∨ q = .fillOrKill r ∨ (∃ t, q = .fixed r t) → r ≤ i64Max := by
  intro r hr
  unfold orderParams at h
  split at h
  · cases h; rcases hr with hr | hr | ⟨_, hr⟩ <;> cases hr
  · cases h; rcases hr with hr | hr | ⟨_, hr⟩ <;> cases hr; exact hp
  · cases h; rcases hr with hr | hr | ⟨_, hr⟩ <;> cases hr; exact hp
  · simp only [bind_ok, pure_ok] at h
    obtain ⟨_, _, h⟩ := h
    cases h; rcases hr with hr | hr | ⟨_, hr⟩ <;> cases hr; exact hp

theorem PlaceOrderArgs.order_priceTyped {a : PlaceOrderArgs} {now : Nat} {o : Order} (h : a.order now = .ok (some o)) : PriceTyped o := by
  unfold PlaceOrderArgs.order at h
  simp only [bind_ok, req_ok] at h
  obtain ⟨_, ht, _, _, h⟩ := h
  split at h
  · cases h
  · simp only [bind_ok, pure_ok] at h
    obtain ⟨q, hq, h⟩ := h
    cases h
    exact orderParams_priceTyped ht.1.2 hq

theorem PlaceOrderPeggedArgs.order_priceTyped {a : PlaceOrderPeggedArgs} {m : Market} {now : Nat} {o : Order}
    (h : a.order m now = .ok (some o)) : PriceTyped o := by
  unfold PlaceOrderPeggedArgs.order at h
  simp only [bind_ok, req_ok] at h
  obtain ⟨_, ht, _, _, _, _, h⟩ := h
  split at h
  · cases h
  · simp only [bind_ok, pure_ok] at h
    obtain ⟨q, hq, h⟩ := h
    cases h
    intro r hr
    rcases hr with hr | hr | ⟨_, hr⟩ <;> cases hr

theorem multiOrders_priceTyped {t : PlaceOrderType} {now : Nat} {side : Side} (l : List MultiArgs) (i : Nat) {os : List Order}
    (h : multiOrders t now side i l = .ok os) : ∀ o ∈ os, PriceTyped o := by
  induction l generalizing i os with
  | nil => cases h; intro o ho; cases ho
  | cons a l ih =>
    simp only [multiOrders, bind_ok, req_ok] at h
    obtain ⟨_, ht, _, _, h⟩ := h
    split at h
    · exact ih _ h
    · simp only [bind_ok, pure_ok] at h
      obtain ⟨q, hq, r, hr, h⟩ := h
      cases h
      intro o ho
      rcases List.mem_cons.mp ho with rfl | ho
      · exact orderParams_priceTyped ht.1.2 hq
      · exact ih _ hr o ho

theorem takeOrder_priceTyped {a : PlaceOrderArgs} {o : Order} (h : takeOrder a = .ok o) : PriceTyped o := by
  unfold takeOrder at h
  simp only [bind_ok, req_ok] at h
  obtain ⟨_, ht, _, _, p, hp, h⟩ := h
  cases h
  intro r hr
  split at hp <;> cases hp <;> rcases hr with hr | hr | ⟨_, hr⟩ <;> cases hr <;> exact ht.1.2

theorem boundOrder_priceTyped {g : Ledger} {k : Pubkey} {ub uq b q : Int} {o o' : Order} (ho : PriceTyped o)
    (h : boundOrder g k ub uq b q o = .ok o') : PriceTyped o' := by
  unfold boundOrder at h
  simp only [bind_ok, req_ok] at h
  obtain ⟨_, _, _, _, h⟩ := h
  split at h
  · simp only [bind_ok, pure_ok] at h
    obtain ⟨_, _, _, _, h⟩ := h
    cases h; exact ho
  · simp only [bind_ok, pure_ok] at h
    obtain ⟨_, _, _, _, h⟩ := h
    cases h; exact ho

variable {s : State} {bk : Book}

theorem placeOrder_sim (hb : BookSim s.book bk) (c : PlaceCtx) {o : Order} (ho : PriceTyped o) (limit : Nat) :
    RSim (fun x y => y.1 = x.1 ∧ StateSim x.2 y.2) (placeOrder s c o limit) (placeOrder { s with book := bk } c o limit) := by
  unfold placeOrder
  refine RSim.same fun _ _ => RSim.same fun _ _ => RSim.same fun _ _ => RSim.same fun _ _ => RSim.same fun _ _ =>
    RSim.same fun now _ => RSim.same fun _ _ => ?_
  refine RSim.bind (hb.newOrder (env := ⟨o, c.oracle, true, c.ooKey, now, limit, c.rem⟩) ho s.g) ?_
  rintro ⟨r, b1, g1⟩ ⟨r', b1', g1'⟩ ⟨e1, hb1, e2⟩
  simp only at e1 hb1 e2
  subst e1 e2
  exact RSim.same fun _ _ => RSim.same fun _ _ => RSim.same fun _ _ => RSim.same fun _ _ => ⟨rfl, rfl, hb1⟩

theorem placeOrderIx_sim (hb : BookSim s.book bk) (c : PlaceCtx) (a : PlaceOrderArgs) :
    RSim (fun x y => y.1 = x.1 ∧ StateSim x.2 y.2) (placeOrderIx s c a) (placeOrderIx { s with book := bk } c a) := by
  unfold placeOrderIx
  refine RSim.same fun _ _ => RSim.same fun o ho => ?_
  cases o with
  | none => exact RSim.same fun _ _ => ⟨rfl, rfl, hb⟩
  | some o =>
    refine RSim.bind (placeOrder_sim hb c (PlaceOrderArgs.order_priceTyped ho) a.limit) ?_
    rintro ⟨r, s1⟩ ⟨r', s1'⟩ ⟨e, h⟩
    exact ⟨congrArg some e, h⟩

theorem placeOrderPeggedIx_sim (hb : BookSim s.book bk) (c : PlaceCtx) (a : PlaceOrderPeggedArgs) :
    RSim (fun x y => y.1 = x.1 ∧ StateSim x.2 y.2) (placeOrderPeggedIx s c a) (placeOrderPeggedIx { s with book := bk } c a) := by
  unfold placeOrderPeggedIx
  refine RSim.same fun _ _ => RSim.same fun o ho => ?_
  cases o with
  | none => exact RSim.same fun _ _ => ⟨rfl, rfl, hb⟩
  | some o =>
    refine RSim.bind (placeOrder_sim hb c (PlaceOrderPeggedArgs.order_priceTyped ho) a.limit) ?_
    rintro ⟨r, s1⟩ ⟨r', s1'⟩ ⟨e, h⟩
    exact ⟨congrArg some e, h⟩

theorem cancelAllFor_sim (hb : BookSim s.book bk) (k : Pubkey) (limit : Nat) (so : Option Side) (co : Option Nat) :
    RSim (fun x y => y.1 = x.1 ∧ StateSim x.2 y.2) (cancelAllFor s k limit so co) (cancelAllFor { s with book := bk } k limit so co) := by
  unfold cancelAllFor cancelAllOrders
  refine RSim.same fun a _ => ?_
  refine RSim.bind (hb.cancelAllLoop _ _ _ a _) ?_
  rintro ⟨r, b1, g1⟩ ⟨r', b1', g1'⟩ ⟨e1, hb1, e2⟩
  simp only at e1 hb1 e2
  subst e1 e2
  exact ⟨rfl, rfl, hb1⟩

theorem cancelByClientId_sim (hb : BookSim s.book bk) (sg k : Pubkey) (cl : Nat) :
    RSim (fun x y => y.1 = x.1 ∧ StateSim x.2 y.2) (cancelByClientId s sg k cl) (cancelByClientId { s with book := bk } sg k cl) := by
  unfold cancelByClientId
  exact RSim.same fun _ _ => cancelAllFor_sim hb _ _ _ _

theorem cancelAll_sim (hb : BookSim s.book bk) (sg k : Pubkey) (so : Option Side) (limit : Nat) :
    RSim StateSim (cancelAll s sg k so limit) (cancelAll { s with book := bk } sg k so limit) := by
  unfold cancelAll
  refine RSim.same fun _ _ => RSim.bind (cancelAllFor_sim hb _ _ _ _) ?_
  rintro ⟨r, s1⟩ ⟨r', s1'⟩ ⟨e, h⟩
  exact h

theorem pruneOrders_sim (hb : BookSim s.book bk) (ad k : Pubkey) (now : Int) (limit : Nat) :
    RSim StateSim (pruneOrders s ad k now limit) (pruneOrders { s with book := bk } ad k now limit) := by
  unfold pruneOrders
  refine RSim.same fun _ _ => RSim.same fun _ _ => RSim.bind (cancelAllFor_sim hb _ _ _ _) ?_
  rintro ⟨r, s1⟩ ⟨r', s1'⟩ ⟨e, h⟩
  exact h

theorem cancelOrderIx_sim (hb : BookSim s.book bk) (sg k : Pubkey) (id : Nat) :
    RSim StateSim (cancelOrderIx s sg k id) (cancelOrderIx { s with book := bk } sg k id) := by
  unfold cancelOrderIx
  refine RSim.same fun a _ => RSim.same fun _ _ => RSim.same fun oo _ => RSim.bind (hb.cancelOrderOnBook a _ _ _ _ _) ?_
  rintro ⟨r, b1, g1⟩ ⟨r', b1', g1'⟩ ⟨e1, hb1, e2⟩
  simp only at e1 hb1 e2
  subst e1 e2
  exact ⟨rfl, hb1⟩

theorem editOrder_sim (hb : BookSim s.book bk) (c : PlaceCtx) (cl : Nat) (e : Int) {o : Order} (ho : PriceTyped o) (limit : Nat) :
    RSim (fun x y => y.1 = x.1 ∧ StateSim x.2 y.2) (editOrder s c cl e o limit) (editOrder { s with book := bk } c cl e o limit) := by
  unfold editOrder
  refine RSim.same fun _ _ => RSim.same fun _ _ => RSim.same fun _ _ => RSim.bind (cancelByClientId_sim hb _ _ _) ?_
  rintro ⟨q, s1⟩ ⟨q', s1'⟩ ⟨e1, e2, hb1⟩
  simp only at e1 e2 hb1
  subst e1
  rw [e2]
  refine RSim.same fun _ _ => ?_
  split
  · refine RSim.same fun mb _ => RSim.bind (placeOrder_sim hb1 c (o := { o with maxBaseLots := mb }) ho limit) ?_
    rintro ⟨r, s1⟩ ⟨r', s1'⟩ ⟨e, h⟩
    exact ⟨congrArg some e, h⟩
  · exact ⟨rfl, rfl, hb1⟩

theorem editOrderIx_sim (hb : BookSim s.book bk) (c : PlaceCtx) (cl : Nat) (e : Int) (a : PlaceOrderArgs) :
    RSim (fun x y => y.1 = x.1 ∧ StateSim x.2 y.2) (editOrderIx s c cl e a) (editOrderIx { s with book := bk } c cl e a) := by
  unfold editOrderIx
  refine RSim.same fun _ _ => RSim.same fun o ho => ?_
  cases o with
  | none => exact RSim.same fun _ _ => ⟨rfl, rfl, hb⟩
  | some o => exact editOrder_sim hb c cl e (PlaceOrderArgs.order_priceTyped ho) a.limit

theorem editOrderPeggedIx_sim (hb : BookSim s.book bk) (c : PlaceCtx) (cl : Nat) (e : Int) (a : PlaceOrderPeggedArgs) :
    RSim (fun x y => y.1 = x.1 ∧ StateSim x.2 y.2) (editOrderPeggedIx s c cl e a) (editOrderPeggedIx { s with book := bk } c cl e a) := by
  unfold editOrderPeggedIx
  refine RSim.same fun _ _ => RSim.same fun o ho => ?_
  cases o with
  | none => exact RSim.same fun _ _ => ⟨rfl, rfl, hb⟩
  | some o => exact editOrder_sim hb c cl e (PlaceOrderPeggedArgs.order_priceTyped ho) a.limit

theorem multiLoop_sim {c : MultiCtx} {now limit : Nat} {ub uq : Int} (os : List Order) (ho : ∀ o ∈ os, PriceTyped o) {b b' : Book}
    (hb : BookSim b b') (g : Ledger) (x q : Int) :
    RSim (fun u v => v.1 = u.1 ∧ BookSim u.2.1 v.2.1 ∧ v.2.2 = u.2.2) (multiLoop c now limit ub uq os b g x q)
      (multiLoop c now limit ub uq os b' g x q) := by
  induction os generalizing b b' g x q with
  | nil => exact ⟨rfl, hb, rfl⟩
  | cons o os ih =>
    simp only [multiLoop]
    refine RSim.same fun o' ho' => ?_
    refine RSim.bind (hb.newOrder (boundOrder_priceTyped (ho o List.mem_cons_self) ho') g) ?_
    rintro ⟨r, b1, g1⟩ ⟨r', b1', g1'⟩ ⟨e1, hb1, e2⟩
    simp only at e1 hb1 e2
    subst e1 e2
    refine RSim.same fun _ _ => RSim.same ?_
    rintro ⟨x1, q1⟩ _
    refine RSim.bind (ih (fun o h => ho o (List.mem_cons_of_mem _ h)) hb1 _ _ _) ?_
    rintro ⟨r2, b2, g2⟩ ⟨r2', b2', g2'⟩ ⟨e1, hb2, e2⟩
    simp only at e1 hb2 e2
    subst e1 e2
    exact ⟨rfl, hb2, rfl⟩

theorem placeOrdersIx_sim (hb : BookSim s.book bk) (c : MultiCtx) (cancel : Bool) (t : PlaceOrderType) (bids asks : List MultiArgs)
    (limit : Nat) : RSim (fun x y => y.1 = x.1 ∧ StateSim x.2 y.2) (placeOrdersIx s c cancel t bids asks limit)
      (placeOrdersIx { s with book := bk } c cancel t bids asks limit) := by
  unfold placeOrdersIx
  refine RSim.same fun _ _ => RSim.same fun now _ => RSim.same fun bs hbs => RSim.same fun as has => ?_
  have ho : ∀ o ∈ bs ++ as, PriceTyped o := by
    intro o h
    rcases List.mem_append.mp h with h | h
    · exact multiOrders_priceTyped _ _ hbs o h
    · exact multiOrders_priceTyped _ _ has o h
  unfold cancelAllAndPlace
  refine RSim.same fun _ _ => RSim.same fun _ _ => RSim.same fun _ _ => RSim.same fun _ _ => RSim.same fun _ _ => RSim.same fun _ _ => ?_
  refine RSim.bind (P := StateSim) ?_ ?_
  · split
    · refine RSim.bind (cancelAllFor_sim hb _ _ _ _) ?_
      rintro ⟨r, s1⟩ ⟨r', s1'⟩ ⟨e, h⟩
      exact h
    · exact ⟨rfl, hb⟩
  · intro s1 s1' h1
    have hg : s1'.g = s1.g := by rw [h1.1]
    rw [hg]
    refine RSim.bind (multiLoop_sim _ ho h1.2 _ _ _) ?_
    rintro ⟨r2, b2, g2, x, q⟩ ⟨r2', b2', g2'⟩ ⟨e1, hb2, e2⟩
    simp only at e1 hb2 e2
    subst e1 e2
    simp only
    refine RSim.same ?_
    rintro ⟨g3, d3⟩ _
    refine RSim.same ?_
    rintro ⟨g4, d4⟩ _
    exact RSim.same fun _ _ => RSim.same fun _ _ => RSim.same fun _ _ => ⟨rfl, rfl, hb2⟩

theorem placeTakeOrderIx_sim (hb : BookSim s.book bk) (c : TakeCtx) (a : PlaceOrderArgs) :
    RSim (fun x y => y.1 = x.1 ∧ StateSim x.2 y.2) (placeTakeOrderIx s c a) (placeTakeOrderIx { s with book := bk } c a) := by
  unfold placeTakeOrderIx
  refine RSim.same fun o ho => ?_
  unfold placeTakeOrder
  refine RSim.same fun _ _ => RSim.same fun _ _ => RSim.same fun _ _ => RSim.same fun _ _ => RSim.same fun _ _ => RSim.same fun _ _ =>
    RSim.same fun _ _ => RSim.same fun _ _ => RSim.same fun _ _ => RSim.same fun _ _ => RSim.same fun now _ => RSim.same fun _ _ => ?_
  refine RSim.bind (hb.newOrder (env := ⟨o, c.oracle, false, c.signer, now, a.limit, c.rem⟩) (takeOrder_priceTyped ho) s.g) ?_
  rintro ⟨r, b1, g1⟩ ⟨r', b1', g1'⟩ ⟨e1, hb1, e2⟩
  simp only at e1 hb1 e2
  subst e1 e2
  refine RSim.same ?_
  rintro ⟨g3, d3⟩ _
  exact RSim.same fun _ _ => RSim.same fun _ _ => RSim.same fun _ _ => ⟨rfl, rfl, hb1⟩

theorem closeMarket_sim (hb : BookSim s.book bk) (ad : Pubkey) (now : Int) :
    RSim StateSim (closeMarket s ad now) (closeMarket { s with book := bk } ad now) := by
  unfold closeMarket
  have e1 := hb.isEmpty .bid
  have e2 := hb.isEmpty .ask
  simp only [Book.side] at e1 e2
  simp only [e1, e2]
  exact RSim.same fun _ _ => RSim.same fun _ _ => RSim.same fun _ _ => RSim.same fun _ _ => RSim.same fun _ _ => RSim.same fun _ _ =>
    RSim.same fun _ _ => ⟨rfl, hb⟩

theorem deposit_sim (hb : BookSim s.book bk) (sg k ub uq : Pubkey) (now x y : Int) :
    RSim StateSim (deposit s sg k ub uq now x y) (deposit { s with book := bk } sg k ub uq now x y) := by
  unfold deposit
  exact RSim.same fun _ _ => RSim.same fun _ _ => RSim.same fun _ _ => RSim.same fun _ _ => RSim.same fun _ _ => RSim.same fun _ _ =>
    RSim.same fun _ _ => RSim.same fun _ _ => RSim.same fun _ _ => RSim.same fun _ _ => RSim.same fun _ _ => RSim.same fun _ _ =>
    RSim.same fun _ _ => ⟨rfl, hb⟩

theorem settleCore_sim (hb : BookSim s.book bk) (c : SettleCtx) :
    RSim StateSim (settleCore s c) (settleCore { s with book := bk } c) := by
  unfold settleCore
  refine RSim.same fun _ _ => RSim.same fun _ _ => RSim.same fun _ _ => RSim.same fun _ _ => RSim.same ?_
  rintro ⟨r, m, a⟩ _
  exact RSim.same fun _ _ => RSim.same fun _ _ => RSim.same fun _ _ => RSim.same fun _ _ => ⟨rfl, hb⟩

theorem RSim.toState {α : Type} {x y : R (α × State)} (h : RSim (fun u v => v.1 = u.1 ∧ StateSim u.2 v.2) x y) :
    RSim StateSim (x >>= fun r => pure r.2) (y >>= fun r => pure r.2) := RSim.bind h fun _ _ hab => hab.2

theorem consumeEvents_sim (hb : BookSim s.book bk) (ad : Pubkey) (limit : Nat) (slots : List Nat) (rem : List Pubkey) :
    RSim StateSim (consumeEvents s ad limit slots rem) (consumeEvents { s with book := bk } ad limit slots rem) := by
  unfold consumeEvents
  exact RSim.same fun _ _ => RSim.same fun _ _ => RSim.same fun _ _ => RSim.same fun _ _ => ⟨rfl, hb⟩

theorem step_sim (hb : BookSim s.book bk) (op : Op) : RSim StateSim (step s op) (step { s with book := bk } op) := by
  cases op with
  | placeOrder c a => exact (placeOrderIx_sim hb c a).toState
  | placeOrderPegged c a => exact (placeOrderPeggedIx_sim hb c a).toState
  | editOrder c cl e a => exact (editOrderIx_sim hb c cl e a).toState
  | editOrderPegged c cl e a => exact (editOrderPeggedIx_sim hb c cl e a).toState
  | placeOrders c cn t bs as l => exact (placeOrdersIx_sim hb c cn t bs as l).toState
  | placeTakeOrder c a => exact (placeTakeOrderIx_sim hb c a).toState
  | consumeEvents ad l rem => exact consumeEvents_sim hb ad l [] rem
  | consumeGivenEvents ad sl rem => exact RSim.same (x := req (sl.all (fun i => i < maxNumEvents) = true) .invalidInputHeapSlots) fun _ _ => consumeEvents_sim hb ad _ sl rem
  | cancelOrder sg k id => exact cancelOrderIx_sim hb sg k id
  | cancelByClientId sg k cl => exact (cancelByClientId_sim hb sg k cl).toState
  | cancelAll sg k so l => exact cancelAll_sim hb sg k so l
  | deposit sg k ub uq now x y => exact deposit_sim hb sg k ub uq now x y
  | refill sg k ub uq now x y =>
    simp only [step]
    unfold refill
    exact RSim.same fun _ _ => RSim.same fun _ _ => deposit_sim hb sg k ub uq now _ _
  | settleFunds c =>
    simp only [step]
    unfold settleFunds
    exact RSim.same fun _ _ => RSim.same fun _ _ => RSim.same fun _ _ => RSim.same fun _ _ => RSim.same fun _ _ => RSim.same fun _ _ =>
      RSim.same fun _ _ => settleCore_sim hb c
  | settleFundsExpired ad c now =>
    simp only [step]
    unfold settleFundsExpired
    exact RSim.same fun _ _ => RSim.same fun _ _ => RSim.same fun _ _ => RSim.same fun _ _ => RSim.same fun _ _ => RSim.same fun _ _ =>
      RSim.same fun _ _ => RSim.same fun _ _ => settleCore_sim hb c
  | sweepFees ad r =>
    simp only [step]
    unfold sweepFees
    exact RSim.same fun _ _ => RSim.same fun _ _ => RSim.same fun _ _ => RSim.same fun _ _ => RSim.same fun _ _ => ⟨rfl, hb⟩
  | pruneOrders ad k now l => exact pruneOrders_sim hb ad k now l
  | setMarketExpired ad now =>
    simp only [step]
    unfold setMarketExpired
    exact RSim.same fun _ _ => RSim.same fun _ _ => ⟨rfl, hb⟩
  | closeMarket ad now => exact closeMarket_sim hb ad now
  | createOO k ow dl =>
    simp only [step]
    unfold createOO
    exact RSim.same fun _ _ => RSim.same fun _ _ => RSim.same fun _ _ => ⟨rfl, hb⟩
  | closeOO k ow =>
    simp only [step]
    unfold closeOO
    exact RSim.same fun _ _ => RSim.same fun _ _ => RSim.same fun _ _ => ⟨rfl, hb⟩
  | setDelegate k ow dl =>
    simp only [step]
    unfold setDelegate
    exact RSim.same fun _ _ => RSim.same fun _ _ => ⟨rfl, hb⟩
  | externalToken k t =>
    simp only [step]
    unfold externalToken
    exact RSim.same fun _ _ => RSim.same fun _ _ => ⟨rfl, hb⟩
  | externalLamports k x =>
    simp only [step]
    unfold externalLamports
    exact RSim.same fun _ _ => ⟨rfl, hb⟩

end OB
