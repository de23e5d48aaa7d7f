import Verif.Proofs.Amounts
import Verif.Proofs.Again
import Verif.Spec.Ledger
/-! The placement instructions as calls of the matching engine, and what they cost their owner. -/
namespace OB
open Spec

theorem nowU64_eq {now : Int} {n : Nat} (h : nowU64 now = .ok n) : (n : Int) = now ∧ (n : Int) ≤ i64Max := by
  unfold nowU64 at h
  simp only [bind_ok, pure_ok, assertR, req_ok] at h
  obtain ⟨_, h1, h2⟩ := h
  rw [← h2]; omega

theorem oracleOk_range {s : State} {o : Option Int} (h : oracleOk s o = .ok ()) : ∀ p, o = some p → i64Min ≤ p ∧ p ≤ i64Max := by
  rintro p rfl
  unfold oracleOk at h
  exact (req_ok.mp h).2

theorem PlaceRun.call {s s' : State} {c : PlaceCtx} {order : Order} {limit : Nat} {r : OrderResult}
    (P : PlaceRun s c order limit r s') (hr : Reachable s) (ho : OrderTyped order) :
    EngineCall (placeEnv c order P.nowTs limit) s.book s.g r s'.book P.g1 := by
  refine ⟨.reachable s hr, ⟨ho.valid P.base0 P.quote0, (nowU64_eq P.now).2, oracleOk_range P.oracle, (fun h => nomatch h)⟩, ?_⟩
  rw [congrArg State.book P.res]; exact P.new

theorem TakeRun.call {s s' : State} {c : TakeCtx} {order : Order} {limit : Nat} {r : OrderResult}
    (P : TakeRun s c order limit r s') (hr : Reachable s) (ho : OrderTyped order) :
    EngineCall { order, oracle := c.oracle, hasOO := false, owner := c.signer, nowTs := P.nowTs, limit, rem := c.rem }
      s.book s.g r s'.book P.g1 := by
  refine ⟨.reachable s hr, ⟨ho.valid P.base0 P.quote0, (nowU64_eq P.now).2, oracleOk_range P.oracle, fun _ => P.noOO⟩, ?_⟩
  rw [congrArg State.book P.res]; exact P.new

/-- The environment of an order of a batch. -/
def multiEnv (c : MultiCtx) (order : Order) (nowTs limit : Nat) : Env :=
  { order, oracle := c.oracle, hasOO := true, owner := c.ooKey, nowTs, limit, rem := c.rem }

/-- Orders of a batch with the bounds they were placed with, and the result. -/
inductive MultiTrace (c : MultiCtx) (nowTs limit : Nat) : List Order → List (Env × OrderResult) → Prop
  | nil : MultiTrace c nowTs limit [] []
  | cons (o o' : Order) (r : OrderResult) (os : List Order) (cs : List (Env × OrderResult))
      (side : o'.side = o.side) (params : o'.params = o.params) (quote : o'.maxQuoteLotsIncludingFees ≤ o.maxQuoteLotsIncludingFees)
      (rest : o'.selfTradeBehavior = o.selfTradeBehavior ∧ o'.clientOrderId = o.clientOrderId ∧ o'.timeInForce = o.timeInForce)
      (h : MultiTrace c nowTs limit os cs) : MultiTrace c nowTs limit (o :: os) ((multiEnv c o' nowTs limit, r) :: cs)

theorem multiLoop_charged {c : MultiCtx} {nowTs limit : Nat} {ub uq : Int} {os : List Order} {book book' : Book} {g g' : Ledger}
    {b q b' q' : Int} {rs : List OrderResult} (hnow : (nowTs : Int) ≤ i64Max)
    (hor : ∀ p, c.oracle = some p → i64Min ≤ p ∧ p ≤ i64Max) (hst : EngineState book g) (ho : ∀ o ∈ os, OrderTyped o)
    (h : multiLoop c nowTs limit ub uq os book g b q = .ok (rs, book', g', b', q')) :
    ∃ cs, Calls book g cs book' g' ∧ cs.map (·.2) = rs ∧ MultiTrace c nowTs limit os cs ∧ b' = b + chargedBase cs ∧ q' = q + chargedQuote cs := by
  induction os generalizing book g b q rs with
  | nil => cases h; exact ⟨[], .nil _ _, rfl, .nil, by simp [chargedBase], by simp [chargedQuote]⟩
  | cons o os ih =>
    simp only [multiLoop, bind_ok] at h
    obtain ⟨o', hbo, ⟨r, book1, g1⟩, hn, cost, hcost, ⟨b1, q1⟩, hadd, ⟨rs', x⟩, hrec, h⟩ := h
    simp only [pure_ok] at h
    injection h with e1 e2
    subst e2
    obtain ⟨dB, dQ, hc⟩ := hst.core
    obtain ⟨k1, k2, k3, k4, k5, k6, k7⟩ := boundOrder_ok hc.bls hc.qls (ho o (by simp)) hbo
    have hv : CallValid (multiEnv c o' nowTs limit) g :=
      ⟨⟨⟨k1.1, k1.2⟩, ⟨k1.3, k1.4⟩, k1.5, k1.6⟩, hnow, hor, (fun h => nomatch h)⟩
    have hcall : EngineCall (multiEnv c o' nowTs limit) book g r book1 g1 := ⟨hst, hv, hn⟩
    obtain ⟨cs, i1, i2, i3, i4, i5⟩ := ih (.next _ _ _ _ _ _ hst hv hn) (fun o ho' => ho o (by simp [ho'])) hrec
    refine ⟨_, .cons _ _ _ _ _ _ _ _ _ hcall i1, by rw [← e1, ← i2]; rfl, .cons _ _ _ _ _ k2 k3 k4 ⟨k5, k6, k7⟩ i3, ?_⟩
    obtain ⟨_, _, hc2⟩ := orderCost_inv hcost
    have k2' : (multiEnv c o' nowTs limit).order.side = o.side := k2
    cases hs : o.side with
    | bid =>
      rw [hs] at hadd hc2 k2'
      simp only [bind_ok, pure_ok] at hadd
      obtain ⟨z, hz, hadd⟩ := hadd
      injection hadd with a1 a2
      obtain ⟨_, hz⟩ := addAmt_ok hz
      subst a1 a2
      simp only [chargedBase, chargedQuote, List.map_cons, List.sum_cons, k2', OrderResult.cost, reduceCtorEq, if_true, if_false] at *
      omega
    | ask =>
      rw [hs] at hadd hc2 k2'
      simp only [bind_ok, pure_ok] at hadd
      obtain ⟨z, hz, hadd⟩ := hadd
      injection hadd with a1 a2
      obtain ⟨_, hz⟩ := addAmt_ok hz
      subst a1 a2
      simp only [chargedBase, chargedQuote, List.map_cons, List.sum_cons, k2', OrderResult.cost, reduceCtorEq, if_true, if_false] at *
      omega

theorem multiLoop_calls {c : MultiCtx} {nowTs limit : Nat} {ub uq : Int} {os : List Order} {book book' : Book} {g g' : Ledger}
    {b q b' q' : Int} {rs : List OrderResult} (hnow : (nowTs : Int) ≤ i64Max)
    (hor : ∀ p, c.oracle = some p → i64Min ≤ p ∧ p ≤ i64Max) (hst : EngineState book g) (ho : ∀ o ∈ os, OrderTyped o)
    (h : multiLoop c nowTs limit ub uq os book g b q = .ok (rs, book', g', b', q')) :
    ∃ cs, Calls book g cs book' g' ∧ cs.map (·.2) = rs ∧ MultiTrace c nowTs limit os cs := by
  obtain ⟨cs, h1, h2, h3, _⟩ := multiLoop_charged hnow hor hst ho h
  exact ⟨cs, h1, h2, h3⟩

theorem authCancel_of {s : State} {signer k admin : Pubkey} (h : authPlace s signer k admin = .ok ()) :
    ∃ a, authCancel s signer k = .ok a := by
  unfold authPlace at h
  simp only [bind_ok, req_ok, Accts.get_ok] at h
  obtain ⟨_, h1, _, h2, a, ha, _, h3, _⟩ := h
  refine ⟨a, ?_⟩
  unfold authCancel
  simp only [bind_ok, req_ok, Accts.get_ok, pure_ok]
  exact ⟨(), h1, (), h2, a, ha, (), h3, rfl⟩

theorem MultiRun.start_step {s s' : State} {c : MultiCtx} {cancel : Bool} {orders : List Order} {limit : Nat} {rs : List OrderResult}
    (P : MultiRun s c cancel orders limit rs s') :
    (cancel = false ∧ P.s1 = s) ∨ (cancel = true ∧ step s (.cancelAll c.signer c.ooKey none 255) = .ok P.s1) := by
  rcases P.cancelled with h | ⟨h, q, hc⟩
  · exact .inl h
  · refine .inr ⟨h, ?_⟩
    obtain ⟨a, ha⟩ := authCancel_of P.auth
    show cancelAll s c.signer c.ooKey none 255 = _
    unfold cancelAll
    simp only [bind_ok, pure_ok]
    exact ⟨a, ha, (q, P.s1), hc, rfl⟩

theorem MultiRun.reach {s s' : State} {c : MultiCtx} {cancel : Bool} {orders : List Order} {limit : Nat} {rs : List OrderResult}
    (P : MultiRun s c cancel orders limit rs s') (hr : Reachable s) : Reachable P.s1 := by
  rcases P.start_step with ⟨_, h⟩ | ⟨_, h⟩
  · rw [h]; exact hr
  · exact .step _ _ _ hr h

theorem OrderTyped.less {o : Order} (h : OrderTyped o) {x : Int} (hx : x > 0) : OrderTyped { o with maxBaseLots := o.maxBaseLots - x } :=
  ⟨by have := h.base1; show o.maxBaseLots - x ≤ _; omega, h.quote1, h.price, h.peg⟩

theorem cancelByClient_step {s s1 : State} {signer k : Pubkey} {client : Nat} {q : Int}
    (h : cancelByClientId s signer k client = .ok (q, s1)) : step s (.cancelByClientId signer k client) = .ok s1 := by
  simp only [step, bind_ok, pure_ok]
  exact ⟨_, h, rfl⟩

/-- Every placement instruction is a sequence of calls of the matching engine, after cancellations of own orders in the case of
`edit_order` and `cancel_all_and_place_orders`. -/
theorem placement_calls {s s' : State} {op : Op} (hr : Reachable s) (h : step s op = .ok s') (hp : placing op = true) :
    ∃ s1 cs g1, (s1 = s ∨ ∃ signer k, (∃ client, step s (.cancelByClientId signer k client) = .ok s1) ∨
        step s (.cancelAll signer k none 255) = .ok s1) ∧
      Calls s1.book s1.g cs s'.book g1 ∧ s'.g.heap = g1.heap := by
  have key : ∀ (t : State) c o limit r, Reachable t → OrderTyped o → PlaceRun t c o limit r s' →
      ∃ cs g1, Calls t.book t.g cs s'.book g1 ∧ s'.g.heap = g1.heap := by
    intro t c o limit r ht ho P
    refine ⟨_, _, .cons _ _ _ _ _ _ _ _ _ (P.call ht ho) (.nil _ _), ?_⟩
    rw [congrArg State.g P.res]
    show P.g3.heap = _
    have e2 : P.g2.heap = P.g1.heap := by
      have hl := P.lock
      cases hs : o.side with
      | bid => rw [hs] at hl; obtain ⟨a, hl⟩ := lockBid_inv hl; rw [hl.res]
      | ask => rw [hs] at hl; obtain ⟨a, hl⟩ := lockAsk_inv hl; rw [hl.res]
    rcases addPenalty_inv P.pen with h | ⟨a, _, _, _, h⟩
    · rw [h]; exact e2
    · rw [h]; exact e2
  have edit : ∀ c client e o limit r, OrderTyped o → EditRun s c client e o limit r s' →
      ∃ s1 cs g1, (s1 = s ∨ ∃ signer k, (∃ client, step s (.cancelByClientId signer k client) = .ok s1) ∨
        step s (.cancelAll signer k none 255) = .ok s1) ∧
      Calls s1.book s1.g cs s'.book g1 ∧ s'.g.heap = g1.heap := by
    intro c client e o limit r ho he
    obtain ⟨q, s1, h1, _, h⟩ := he.run
    have hs := cancelByClient_step h1
    refine ⟨s1, ?_⟩
    have hx : (s1 = s ∨ ∃ signer k, (∃ client, step s (.cancelByClientId signer k client) = .ok s1) ∨
        step s (.cancelAll signer k none 255) = .ok s1) := .inr ⟨_, _, .inl ⟨_, hs⟩⟩
    rcases h with ⟨e1, e2, r1, rfl, h4⟩ | ⟨_, _, rfl⟩
    · obtain ⟨P⟩ := placeOrder_inv h4
      obtain ⟨cs, g1, k1, k2⟩ := key s1 _ _ _ _ (.step _ _ _ hr hs) (ho.less e1) P
      exact ⟨cs, g1, hx, k1, k2⟩
    · exact ⟨[], s'.g, hx, .nil _ _, rfl⟩
  have same : s' = s → ∃ s1 cs g1, (s1 = s ∨ ∃ signer k, (∃ client, step s (.cancelByClientId signer k client) = .ok s1) ∨
        step s (.cancelAll signer k none 255) = .ok s1) ∧
      Calls s1.book s1.g cs s'.book g1 ∧ s'.g.heap = g1.heap := by
    rintro rfl; exact ⟨s', [], s'.g, .inl rfl, .nil _ _, rfl⟩
  cases op with
  | placeOrder c a =>
    simp only [step, bind_ok, pure_ok] at h
    obtain ⟨⟨r, s1⟩, h, rfl⟩ := h
    rcases placeOrderIx_inv h with ⟨_, e, _⟩ | ⟨now, o, r1, _, ho, _, h⟩
    · exact same e
    · obtain ⟨P⟩ := placeOrder_inv h
      obtain ⟨cs, g1, k1, k2⟩ := key s _ _ _ _ hr (PlaceOrderArgs.order_typed ho) P
      exact ⟨s, cs, g1, .inl rfl, k1, k2⟩
  | placeOrderPegged c a =>
    simp only [step, bind_ok, pure_ok] at h
    obtain ⟨⟨r, s1⟩, h, rfl⟩ := h
    rcases placeOrderPeggedIx_inv h with ⟨_, e, _⟩ | ⟨now, o, r1, _, ho, _, h⟩
    · exact same e
    · obtain ⟨P⟩ := placeOrder_inv h
      obtain ⟨cs, g1, k1, k2⟩ := key s _ _ _ _ hr (PlaceOrderPeggedArgs.order_typed ho) P
      exact ⟨s, cs, g1, .inl rfl, k1, k2⟩
  | editOrder c client e a =>
    simp only [step, bind_ok, pure_ok, editOrderIx] at h
    obtain ⟨⟨r, s1⟩, ⟨now, _, o, ho, h⟩, rfl⟩ := h
    cases o with
    | none =>
      simp only [bind_ok, pure_ok] at h
      obtain ⟨_, _, h⟩ := h
      injection h with _ e2
      exact same e2.symm
    | some o => exact edit _ _ _ _ _ _ (PlaceOrderArgs.order_typed ho) (editOrder_inv h)
  | editOrderPegged c client e a =>
    simp only [step, bind_ok, pure_ok, editOrderPeggedIx] at h
    obtain ⟨⟨r, s1⟩, ⟨now, _, o, ho, h⟩, rfl⟩ := h
    cases o with
    | none =>
      simp only [bind_ok, pure_ok] at h
      obtain ⟨_, _, h⟩ := h
      injection h with _ e2
      exact same e2.symm
    | some o => exact edit _ _ _ _ _ _ (PlaceOrderPeggedArgs.order_typed ho) (editOrder_inv h)
  | placeOrders c cancel t bids asks limit =>
    simp only [step, bind_ok, pure_ok, placeOrdersIx, req_ok] at h
    obtain ⟨⟨r, s1⟩, ⟨_, _, now, _, bs, hb, as, has, h⟩, rfl⟩ := h
    obtain ⟨P⟩ := cancelAllAndPlace_inv h
    have ho : ∀ o ∈ bs ++ as, OrderTyped o := fun o ho => by
      rcases List.mem_append.mp ho with h | h
      · exact (multiOrders_typed hb o h).1
      · exact (multiOrders_typed has o h).1
    obtain ⟨cs, k1, _, _⟩ := multiLoop_calls (nowU64_eq P.now).2 (oracleOk_range P.oracle) (.reachable _ (P.reach hr)) ho P.loop
    refine ⟨P.s1, cs, P.g1, ?_, ?_, ?_⟩
    · rcases P.start_step with ⟨_, h⟩ | ⟨_, h⟩
      · exact .inl h
      · exact .inr ⟨_, _, .inr h⟩
    · rw [congrArg State.book P.res]; exact k1
    · rw [congrArg State.g P.res]
      show P.g4.heap = _
      obtain ⟨a1, hl1⟩ := lockAsk_inv P.lockB
      obtain ⟨a2, hl2⟩ := lockBid_inv P.lockQ
      have e3 : P.g3.heap = P.g1.heap := by
        have e1 := congrArg Ledger.heap hl1.res
        have e2 := congrArg Ledger.heap hl2.res
        exact e2.trans e1
      rcases addPenalty_inv P.pen with h | ⟨a, _, _, _, h⟩
      · rw [h]; exact e3
      · rw [h]; exact e3
  | placeTakeOrder c a =>
    simp only [step, bind_ok, pure_ok, placeTakeOrderIx] at h
    obtain ⟨⟨r, s1⟩, ⟨o, ho, h⟩, rfl⟩ := h
    obtain ⟨P⟩ := placeTakeOrder_inv h
    refine ⟨s, _, _, .inl rfl, .cons _ _ _ _ _ _ _ _ _ (P.call hr (takeOrder_typed ho)) (.nil _ _), ?_⟩
    rw [congrArg State.g P.res]
    show P.g2.heap = _
    have ham := (P.fx (reachable_Inv hr) (takeOrder_typed ho)).amts.res
    rw [ham]
  | _ => cases hp

/-! ### costs -/

theorem tokens_paid {t t' : Tokens} {amt : Int} {src dst auth : Pubkey} (h : tokenTransfer t amt src dst auth = .ok t')
    (h0 : 0 ≤ amt) : (t src).amount - (t' src).amount ≤ amt ∧ ∀ k, k ≠ src → (t k).amount ≤ (t' k).amount := by
  refine ⟨?_, fun k hk => ?_⟩
  · have := (tokenTransfer_spec h h0 src).2.2
    rw [if_pos rfl] at this
    split at this <;> omega
  · have := (tokenTransfer_spec h h0 k).2.2
    rw [if_neg hk] at this
    split at this <;> omega

def Ledger.fb (g : Ledger) (k : Pubkey) : Int := ((g.accts.get? k).map (fun a => a.position.baseFreeNative)).getD 0
def Ledger.fq (g : Ledger) (k : Pubkey) : Int := ((g.accts.get? k).map (fun a => a.position.quoteFreeNative)).getD 0

theorem LFrame.free {g g' : Ledger} (h : LFrame g g') (k : Pubkey) : g.fb k ≤ g'.fb k ∧ g.fq k ≤ g'.fq k := by
  unfold Ledger.fb Ledger.fq
  cases ha : g.accts.get? k with
  | some a =>
    obtain ⟨a', h1, _, _, h2, h3, _⟩ := h.accts k a ha
    rw [h1]; exact ⟨h2, h3⟩
  | none =>
    rw [Accts.get?_none_iff, ← h.keys, ← Accts.get?_none_iff] at ha
    rw [ha]; exact ⟨Int.le_refl _, Int.le_refl _⟩

theorem free_set {g : Ledger} {k : Pubkey} {a : OOA} (a' : OOA) (m : Market) (hp : EventHeap) (ha : g.accts.get? k = some a) (j : Pubkey) :
    Ledger.fb { market := m, heap := hp, accts := g.accts.set k a' } j =
      g.fb j + (if j = k then a'.position.baseFreeNative - a.position.baseFreeNative else 0) ∧
    Ledger.fq { market := m, heap := hp, accts := g.accts.set k a' } j =
      g.fq j + (if j = k then a'.position.quoteFreeNative - a.position.quoteFreeNative else 0) := by
  unfold Ledger.fb Ledger.fq
  by_cases hj : j = k
  · subst hj
    simp only [Accts.get?_set_self a' ha, if_true, ha, Option.map_some, Option.getD_some]
    omega
  · simp only [Accts.get?_set_ne a' hj, if_neg hj]
    omega

theorem LockedQ.free {g g' : Ledger} {k : Pubkey} {amt dep : Int} {a : OOA} (h : LockedQ g k amt g' dep a) (j : Pubkey) :
    g'.fb j = g.fb j ∧ g'.fq j = g.fq j - (if j = k then amt - dep else 0) := by
  rw [h.res]
  obtain ⟨h1, h2⟩ := free_set (a.withQuote (a.position.quoteFreeNative - min amt a.position.quoteFreeNative))
    { g.market with quoteDepositTotal := g.market.quoteDepositTotal + dep } g.heap h.acct j
  have := h.depEq
  rw [h1, h2]
  simp only [OOA.withQuote]
  constructor
  · split <;> omega
  · split <;> omega

theorem LockedB.free {g g' : Ledger} {k : Pubkey} {amt dep : Int} {a : OOA} (h : LockedB g k amt g' dep a) (j : Pubkey) :
    g'.fb j = g.fb j - (if j = k then amt - dep else 0) ∧ g'.fq j = g.fq j := by
  rw [h.res]
  obtain ⟨h1, h2⟩ := free_set (a.withBase (a.position.baseFreeNative - min amt a.position.baseFreeNative))
    { g.market with baseDepositTotal := g.market.baseDepositTotal + dep } g.heap h.acct j
  have := h.depEq
  rw [h1, h2]
  simp only [OOA.withBase]
  constructor
  · split <;> omega
  · split <;> omega

theorem penalty_free {g g' : Ledger} {k : Pubkey} {n : Nat} (h : addPenalty g k n = .ok g') (j : Pubkey) :
    g'.fb j = g.fb j ∧ g'.fq j = g.fq j := by
  rcases addPenalty_inv h with rfl | ⟨a, ha, _, _, rfl⟩
  · exact ⟨rfl, rfl⟩
  · obtain ⟨h1, h2⟩ := free_set (a.withPenalty (a.position.penaltyHeapCount + 1)) g.market g.heap ha j
    rw [h1, h2]
    simp only [OOA.withPenalty]
    constructor <;> split <;> omega

theorem PlaceRun.paysQuote {s s' : State} {c : PlaceCtx} {order : Order} {limit : Nat} {r : OrderResult}
    (P : PlaceRun s c order limit r s') (hr : Reachable s) (ho : OrderTyped order) (hs : order.side = .bid) :
    PaysQuote s s' c.ooKey c.userToken (order.maxQuoteLotsIncludingFees * s.g.market.quoteLotSize) := by
  have hfx := P.fx (reachable_Inv hr) ho
  obtain ⟨C⟩ := callRun (P.call hr ho)
  have hb := C.bid_budget hs
  obtain ⟨_, _, hc⟩ := orderCost_inv P.hcost
  rw [hs] at hc
  simp only [OrderResult.cost] at hc
  have hl := P.lock
  rw [hs] at hl
  obtain ⟨a, hl⟩ := lockBid_inv hl
  obtain ⟨t1, t2⟩ := tokens_paid P.transfer hfx.dep0
  have hfree : ∀ j, freeBase s j ≤ freeBase s' j ∧ freeQuote s j - (if j = c.ooKey then P.cost - P.dep else 0) ≤ freeQuote s' j := by
    intro j
    have e : s'.g = P.g3 := congrArg State.g P.res
    have h1 := hfx.frame1.free j
    have h2 := hl.free j
    have h3 := penalty_free P.pen j
    show s.g.fb j ≤ s'.g.fb j ∧ s.g.fq j - _ ≤ s'.g.fq j
    rw [e]
    omega
  have et : s'.tokens = P.tokens := congrArg State.tokens P.res
  refine ⟨?_, ?_, ?_, fun j => (hfree j).1⟩
  · have := (hfree c.ooKey).2
    rw [if_pos rfl] at this
    show (s.tokens _).amount - (s'.tokens _).amount + _ ≤ _
    rw [et]
    simp only [placeEnv] at hb
    omega
  · intro j hj
    show (s.tokens _).amount ≤ (s'.tokens _).amount
    rw [et]; exact t2 j hj
  · intro j hj
    have := (hfree j).2
    rw [if_neg hj] at this; omega

theorem PlaceRun.paysBase {s s' : State} {c : PlaceCtx} {order : Order} {limit : Nat} {r : OrderResult}
    (P : PlaceRun s c order limit r s') (hr : Reachable s) (ho : OrderTyped order) (hs : order.side = .ask) :
    PaysBase s s' c.ooKey c.userToken (order.maxBaseLots * s.g.market.baseLotSize) := by
  have hfx := P.fx (reachable_Inv hr) ho
  obtain ⟨C⟩ := callRun (P.call hr ho)
  have hb := C.base_budget
  obtain ⟨_, _, hc⟩ := orderCost_inv P.hcost
  rw [hs] at hc
  simp only [OrderResult.cost] at hc
  have hl := P.lock
  rw [hs] at hl
  obtain ⟨a, hl⟩ := lockAsk_inv hl
  obtain ⟨t1, t2⟩ := tokens_paid P.transfer hfx.dep0
  have hfree : ∀ j, freeQuote s j ≤ freeQuote s' j ∧ freeBase s j - (if j = c.ooKey then P.cost - P.dep else 0) ≤ freeBase s' j := by
    intro j
    have e : s'.g = P.g3 := congrArg State.g P.res
    have h1 := hfx.frame1.free j
    have h2 := hl.free j
    have h3 := penalty_free P.pen j
    show s.g.fq j ≤ s'.g.fq j ∧ s.g.fb j - _ ≤ s'.g.fb j
    rw [e]
    omega
  have et : s'.tokens = P.tokens := congrArg State.tokens P.res
  refine ⟨?_, ?_, ?_, fun j => (hfree j).1⟩
  · have := (hfree c.ooKey).2
    rw [if_pos rfl] at this
    show (s.tokens _).amount - (s'.tokens _).amount + _ ≤ _
    rw [et]
    simp only [placeEnv] at hb
    omega
  · intro j hj
    show (s.tokens _).amount ≤ (s'.tokens _).amount
    rw [et]; exact t2 j hj
  · intro j hj
    have := (hfree j).2
    rw [if_neg hj] at this; omega

/-- A cancellation by the owner moves no tokens and only frees funds. -/
theorem cancelAllFor_free {s s' : State} {k : Pubkey} {limit : Nat} {so : Option Side} {co : Option Nat} {q : Int} (hi : Inv s)
    (h : cancelAllFor s k limit so co = .ok (q, s')) :
    s'.tokens = s.tokens ∧ LFrame s.g s'.g := by
  obtain ⟨a, a', book', ls, h1, h2, h3, h4, h5, h6⟩ := cancelAllFor_res hi h
  have hput : s.g.put k a = s.g := by
    unfold Ledger.put; rw [Accts.set_get h1]
  have hf := h4.frame
  rw [hput] at hf
  rw [h2]
  exact ⟨rfl, hf⟩

theorem Spec.PaysQuote.after {s s1 s' : State} {k tok : Pubkey} {amt : Int} (h : PaysQuote s1 s' k tok amt) (ht : s1.tokens = s.tokens)
    (hf : LFrame s.g s1.g) : PaysQuote s s' k tok amt := by
  have e : ∀ j, Spec.tokens s1 j = Spec.tokens s j := fun j => by unfold Spec.tokens; rw [ht]
  have hfr : ∀ j, freeBase s j ≤ freeBase s1 j ∧ freeQuote s j ≤ freeQuote s1 j := fun j => hf.free j
  refine ⟨?_, fun j hj => ?_, fun j hj => ?_, fun j => ?_⟩
  · have := h.total; have := hfr k; have := e tok; omega
  · have := h.token j hj; have := e j; omega
  · have := h.quote j hj; have := hfr j; omega
  · have := h.base j; have := hfr j; omega

theorem Spec.PaysBase.after {s s1 s' : State} {k tok : Pubkey} {amt : Int} (h : PaysBase s1 s' k tok amt) (ht : s1.tokens = s.tokens)
    (hf : LFrame s.g s1.g) : PaysBase s s' k tok amt := by
  have e : ∀ j, Spec.tokens s1 j = Spec.tokens s j := fun j => by unfold Spec.tokens; rw [ht]
  have hfr : ∀ j, freeBase s j ≤ freeBase s1 j ∧ freeQuote s j ≤ freeQuote s1 j := fun j => hf.free j
  refine ⟨?_, fun j hj => ?_, fun j hj => ?_, fun j => ?_⟩
  · have := h.total; have := hfr k; have := e tok; omega
  · have := h.token j hj; have := e j; omega
  · have := h.base j hj; have := hfr j; omega
  · have := h.quote j; have := hfr j; omega

theorem Spec.PaysQuote.refl (s : State) (k tok : Pubkey) {amt : Int} (h : 0 ≤ amt) : PaysQuote s s k tok amt :=
  ⟨by omega, fun _ _ => Int.le_refl _, fun _ _ => Int.le_refl _, fun _ => Int.le_refl _⟩

theorem Spec.PaysBase.refl (s : State) (k tok : Pubkey) {amt : Int} (h : 0 ≤ amt) : PaysBase s s k tok amt :=
  ⟨by omega, fun _ _ => Int.le_refl _, fun _ _ => Int.le_refl _, fun _ => Int.le_refl _⟩

theorem PlaceOrderArgs.order_fields {a : PlaceOrderArgs} {now : Nat} {o : Order} (h : a.order now = .ok (some o)) :
    o.side = a.side ∧ o.maxBaseLots = a.maxBaseLots ∧ o.maxQuoteLotsIncludingFees = a.maxQuoteLots := by
  unfold PlaceOrderArgs.order at h
  simp only [bind_ok, req_ok] at h
  obtain ⟨_, ht, _, hp, h⟩ := h
  split at h
  · cases h
  · simp only [bind_ok, pure_ok] at h
    obtain ⟨p, hpar, h⟩ := h
    injection h with h
    subst h
    exact ⟨rfl, rfl, rfl⟩

theorem PlaceOrderPeggedArgs.order_fields {a : PlaceOrderPeggedArgs} {m : Market} {now : Nat} {o : Order}
    (h : a.order m now = .ok (some o)) :
    o.side = a.side ∧ o.maxBaseLots = a.maxBaseLots ∧ o.maxQuoteLotsIncludingFees = a.maxQuoteLots := by
  unfold PlaceOrderPeggedArgs.order at h
  simp only [bind_ok, req_ok] at h
  obtain ⟨_, ht, _, hp, _, hl, h⟩ := h
  split at h
  · cases h
  · simp only [bind_ok, pure_ok] at h
    obtain ⟨p, hpar, h⟩ := h
    injection h with h
    subst h
    exact ⟨rfl, rfl, rfl⟩

theorem Spec.PaysQuote.mono {s s' : State} {k tok : Pubkey} {x y : Int} (h : PaysQuote s s' k tok x) (hxy : x ≤ y) : PaysQuote s s' k tok y :=
  ⟨Int.le_trans h.total hxy, h.token, h.quote, h.base⟩

theorem Spec.PaysBase.mono {s s' : State} {k tok : Pubkey} {x y : Int} (h : PaysBase s s' k tok x) (hxy : x ≤ y) : PaysBase s s' k tok y :=
  ⟨Int.le_trans h.total hxy, h.token, h.base, h.quote⟩

theorem Asks.bid {s : State} {op : Op} {c : PlaceCtx} {o : Order} {l : Nat} (h : Asks s op c o l) {k tok : Pubkey} {lots : Int}
    (hb : bidBudget op = some (k, tok, lots)) : o.side = .bid ∧ k = c.ooKey ∧ tok = c.userToken ∧ o.maxQuoteLotsIncludingFees ≤ lots := by
  cases h with
  | fixed _ a _ _ _ ho =>
    obtain ⟨h1, h2, h3⟩ := PlaceOrderArgs.order_fields ho
    simp only [bidBudget] at hb; split at hb <;> rename_i hs <;> cases hb
    exact ⟨h1.trans hs, rfl, rfl, by omega⟩
  | pegged _ a _ _ _ ho =>
    obtain ⟨h1, h2, h3⟩ := PlaceOrderPeggedArgs.order_fields ho
    simp only [bidBudget] at hb; split at hb <;> rename_i hs <;> cases hb
    exact ⟨h1.trans hs, rfl, rfl, by omega⟩

theorem Asks.ask {s : State} {op : Op} {c : PlaceCtx} {o : Order} {l : Nat} (h : Asks s op c o l) {k tok : Pubkey} {lots : Int}
    (hb : askBudget op = some (k, tok, lots)) : o.side = .ask ∧ k = c.ooKey ∧ tok = c.userToken ∧ o.maxBaseLots ≤ lots := by
  cases h with
  | fixed _ a _ _ _ ho =>
    obtain ⟨h1, h2, h3⟩ := PlaceOrderArgs.order_fields ho
    simp only [askBudget] at hb; split at hb <;> rename_i hs <;> cases hb
    exact ⟨h1.trans hs, rfl, rfl, by omega⟩
  | pegged _ a _ _ _ ho =>
    obtain ⟨h1, h2, h3⟩ := PlaceOrderPeggedArgs.order_fields ho
    simp only [askBudget] at hb; split at hb <;> rename_i hs <;> cases hb
    exact ⟨h1.trans hs, rfl, rfl, by omega⟩

theorem AsksEdit.bid {s : State} {op : Op} {c : PlaceCtx} {n : Nat} {e : Int} {o : Order} {l : Nat} (h : AsksEdit s op c n e o l)
    {k tok : Pubkey} {lots : Int}
    (hb : bidBudget op = some (k, tok, lots)) : o.side = .bid ∧ k = c.ooKey ∧ tok = c.userToken ∧ o.maxQuoteLotsIncludingFees ≤ lots ∧ 0 ≤ lots := by
  cases h with
  | fixed _ _ _ a _ _ _ ho =>
    obtain ⟨h1, h2, h3⟩ := PlaceOrderArgs.order_fields ho
    simp only [bidBudget] at hb; split at hb <;> rename_i hs <;> cases hb
    exact ⟨h1.trans hs, rfl, rfl, by omega, by omega⟩
  | pegged _ _ _ a _ _ _ ho =>
    obtain ⟨h1, h2, h3⟩ := PlaceOrderPeggedArgs.order_fields ho
    simp only [bidBudget] at hb; split at hb <;> rename_i hs <;> cases hb
    exact ⟨h1.trans hs, rfl, rfl, by omega, by omega⟩

theorem AsksEdit.ask {s : State} {op : Op} {c : PlaceCtx} {n : Nat} {e : Int} {o : Order} {l : Nat} (h : AsksEdit s op c n e o l)
    {k tok : Pubkey} {lots : Int}
    (hb : askBudget op = some (k, tok, lots)) : o.side = .ask ∧ k = c.ooKey ∧ tok = c.userToken ∧ o.maxBaseLots ≤ lots ∧ 0 ≤ lots := by
  cases h with
  | fixed _ _ _ a _ _ _ ho =>
    obtain ⟨h1, h2, h3⟩ := PlaceOrderArgs.order_fields ho
    simp only [askBudget] at hb; split at hb <;> rename_i hs <;> cases hb
    exact ⟨h1.trans hs, rfl, rfl, by omega, by omega⟩
  | pegged _ _ _ a _ _ _ ho =>
    obtain ⟨h1, h2, h3⟩ := PlaceOrderPeggedArgs.order_fields ho
    simp only [askBudget] at hb; split at hb <;> rename_i hs <;> cases hb
    exact ⟨h1.trans hs, rfl, rfl, by omega, by omega⟩

theorem bidBudget_nonneg {op : Op} {k tok : Pubkey} {lots : Int} (h : bidBudget op = some (k, tok, lots)) : 0 ≤ lots := by
  unfold bidBudget at h
  split at h <;> first | (split at h <;> cases h; omega) | cases h

theorem askBudget_nonneg {op : Op} {k tok : Pubkey} {lots : Int} (h : askBudget op = some (k, tok, lots)) : 0 ≤ lots := by
  unfold askBudget at h
  split at h <;> first | (split at h <;> cases h; omega) | cases h

theorem step_paysQuote {s s' : State} {op : Op} (hr : Reachable s) (h : step s op = .ok s') {k tok : Pubkey} {lots : Int}
    (hb : bidBudget op = some (k, tok, lots)) : PaysQuote s s' k tok (lots * s.g.market.quoteLotSize) := by
  have hi := reachable_Inv hr
  have hq := hi.core.qls
  have h0 : 0 ≤ lots * s.g.market.quoteLotSize := Int.mul_nonneg (bidBudget_nonneg hb) (Int.le_of_lt hq)
  cases step_run h with
  | idle _ c _ _ e => rw [e]; exact .refl _ _ _ h0
  | place op c o l r hop P =>
    obtain ⟨h1, rfl, rfl, h2⟩ := hop.bid hb
    exact (P.paysQuote hr hop.typed h1).mono (Int.mul_le_mul_of_nonneg_right h2 (Int.le_of_lt hq))
  | edit op c client e o l r hop P =>
    obtain ⟨h1, rfl, rfl, h2, _⟩ := hop.bid hb
    obtain ⟨q, s1, h3, _, h4⟩ := P.run
    obtain ⟨f1, f2⟩ := cancelAllFor_free hi (cancelByClientId_inv h3).2
    rcases h4 with ⟨e1, e2, r1, _, h4⟩ | ⟨_, _, rfl⟩
    · obtain ⟨P⟩ := placeOrder_inv h4
      have hp := P.paysQuote (.step _ _ _ hr (cancelByClient_step h3)) (hop.typed.less e1) h1
      rw [f2.qls] at hp
      exact (hp.mono (Int.mul_le_mul_of_nonneg_right h2 (Int.le_of_lt hq))).after f1 f2
    · exact (PaysQuote.refl _ _ _ h0).after f1 f2
  | consume _ _ _ _ _ hop _ => rcases hop with ⟨rfl, _⟩ | ⟨rfl, _⟩ <;> cases hb
  | cancel _ _ _ _ _ _ _ _ hop _ _ => rcases hop with ⟨rfl, _⟩ | ⟨rfl, _⟩ <;> cases hb
  | deposit _ _ _ _ _ _ _ _ _ _ hop _ => rcases hop with rfl | rfl <;> cases hb
  | _ => cases hb

theorem step_paysBase {s s' : State} {op : Op} (hr : Reachable s) (h : step s op = .ok s') {k tok : Pubkey} {lots : Int}
    (hb : askBudget op = some (k, tok, lots)) : PaysBase s s' k tok (lots * s.g.market.baseLotSize) := by
  have hi := reachable_Inv hr
  have hq := hi.core.bls
  have h0 : 0 ≤ lots * s.g.market.baseLotSize := Int.mul_nonneg (askBudget_nonneg hb) (Int.le_of_lt hq)
  cases step_run h with
  | idle _ c _ _ e => rw [e]; exact .refl _ _ _ h0
  | place op c o l r hop P =>
    obtain ⟨h1, rfl, rfl, h2⟩ := hop.ask hb
    exact (P.paysBase hr hop.typed h1).mono (Int.mul_le_mul_of_nonneg_right h2 (Int.le_of_lt hq))
  | edit op c client e o l r hop P =>
    obtain ⟨h1, rfl, rfl, h2, _⟩ := hop.ask hb
    obtain ⟨q, s1, h3, _, h4⟩ := P.run
    obtain ⟨f1, f2⟩ := cancelAllFor_free hi (cancelByClientId_inv h3).2
    rcases h4 with ⟨e1, e2, r1, _, h4⟩ | ⟨_, _, rfl⟩
    · obtain ⟨P⟩ := placeOrder_inv h4
      have hp := P.paysBase (.step _ _ _ hr (cancelByClient_step h3)) (hop.typed.less e1) h1
      rw [f2.bls] at hp
      exact (hp.mono (Int.mul_le_mul_of_nonneg_right (by simp only; omega) (Int.le_of_lt hq))).after f1 f2
    · exact (PaysBase.refl _ _ _ h0).after f1 f2
  | consume _ _ _ _ _ hop _ => rcases hop with ⟨rfl, _⟩ | ⟨rfl, _⟩ <;> cases hb
  | cancel _ _ _ _ _ _ _ _ hop _ _ => rcases hop with ⟨rfl, _⟩ | ⟨rfl, _⟩ <;> cases hb
  | deposit _ _ _ _ _ _ _ _ _ _ hop _ => rcases hop with rfl | rfl <;> cases hb
  | _ => cases hb

/-! ### batches and take orders -/

theorem multiLoop_budget {c : MultiCtx} {nowTs limit : Nat} {ub uq : Int} {os : List Order} {book book' : Book} {g g' : Ledger}
    {b q b' q' : Int} {rs : List OrderResult} (hnow : (nowTs : Int) ≤ i64Max)
    (hor : ∀ p, c.oracle = some p → i64Min ≤ p ∧ p ≤ i64Max) (hst : EngineState book g) (ho : ∀ o ∈ os, OrderTyped o)
    (h : multiLoop c nowTs limit ub uq os book g b q = .ok (rs, book', g', b', q')) :
    q' ≤ q + (os.map (fun o => if o.side = .bid then o.maxQuoteLotsIncludingFees * g.market.quoteLotSize else 0)).sum := by
  induction os generalizing book g b q rs with
  | nil => cases h; simp
  | cons o os ih =>
    simp only [multiLoop, bind_ok] at h
    obtain ⟨o', hbo, ⟨r, book1, g1⟩, hn, cost, hcost, ⟨b1, q1⟩, hadd, ⟨rs', x⟩, hrec, h⟩ := h
    simp only [pure_ok] at h
    injection h with e1 e2
    subst e2
    obtain ⟨dB, dQ, hc⟩ := hst.core
    obtain ⟨k1, k2, k3, k4, k5, k6, k7⟩ := boundOrder_ok hc.bls hc.qls (ho o (by simp)) hbo
    have hv : CallValid (multiEnv c o' nowTs limit) g :=
      ⟨⟨⟨k1.1, k1.2⟩, ⟨k1.3, k1.4⟩, k1.5, k1.6⟩, hnow, hor, (fun h => nomatch h)⟩
    have hcall : EngineCall (multiEnv c o' nowTs limit) book g r book1 g1 := ⟨hst, hv, hn⟩
    have hrec := ih (.next _ _ _ _ _ _ hst hv hn) (fun o ho' => ho o (by simp [ho'])) hrec
    obtain ⟨C⟩ := callRun hcall
    rw [C.P.frame.qls] at hrec
    obtain ⟨_, _, hce⟩ := orderCost_inv hcost
    rw [List.map_cons, List.sum_cons]
    cases hs : o.side with
    | ask =>
      rw [hs] at hadd
      simp only [bind_ok, pure_ok] at hadd
      obtain ⟨_, _, hadd⟩ := hadd
      injection hadd with _ e
      rw [if_neg (by decide)]
      omega
    | bid =>
      rw [hs] at hadd hce
      simp only [bind_ok, pure_ok] at hadd
      obtain ⟨_, h2, hadd⟩ := hadd
      injection hadd with _ e
      obtain ⟨_, h2⟩ := addAmt_ok h2
      have hb := C.bid_budget (k2.trans hs)
      simp only [OrderResult.cost] at hce
      have hm : o'.maxQuoteLotsIncludingFees * g.market.quoteLotSize ≤ o.maxQuoteLotsIncludingFees * g.market.quoteLotSize :=
        Int.mul_le_mul_of_nonneg_right k4 (Int.le_of_lt hc.qls)
      rw [if_pos rfl]
      simp only [multiEnv] at hb
      omega

theorem multiOrders_sum {t : PlaceOrderType} {now : Nat} {side : Side} {i : Nat} {as : List MultiArgs} {os : List Order} {qls : Int}
    (hq : 0 < qls) (h : multiOrders t now side i as = .ok os) :
    (os.map (fun o => if o.side = .bid then o.maxQuoteLotsIncludingFees * qls else 0)).sum ≤
      if side = .bid then (as.map (fun a => max a.maxQuoteLots 0)).sum * qls else 0 := by
  induction as generalizing i os with
  | nil => cases h; cases side <;> simp
  | cons a as ih =>
    simp only [multiOrders, bind_ok, req_ok] at h
    obtain ⟨_, ht, _, _, h⟩ := h
    have e : (if side = Side.bid then ((a :: as).map (fun a => max a.maxQuoteLots 0)).sum * qls else 0) =
        (if side = .bid then max a.maxQuoteLots 0 * qls else 0) +
        (if side = .bid then (as.map (fun a => max a.maxQuoteLots 0)).sum * qls else 0) := by
      cases side
      · simp only [if_true, List.map_cons, List.sum_cons, Int.add_mul]
      · simp
    have p0 : 0 ≤ max a.maxQuoteLots 0 * qls := Int.mul_nonneg (by omega) (by omega)
    have p1 : a.maxQuoteLots * qls ≤ max a.maxQuoteLots 0 * qls := Int.mul_le_mul_of_nonneg_right (by omega) (by omega)
    rw [e]
    split at h
    · have := ih h
      cases side with
      | bid => simp only [if_true] at this ⊢; omega
      | ask => simpa using this
    · simp only [bind_ok, pure_ok] at h
      obtain ⟨p, hp, os', hos, rfl⟩ := h
      have := ih hos
      rw [List.map_cons, List.sum_cons]
      cases side with
      | bid => simp only [if_true] at this ⊢; omega
      | ask => simpa using this

theorem user_accounts_differ {s : State} (hr : Reachable s) {ub uq : Pubkey} (h1 : mintIs s.tokens ub s.g.market.marketBaseVault = .ok ())
    (h2 : mintIs s.tokens uq s.g.market.marketQuoteVault = .ok ()) : ub ≠ uq := by
  rintro rfl
  have hi := reachable_Inv hr
  unfold mintIs at h1 h2
  simp only [req_ok] at h1 h2
  exact reachable_mints hr (by rw [← hi.vb.mint, ← hi.vq.mint, ← h1.1, ← h2.1])

/-- A batch of orders pays at most the budgets of its bids. -/
theorem MultiRun.pays {s s' : State} {c : MultiCtx} {cancel : Bool} {t : PlaceOrderType} {now n limit : Nat} {bids asks : List MultiArgs}
    {bs as : List Order} {rs : List OrderResult} (P : MultiRun s c cancel (bs ++ as) limit rs s') (hr : Reachable s)
    (hb : multiOrders t now .bid 0 bids = .ok bs) (ha : multiOrders t now .ask n asks = .ok as) :
    (tokens s c.userQuote - tokens s' c.userQuote) + (freeQuote s c.ooKey - freeQuote s' c.ooKey) ≤
      (bids.map (fun a => max a.maxQuoteLots 0)).sum * s.g.market.quoteLotSize ∧
    (∀ j, j ≠ c.userQuote → j ≠ c.userBase → tokens s j ≤ tokens s' j) ∧
    (∀ j, j ≠ c.ooKey → freeQuote s j ≤ freeQuote s' j) ∧ (∀ j, j ≠ c.ooKey → freeBase s j ≤ freeBase s' j) := by
  have hi := reachable_Inv hr
  obtain ⟨hi1, hf1⟩ := P.start hi
  have hty := multiTyped hb ha
  obtain ⟨_, hf2, b0, q0⟩ := multiLoop_res hi1.core hty (Int.le_refl _) (Int.le_refl _) P.loop
  have hbud := multiLoop_budget (nowU64_eq P.now).2 (oracleOk_range P.oracle) (.reachable _ (P.reach hr)) hty P.loop
  rw [hf1.qls, List.map_append, List.sum_append] at hbud
  have s1 := multiOrders_sum hi.core.qls hb
  have s2 := multiOrders_sum hi.core.qls ha
  simp only [reduceCtorEq, if_true, if_false] at s1 s2
  obtain ⟨a1, hl1⟩ := lockAsk_inv P.lockB
  obtain ⟨a2, hl2⟩ := lockBid_inv P.lockQ
  obtain ⟨t1, t2⟩ := tokens_paid P.tr1 hl2.dep0
  obtain ⟨t3, t4⟩ := tokens_paid P.tr2 hl1.dep0
  have hne := user_accounts_differ hr P.mintB P.mintQ
  have hfree : ∀ j, freeBase s j - (if j = c.ooKey then P.b - P.depB else 0) ≤ freeBase s' j ∧
      freeQuote s j - (if j = c.ooKey then P.q - P.depQ else 0) ≤ freeQuote s' j := by
    intro j
    have e : s'.g = P.g4 := congrArg State.g P.res
    have h1 := (hf1.trans hf2).free j
    have h2 := hl1.free j
    have h3 := hl2.free j
    have h4 := penalty_free P.pen j
    show s.g.fb j - _ ≤ s'.g.fb j ∧ s.g.fq j - _ ≤ s'.g.fq j
    rw [e]
    omega
  have et : s'.tokens = P.t2 := congrArg State.tokens P.res
  refine ⟨?_, fun j h1 h2 => ?_, fun j hj => ?_, fun j hj => ?_⟩
  · have := (hfree c.ooKey).2
    rw [if_pos rfl] at this
    have h5 := t4 c.userQuote (Ne.symm hne)
    show (s.tokens _).amount - (s'.tokens _).amount + _ ≤ _
    rw [et]
    omega
  · show (s.tokens _).amount ≤ (s'.tokens _).amount
    rw [et]
    exact Int.le_trans (t2 j h1) (t4 j h2)
  · have := (hfree j).2
    rw [if_neg hj] at this; omega
  · have := (hfree j).1
    rw [if_neg hj] at this; omega

end OB
