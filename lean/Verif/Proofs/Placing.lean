import Verif.Proofs.BookEv
import Verif.Proofs.Cancel
import Verif.Proofs.ConsumeIx
import Verif.Spec.Instr
/-! Placing instructions as cancellations followed by calls of the matching engine; all other instructions only take orders and
events away. -/
namespace OB
open OB.Spec

theorem ctx_one {P : Env × OrderResult → Prop} {x : Env × OrderResult} (h : P x) : ∀ y ∈ [x], P y := by
  intro y hy; rw [List.mem_singleton] at hy; rw [hy]; exact h

theorem MultiTrace.ctx {c : MultiCtx} {nowTs limit : Nat} {os : List Order} {cs : List (Env × OrderResult)}
    (h : MultiTrace c nowTs limit os cs) : ∀ x ∈ cs, x.1.owner = c.ooKey ∧ x.1.hasOO = true ∧ x.1.nowTs = nowTs ∧ x.1.oracle = c.oracle := by
  induction h with
  | nil => intro x hx; cases hx
  | cons o o' r os cs side params quote rest h ih =>
    intro x hx
    rcases List.mem_cons.mp hx with rfl | hx
    · exact ⟨rfl, rfl, rfl, rfl⟩
    · exact ih x hx

theorem PayFrame.seq {g g' : Ledger} {k : Pubkey} (h : PayFrame g k g') : g'.market.seqNum = g.market.seqNum := by
  obtain ⟨_, _, e⟩ := h.market; rw [e]

/-! ### paying -/

/-- A transfer signed by somebody else takes nothing from a token account. -/
theorem transfer_in {t t' : Tokens} {amt : Int} {src dst signer k : Pubkey} (h : tokenTransfer t amt src dst signer = .ok t') (h0 : 0 ≤ amt)
    (hs : signer ≠ (t k).owner) : (t' k).amount = (t k).amount + (if k = dst then amt else 0) ∧ (t' k).owner = (t k).owner := by
  have sp := tokenTransfer_spec h h0 k
  refine ⟨?_, sp.1⟩
  rw [sp.2.2]
  by_cases hk : k = src
  · subst hk
    rcases tokenTransfer_inv h with ⟨h1, _⟩ | ⟨_, _, _, h4, _⟩
    · have : amt = 0 := by omega
      subst this; simp
    · exact absurd h4.symm hs
  · rw [if_neg hk]; omega

/-- Locking funds and the penalty, together: one account changes, and of it only the free balances and the penalty count. -/
theorem lock_one {g1 g2 g3 : Ledger} {k : Pubkey} {b q depB depQ : Int} {n : Nat} {gl : Ledger} (hB : lockAsk g1 k b = .ok (g2, depB))
    (hQ : lockBid g2 k q = .ok (g3, depQ)) (hP : addPenalty g3 k n = .ok gl) :
    (∀ j, j ≠ k → gl.accts.get? j = g1.accts.get? j) ∧ ∃ a a', g1.accts.get? k = some a ∧ gl.accts.get? k = some a' ∧
      a'.owner = a.owner ∧ a'.openOrders = a.openOrders ∧
      a'.position.baseFreeNative = a.position.baseFreeNative - min b a.position.baseFreeNative ∧
      a'.position.quoteFreeNative = a.position.quoteFreeNative - min q a.position.quoteFreeNative ∧
      depB = b - min b a.position.baseFreeNative ∧ depQ = q - min q a.position.quoteFreeNative := by
  obtain ⟨a1, l1⟩ := lockAsk_inv hB
  obtain ⟨a2, l2⟩ := lockBid_inv hQ
  have e1 : g2.accts = g1.accts.set k (a1.withBase (a1.position.baseFreeNative - min b a1.position.baseFreeNative)) := by rw [l1.res]
  have e2 : g3.accts = g2.accts.set k (a2.withQuote (a2.position.quoteFreeNative - min q a2.position.quoteFreeNative)) := by rw [l2.res]
  have x2 : a2 = a1.withBase (a1.position.baseFreeNative - min b a1.position.baseFreeNative) := by
    have := l2.acct
    rw [e1, Accts.get?_set_self _ l1.acct] at this
    injection this with this; exact this.symm
  have g3k := Accts.get?_set_self (a2.withQuote (a2.position.quoteFreeNative - min q a2.position.quoteFreeNative)) l2.acct
  rw [← e2] at g3k
  have oth : ∀ j, j ≠ k → g3.accts.get? j = g1.accts.get? j := fun j hj => by
    rw [e2, Accts.get?_set_ne _ hj, e1, Accts.get?_set_ne _ hj]
  have q1 := l1.depEq
  have q2 := l2.depEq
  rcases addPenalty_inv hP with rfl | ⟨a, ha, _, _, rfl⟩
  · refine ⟨oth, a1, _, l1.acct, g3k, ?_⟩
    subst x2
    exact ⟨rfl, rfl, rfl, rfl, q1, q2⟩
  · refine ⟨fun j hj => (Accts.get?_set_ne _ hj).trans (oth j hj), a1, _, l1.acct, Accts.get?_set_self _ ha, ?_⟩
    rw [g3k] at ha; injection ha with ha
    subst ha; subst x2
    exact ⟨rfl, rfl, rfl, rfl, q1, q2⟩

/-- Locking nothing. -/
theorem lockAsk_zero {g : Ledger} {k : Pubkey} {a : OOA} (ha : g.accts.get? k = some a) (h0 : inU64 a.position.baseFreeNative)
    (ht : inU64 g.market.baseDepositTotal) : lockAsk g k 0 = .ok (g, 0) := by
  have hm : min (0 : Int) a.position.baseFreeNative = 0 := by have := h0.1; omega
  unfold lockAsk
  simp only [bind_ok, pure_ok, ckU64_ok, Accts.get_ok]
  refine ⟨a, ha, 0, ⟨by rw [hm]; exact ⟨by decide, by decide⟩, by rw [hm]; rfl⟩, a.position.baseFreeNative, ⟨by rw [hm, Int.sub_zero]; exact h0, by rw [hm, Int.sub_zero]⟩,
    g.market.baseDepositTotal, ⟨by rw [Int.add_zero]; exact ht, by rw [Int.add_zero]⟩, by rw [Accts.set_get ha]⟩

theorem lockBid_zero {g : Ledger} {k : Pubkey} {a : OOA} (ha : g.accts.get? k = some a) (h0 : inU64 a.position.quoteFreeNative)
    (ht : inU64 g.market.quoteDepositTotal) : lockBid g k 0 = .ok (g, 0) := by
  have hm : min (0 : Int) a.position.quoteFreeNative = 0 := by have := h0.1; omega
  unfold lockBid
  simp only [bind_ok, pure_ok, ckU64_ok, Accts.get_ok]
  refine ⟨a, ha, 0, ⟨by rw [hm]; exact ⟨by decide, by decide⟩, by rw [hm]; rfl⟩, a.position.quoteFreeNative, ⟨by rw [hm, Int.sub_zero]; exact h0, by rw [hm, Int.sub_zero]⟩,
    g.market.quoteDepositTotal, ⟨by rw [Int.add_zero]; exact ht, by rw [Int.add_zero]⟩, by rw [Accts.set_get ha]⟩

/-- Nothing to pay. -/
theorem paid_nil {s s' : State} {p : Placer} (hi : Inv s') (ha : p.hasOO = true → ∃ a, s'.g.accts.get? p.owner = some a)
    (ht : s'.tokens = s.tokens) : Paid s s' p [] s'.g := by
  refine ⟨fun _ _ => rfl, fun h => ?_, fun _ a a' h1 h2 => by rw [h1] at h2; injection h2 with h2; rw [← h2]⟩
  obtain ⟨a, ha⟩ := ha h
  obtain ⟨u1, u2, _⟩ := hi.core.linv.acctOk ha
  have e1 : min (chargedBase []) a.position.baseFreeNative = 0 := by
    show min (0 : Int) _ = 0; have := u1.1; omega
  have e2 : min (chargedQuote []) a.position.quoteFreeNative = 0 := by
    show min (0 : Int) _ = 0; have := u2.1; omega
  refine ⟨a, a, ha, ha, rfl, rfl, by omega, by omega, ?_, ?_⟩
  · unfold tokens; rw [ht, e1]; show _ = _ + ((0 : Int) - 0); omega
  · unfold tokens; rw [ht, e2]; show _ = _ + ((0 : Int) - 0); omega

theorem PlaceRun.paid {s s' : State} {c : PlaceCtx} {o : Order} {limit : Nat} {r : OrderResult}
    (P : PlaceRun s c o limit r s') (hr : Reachable s) (ho : OrderTyped o) :
    Paid s s' { signer := c.signer, owner := c.ooKey, hasOO := true, admin := c.admin, now := c.now, oracle := c.oracle }
      [(placeEnv c o P.nowTs limit, r)] P.g1 := by
  have hi := reachable_Inv hr
  have fx := P.fx hi ho
  have hl := P.lock
  obtain ⟨_, _, hcost⟩ := orderCost_inv P.hcost
  have eg : s'.g = P.g3 := congrArg State.g P.res
  have et : s'.tokens = P.tokens := congrArg State.tokens P.res
  have tB := transfer_in (k := s.g.market.marketBaseVault) P.transfer fx.dep0 (by rw [hi.vb.owner]; exact P.signer)
  have tQ := transfer_in (k := s.g.market.marketQuoteVault) P.transfer fx.dep0 (by rw [hi.vq.owner]; exact P.signer)
  have hne := hi.vaults
  have hB : inU64 P.g1.market.baseDepositTotal := by rw [fx.frame1.base]; exact hi.vb.total
  have hQ : inU64 P.g1.market.quoteDepositTotal := by rw [fx.frame1.quote]; exact hi.vq.total
  have hside : (placeEnv c o P.nowTs limit).order.side = o.side := rfl
  have key : ∃ depB depQ, lockAsk P.g1 c.ooKey (chargedBase [(placeEnv c o P.nowTs limit, r)]) = .ok (if o.side = .bid then P.g1 else P.g2, depB) ∧
      lockBid (if o.side = .bid then P.g1 else P.g2) c.ooKey (chargedQuote [(placeEnv c o P.nowTs limit, r)]) = .ok (P.g2, depQ) ∧
      (s'.tokens s.g.market.marketBaseVault).amount = (s.tokens s.g.market.marketBaseVault).amount + depB ∧
      (s'.tokens s.g.market.marketQuoteVault).amount = (s.tokens s.g.market.marketQuoteVault).amount + depQ := by
    cases hs : o.side with
    | bid =>
      rw [hs] at hl hcost
      simp only at hl
      obtain ⟨a, la⟩ := lockBid_inv hl
      refine ⟨0, P.dep, ?_, ?_, ?_, ?_⟩
      · rw [if_pos rfl]
        have : chargedBase [(placeEnv c o P.nowTs limit, r)] = 0 := by simp [chargedBase, hside, hs]
        rw [this]
        exact lockAsk_zero la.acct (fx.core1.linv.acctOk la.acct).1 hB
      · rw [if_pos rfl]
        have : chargedQuote [(placeEnv c o P.nowTs limit, r)] = P.cost := by
          simp [chargedQuote, hside, hs, hcost, OrderResult.cost]
        rw [this]; exact hl
      · rw [et, tB.1, hs]
        show _ + (if s.g.market.marketBaseVault = s.g.market.marketQuoteVault then P.dep else 0) = _
        rw [if_neg hne]
      · rw [et, tQ.1, hs]; simp only [Market.vaultBySide, if_true]
    | ask =>
      rw [hs] at hl hcost
      simp only at hl
      obtain ⟨a, la⟩ := lockAsk_inv hl
      refine ⟨P.dep, 0, ?_, ?_, ?_, ?_⟩
      · rw [if_neg (by decide)]
        have : chargedBase [(placeEnv c o P.nowTs limit, r)] = P.cost := by
          simp [chargedBase, hside, hs, hcost, OrderResult.cost]
        rw [this]; exact hl
      · rw [if_neg (by decide)]
        have : chargedQuote [(placeEnv c o P.nowTs limit, r)] = 0 := by simp [chargedQuote, hside, hs]
        rw [this]
        have ha2 : P.g2.accts.get? c.ooKey = some (a.withBase (a.position.baseFreeNative - min P.cost a.position.baseFreeNative)) := by
          rw [la.res]; exact Accts.get?_set_self _ la.acct
        exact lockBid_zero ha2 (fx.core2.linv.acctOk ha2).2.1 (by rw [fx.m2]; simp only [hs, reduceCtorEq, if_false, Int.add_zero]; exact hQ)
      · rw [et, tB.1, hs]; simp only [Market.vaultBySide, if_true]
      · rw [et, tQ.1, hs]
        show _ + (if s.g.market.marketQuoteVault = s.g.market.marketBaseVault then P.dep else 0) = _
        rw [if_neg (Ne.symm hne)]
  obtain ⟨depB, depQ, k1, k2, k3, k4⟩ := key
  obtain ⟨oth, a, a', h1, h2, h3, h4, h5, h6, h7, h8⟩ := lock_one k1 k2 P.pen
  refine ⟨fun k hk => ?_, fun _ => ⟨a, a', h1, by rw [eg]; exact h2, h3, h4, h5, h6, ?_, ?_⟩, fun _ _ _ => P.pay.same⟩
  · rw [eg]
    rcases hk with hk | hk
    · cases hk
    · exact oth k hk
  · rw [← h7]; exact k3
  · rw [← h8]; exact k4

theorem MultiRun.paid {s s' : State} {c : MultiCtx} {cancel : Bool} {orders : List Order} {limit : Nat} {rs : List OrderResult}
    (P : MultiRun s c cancel orders limit rs s') (hr : Reachable s) {cs : List (Env × OrderResult)} (hb : P.b = chargedBase cs)
    (hq : P.q = chargedQuote cs) :
    Paid s s' { signer := c.signer, owner := c.ooKey, hasOO := true, admin := c.admin, now := c.now, oracle := c.oracle } cs P.g1 := by
  have hi := reachable_Inv hr
  obtain ⟨_, l1⟩ := lockAsk_inv P.lockB
  obtain ⟨_, l2⟩ := lockBid_inv P.lockQ
  obtain ⟨_, _, _, hsig, _⟩ := authPlace_ok P.auth
  have eg : s'.g = P.g4 := congrArg State.g P.res
  have et : s'.tokens = P.t2 := congrArg State.tokens P.res
  have hne := hi.vaults
  have tB := transfer_in (k := s.g.market.marketBaseVault) P.tr1 l2.dep0 (by rw [hi.vb.owner]; exact hsig)
  have tQ := transfer_in (k := s.g.market.marketQuoteVault) P.tr1 l2.dep0 (by rw [hi.vq.owner]; exact hsig)
  have tB2 := transfer_in (k := s.g.market.marketBaseVault) P.tr2 l1.dep0 (by rw [tB.2, hi.vb.owner]; exact hsig)
  have tQ2 := transfer_in (k := s.g.market.marketQuoteVault) P.tr2 l1.dep0 (by rw [tQ.2, hi.vq.owner]; exact hsig)
  rw [if_neg hne] at tB
  rw [if_pos rfl] at tQ tB2
  rw [if_neg (Ne.symm hne)] at tQ2
  obtain ⟨oth, a, a', h1, h2, h3, h4, h5, h6, h7, h8⟩ := lock_one P.lockB P.lockQ P.pen
  rw [hb] at h5 h7
  rw [hq] at h6 h8
  refine ⟨fun k hk => ?_, fun _ => ⟨a, a', h1, by rw [eg]; exact h2, h3, h4, h5, h6, ?_, ?_⟩, fun _ _ _ => P.pay.same⟩
  · rw [eg]
    rcases hk with hk | hk
    · cases hk
    · exact oth k hk
  · unfold tokens; rw [et, ← h7]; omega
  · unfold tokens; rw [et, ← h8]; omega

theorem TakeRun.paid {s s' : State} {c : TakeCtx} {o : Order} {limit : Nat} {r : OrderResult} {cs : List (Env × OrderResult)}
    (P : TakeRun s c o limit r s') (hr : Reachable s) (ho : OrderTyped o) :
    Paid s s' { signer := c.signer, owner := c.signer, hasOO := false, admin := c.admin, now := c.now, oracle := c.oracle } cs P.g1 := by
  have ham := (P.fx (reachable_Inv hr) ho).amts.res
  refine ⟨fun k _ => ?_, fun h => (by cases h), fun h => (by cases h)⟩
  rw [congrArg State.g P.res]
  show P.g2.accts.get? k = _
  rw [ham]

/-- Cancelling first changes no tokens. -/
theorem Spec.Paid.after {s s1 s' : State} {p : Placer} {cs : List (Env × OrderResult)} {g1 : Ledger} (h : Paid s1 s' p cs g1)
    (ht : s1.tokens = s.tokens) (hm : s1.g.market = s.g.market) : Paid s s' p cs g1 := by
  have e : ∀ k, tokens s1 k = tokens s k := fun k => by unfold tokens; rw [ht]
  have h' := h.account
  simp only [hm, e] at h'
  exact ⟨h.others, h', h.rest⟩

theorem PlaceRun.placement {s s' : State} {c : PlaceCtx} {o : Order} {limit : Nat} {r : OrderResult}
    (P : PlaceRun s c o limit r s') (hr : Reachable s) (ho : OrderTyped o) :
    Placement s s s' { signer := c.signer, owner := c.ooKey, hasOO := true, admin := c.admin, now := c.now, oracle := c.oracle }
      [(placeEnv c o P.nowTs limit, r)] P.g1 :=
  ⟨.inl rfl, .cons _ _ _ _ _ _ _ _ _ (P.call hr ho) (.nil _ _), P.heap, P.pay.seq, ctx_one ⟨rfl, rfl, (nowU64_eq P.now).1, rfl⟩, fun _ => P.live,
    P.isOpen, fun _ => owner_controls P.hacct P.auth, P.admin, P.paid hr ho⟩

theorem idle_placement {s : State} {c : PlaceCtx} (hr : Reachable s) (h : authPlace s c.signer c.ooKey c.admin = .ok ()) :
    Placement s s s { signer := c.signer, owner := c.ooKey, hasOO := true, admin := c.admin, now := c.now, oracle := c.oracle } [] s.g := by
  obtain ⟨a, h1, h2, h3, h4, h5⟩ := authPlace_ok h
  exact ⟨.inl rfl, .nil _ _, rfl, rfl, fun _ h => (by cases h), fun h => absurd rfl h, h2, fun _ => owner_controls h1 h4, h5,
    paid_nil (reachable_Inv hr) (fun _ => ⟨a, h1⟩) rfl⟩

theorem step_cancelByClient {s s' : State} {signer k : Pubkey} {client : Nat} (hr : Reachable s)
    (h : step s (.cancelByClientId signer k client) = .ok s') : Controls s signer k ∧ s.closed = false ∧ ∃ ls, Cancels s s' k ls := by
  simp only [step, bind_ok, pure_ok] at h
  obtain ⟨⟨q, s1⟩, h, rfl⟩ := h
  obtain ⟨⟨a, ha⟩, h⟩ := cancelByClientId_inv h
  obtain ⟨h1, h3, _, h2⟩ := authCancel_ok ha
  obtain ⟨ls, c1, _⟩ := cancelAllFor_full (reachable_Inv hr) (reachable_Extra hr) h
  exact ⟨owner_controls h1 h2, h3, ls, c1⟩

theorem step_cancelAll {s s' : State} {signer k : Pubkey} {side : Option Side} {limit : Nat} (hr : Reachable s)
    (h : step s (.cancelAll signer k side limit) = .ok s') : Controls s signer k ∧ s.closed = false ∧ ∃ ls, Cancels s s' k ls := by
  obtain ⟨⟨a, ha⟩, q, h⟩ := cancelAll_inv h
  obtain ⟨h1, h3, _, h2⟩ := authCancel_ok ha
  obtain ⟨ls, c1, _⟩ := cancelAllFor_full (reachable_Inv hr) (reachable_Extra hr) h
  exact ⟨owner_controls h1 h2, h3, ls, c1⟩

theorem EditRun.placement {s s' : State} {c : PlaceCtx} {client : Nat} {e : Int} {o : Order} {limit : Nat} {r : Option OrderResult}
    (P : EditRun s c client e o limit r s') (hr : Reachable s) (ho : OrderTyped o) (had : s.g.market.openOrdersAdmin = c.admin) :
    ∃ s1 cs g1, Placement s s1 s'
      { signer := c.signer, owner := c.ooKey, hasOO := true, admin := c.admin, now := c.now, oracle := c.oracle } cs g1 := by
  obtain ⟨q, s1, h1, _, h⟩ := P.run
  have hs := cancelByClient_step h1
  obtain ⟨ha, hcl, ls, hc⟩ := step_cancelByClient hr hs
  rcases h with ⟨e1, e2, r1, rfl, h4⟩ | ⟨_, _, rfl⟩
  · obtain ⟨P⟩ := placeOrder_inv h4
    have Q := P.placement (.step _ _ _ hr hs) (ho.less e1)
    exact ⟨s1, _, _, .inr ⟨rfl, .inl ⟨_, hs⟩⟩, Q.calls, Q.heap, Q.seq, Q.ctx, fun h => by rw [← hc.market]; exact Q.live h, hcl, fun _ => ha,
      had, Q.pays.after hc.tokens hc.market⟩
  · exact ⟨s', [], s'.g, .inr ⟨rfl, .inl ⟨_, hs⟩⟩, .nil _ _, rfl, rfl, fun _ h => (by cases h), fun h => absurd rfl h, hcl, fun _ => ha, had,
      paid_nil (reachable_Inv (.step _ _ _ hr hs)) (fun _ => ⟨_, hc.acct.choose_spec.choose_spec.2.1⟩) hc.tokens⟩

theorem placement_full {s s' : State} {op : Op} (hr : Reachable s) (h : step s op = .ok s') {p : Placer} (hp : placer op = some p) :
    ∃ s1 cs g1, Placement s s1 s' p cs g1 := by
  cases step_run h with
  | idle _ c hop auth same =>
    subst same
    have : p = { signer := c.signer, owner := c.ooKey, hasOO := true, admin := c.admin, now := c.now, oracle := c.oracle } := by
      cases op <;> simp [Op.placeCtx] at hop <;> subst hop <;> simp [placer] at hp <;> exact hp.symm
    rw [this]
    exact ⟨_, _, _, idle_placement hr auth⟩
  | place _ c o limit r hop P =>
    have : p = { signer := c.signer, owner := c.ooKey, hasOO := true, admin := c.admin, now := c.now, oracle := c.oracle } := by
      cases hop <;> simp [placer] at hp <;> exact hp.symm
    rw [this]
    exact ⟨_, _, _, P.placement hr hop.typed⟩
  | edit _ c client e o limit r hop P =>
    have : p = { signer := c.signer, owner := c.ooKey, hasOO := true, admin := c.admin, now := c.now, oracle := c.oracle } := by
      cases hop <;> simp [placer] at hp <;> exact hp.symm
    rw [this]
    exact P.placement hr hop.typed (authPlace_ok P.auth).choose_spec.2.2.2.2
  | multi c cancel t bids asks limit now bs as rs hn hb has P =>
    injection hp with hp
    subst hp
    have ho : ∀ o ∈ bs ++ as, OrderTyped o := fun o ho => by
      rcases List.mem_append.mp ho with h | h
      · exact (multiOrders_typed hb o h).1
      · exact (multiOrders_typed has o h).1
    obtain ⟨cs, k1, _, k3, k4, k5⟩ := multiLoop_charged (nowU64_eq P.now).2 (oracleOk_range P.oracle) (.reachable _ (P.reach hr)) ho P.loop
    obtain ⟨a, h1, h2, h3, h4, h5⟩ := authPlace_ok P.auth
    refine ⟨P.s1, cs, P.g1, ?_, ?_, ?_, P.pay.seq, fun x hx => ?_, fun _ => P.live, h2, fun _ => owner_controls h1 h4, h5,
      P.paid hr (by omega) (by omega)⟩
    · rcases P.start_step with ⟨_, h⟩ | ⟨_, h⟩
      · exact .inl h
      · exact .inr ⟨rfl, .inr h⟩
    · rw [congrArg State.book P.res]; exact k1
    · rw [congrArg State.g P.res]
      show P.g4.heap = _
      obtain ⟨a1, hl1⟩ := lockAsk_inv P.lockB
      obtain ⟨a2, hl2⟩ := lockBid_inv P.lockQ
      have e3 : P.g3.heap = P.g1.heap := by
        have e1 := congrArg Ledger.heap hl1.res
        have e2 := congrArg Ledger.heap hl2.res
        exact e2.trans e1
      rcases addPenalty_inv P.pen with h | ⟨a, _, _, _, h⟩
      · rw [h]; exact e3
      · rw [h]; exact e3
    · obtain ⟨a1, a2, a3, a4⟩ := k3.ctx x hx
      exact ⟨a1, a2, by rw [a3]; exact (nowU64_eq P.now).1, a4⟩
  | take c a o r ho P =>
    injection hp with hp
    subst hp
    refine ⟨s, _, _, .inl rfl, .cons _ _ _ _ _ _ _ _ _ (P.call hr (takeOrder_typed ho)) (.nil _ _), ?_, ?_,
      ctx_one ⟨rfl, rfl, (nowU64_eq P.now).1, rfl⟩, fun _ => P.live, P.isOpen, fun h => (by cases h), P.admin, P.paid hr (takeOrder_typed ho)⟩
    all_goals
      have ham := (P.fx (reachable_Inv hr) (takeOrder_typed ho)).amts.res
      rw [congrArg State.g P.res]
    · show P.g2.heap = _
      rw [ham]
    · show P.g2.market.seqNum = _
      rw [ham]
  | consume _ _ _ _ _ h => rcases h with ⟨rfl, _⟩ | ⟨rfl, _⟩ <;> cases hp
  | cancel _ _ _ _ _ _ _ _ h => rcases h with ⟨rfl, _⟩ | ⟨rfl, _⟩ <;> cases hp
  | deposit _ _ _ _ _ _ _ _ _ _ h => rcases h with rfl | rfl <;> cases hp
  | _ => cases hp

/-- An instruction that places nothing leaves the book alone or cancels orders of one account; events are only taken off the queue,
and only by consuming. -/
structure NoPlacing (s s' : State) (op : Op) : Prop where
  events : s'.g.heap.events.Sublist s.g.heap.events
  heap : consuming op = false → s'.g.heap = s.g.heap
  book : s'.book = s.book ∨ ∃ k ls, Cancels s s' k ls ∧ ((∃ signer ∈ signers op, Controls s signer k) ∨
    (∃ now limit, op = .pruneOrders s.g.market.closeMarketAdmin k now limit ∧ s.g.market.closeMarketAdmin ≠ 0 ∧
      s.g.market.isExpired now = true))
  seq : s'.g.market.seqNum = s.g.market.seqNum

theorem NoPlacing.same {s s' : State} {op : Op} (h1 : s'.g.heap = s.g.heap) (h2 : s'.book = s.book)
    (h3 : s'.g.market.seqNum = s.g.market.seqNum) : NoPlacing s s' op :=
  ⟨by rw [h1], fun _ => h1, .inl h2, h3⟩

theorem NoPlacing.cancels {s s' : State} {op : Op} {k : Pubkey} {ls : List (Side × Comp × LeafNode)} (h : Cancels s s' k ls)
    (hw : (∃ signer ∈ signers op, Controls s signer k) ∨
    (∃ now limit, op = .pruneOrders s.g.market.closeMarketAdmin k now limit ∧ s.g.market.closeMarketAdmin ≠ 0 ∧
      s.g.market.isExpired now = true)) : NoPlacing s s' op :=
  ⟨by rw [h.heap], fun _ => h.heap, .inr ⟨k, ls, h, hw⟩, by rw [h.market]⟩

theorem step_other {s s' : State} {op : Op} (hr : Reachable s) (h : step s op = .ok s') (hp : placer op = none) : NoPlacing s s' op := by
  have hi := reachable_Inv hr
  have hx := reachable_Extra hr
  have hst := h
  cases step_run h with
  | idle _ c hop _ _ => cases op <;> simp [Op.placeCtx] at hop <;> simp [placer] at hp
  | place _ c o limit r hop P => cases hop <;> cases hp
  | edit _ c client e o limit r hop P => cases hop <;> cases hp
  | multi => cases hp
  | take => cases hp
  | consume _ admin limit slots rem hop h =>
    have hsub : s'.g.heap.events.Sublist s.g.heap.events := by
      rcases hop with ⟨rfl, rfl⟩ | ⟨rfl, rfl⟩
      · rw [(consumeEvents_front hi h).1]
        refine ((List.filter_sublist (p := _) (l := _)).append (List.Sublist.refl _)).trans ?_
        rw [List.take_append_drop]
      · simp only [step, consumeGivenEvents, bind_ok, req_ok] at hst
        obtain ⟨_, hlt, hst⟩ := hst
        obtain ⟨_, _, _, _, _, _, h6, _⟩ := consumeEvents_given hi (by simpa using hlt) hst
        exact h6
    obtain ⟨_, _, todo, g, _, h4, rfl⟩ := consumeEvents_inv h
    obtain ⟨_, _, r3⟩ := consumeLoop_res hi.core.linv hi.core.bls hi.core.qls h4
    refine ⟨hsub, fun hc => ?_, .inl rfl, r3⟩
    rcases hop with ⟨rfl, _⟩ | ⟨rfl, _⟩ <;> cases hc
  | cancelOne signer k id h =>
    obtain ⟨x, _, hc, ha⟩ := cancelOrderIx_full hi h
    exact .cancels hc (.inl ⟨signer, by simp [signers], ha⟩)
  | cancel _ signer k limit so co a q hop auth h =>
    obtain ⟨h1, h3, _, h2⟩ := authCancel_ok auth
    obtain ⟨ls, c1, _⟩ := cancelAllFor_full hi hx h
    refine .cancels c1 (.inl ⟨signer, ?_, owner_controls h1 h2⟩)
    rcases hop with ⟨rfl, _⟩ | ⟨rfl, _⟩ <;> simp [signers]
  | prune admin k now limit q auth exp hc =>
    obtain ⟨ls, c1, _⟩ := cancelAllFor_full hi hx hc
    obtain ⟨_, a1, a2⟩ := authClose_ok auth
    exact .cancels c1 (.inr ⟨now, limit, by rw [a2], a1, exp⟩)
  | deposit _ _ _ _ _ _ _ _ _ _ hop P => refine .same ?_ ?_ ?_ <;> rw [P.res]
  | settle c h P =>
    refine .same ?_ ?_ ?_
    · rw [congrArg State.g P.res]
    · rw [congrArg State.book P.res]
    · rw [congrArg State.g P.res]; rfl
  | settleExpired _ c _ h P =>
    refine .same ?_ ?_ ?_
    · rw [congrArg State.g P.res]
    · rw [congrArg State.book P.res]
    · rw [congrArg State.g P.res]; rfl
  | sweep _ _ h =>
    obtain ⟨_, _, _, t, _, rfl⟩ := sweepFees_inv h
    exact .same rfl rfl rfl
  | setExpired _ _ _ _ res => rw [res]; exact .same rfl rfl rfl
  | close _ _ P => rw [P.res]; exact .same rfl rfl rfl
  | createOO _ _ _ _ _ _ res => rw [res]; exact .same rfl rfl rfl
  | closeOO _ _ _ _ _ _ res => rw [res]; exact .same rfl rfl rfl
  | delegate _ _ _ _ _ _ res => rw [res]; exact .same rfl rfl rfl
  | token _ _ _ _ res => rw [res]; exact .same rfl rfl rfl
  | lamports _ _ _ _ res => rw [res]; exact .same rfl rfl rfl

end OB
