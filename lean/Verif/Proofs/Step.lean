import Verif.Proofs.Reach
/-! All instructions by kind, for arguments over arbitrary operations. -/
namespace OB

/-- The order an instruction of the place family asks for. -/
inductive Asks (s : State) : Op → PlaceCtx → Order → Nat → Prop
  | fixed (c : PlaceCtx) (a : PlaceOrderArgs) (now : Nat) (o : Order) (hn : nowU64 c.now = .ok now) (ho : a.order now = .ok (some o)) :
      Asks s (.placeOrder c a) c o a.limit
  | pegged (c : PlaceCtx) (a : PlaceOrderPeggedArgs) (now : Nat) (o : Order) (hn : nowU64 c.now = .ok now)
      (ho : a.order s.g.market now = .ok (some o)) : Asks s (.placeOrderPegged c a) c o a.limit

/-- The order an instruction of the edit family asks for. -/
inductive AsksEdit (s : State) : Op → PlaceCtx → Nat → Int → Order → Nat → Prop
  | fixed (c : PlaceCtx) (client : Nat) (e : Int) (a : PlaceOrderArgs) (now : Nat) (o : Order) (hn : nowU64 c.now = .ok now)
      (ho : a.order now = .ok (some o)) : AsksEdit s (.editOrder c client e a) c client e o a.limit
  | pegged (c : PlaceCtx) (client : Nat) (e : Int) (a : PlaceOrderPeggedArgs) (now : Nat) (o : Order) (hn : nowU64 c.now = .ok now)
      (ho : a.order s.g.market now = .ok (some o)) : AsksEdit s (.editOrderPegged c client e a) c client e o a.limit

theorem Asks.typed {s : State} {op : Op} {c : PlaceCtx} {o : Order} {l : Nat} (h : Asks s op c o l) : OrderTyped o := by
  cases h with
  | fixed _ _ _ _ _ ho => exact PlaceOrderArgs.order_typed ho
  | pegged _ _ _ _ _ ho => exact PlaceOrderPeggedArgs.order_typed ho

theorem AsksEdit.typed {s : State} {op : Op} {c : PlaceCtx} {n : Nat} {e : Int} {o : Order} {l : Nat} (h : AsksEdit s op c n e o l) :
    OrderTyped o := by
  cases h with
  | fixed _ _ _ _ _ _ _ ho => exact PlaceOrderArgs.order_typed ho
  | pegged _ _ _ _ _ _ _ ho => exact PlaceOrderPeggedArgs.order_typed ho

/-- Account context of a place or edit instruction. -/
def Op.placeCtx : Op → Option PlaceCtx
  | .placeOrder c _ | .placeOrderPegged c _ | .editOrder c _ _ _ | .editOrderPegged c _ _ _ => some c
  | _ => none

/-- A successful instruction. -/
inductive StepRun (s s' : State) : Op → Prop
  | idle (op : Op) (c : PlaceCtx) (hop : op.placeCtx = some c) (auth : authPlace s c.signer c.ooKey c.admin = .ok ()) (same : s' = s) :
      StepRun s s' op
  | place (op : Op) (c : PlaceCtx) (o : Order) (limit : Nat) (r : OrderResult) (hop : Asks s op c o limit)
      (P : PlaceRun s c o limit r s') : StepRun s s' op
  | edit (op : Op) (c : PlaceCtx) (client : Nat) (e : Int) (o : Order) (limit : Nat) (r : Option OrderResult)
      (hop : AsksEdit s op c client e o limit) (P : EditRun s c client e o limit r s') : StepRun s s' op
  | multi (c : MultiCtx) (cancel : Bool) (t : PlaceOrderType) (bids asks : List MultiArgs) (limit : Nat) (now : Nat)
      (bs as : List Order) (rs : List OrderResult) (hn : nowU64 c.now = .ok now) (hb : multiOrders t now .bid 0 bids = .ok bs)
      (ha : multiOrders t now .ask bids.length asks = .ok as) (P : MultiRun s c cancel (bs ++ as) limit rs s') :
      StepRun s s' (.placeOrders c cancel t bids asks limit)
  | take (c : TakeCtx) (a : PlaceOrderArgs) (o : Order) (r : OrderResult) (ho : takeOrder a = .ok o) (P : TakeRun s c o a.limit r s') :
      StepRun s s' (.placeTakeOrder c a)
  | consume (op : Op) (admin : Pubkey) (limit : Nat) (slots : List Nat) (rem : List Pubkey)
      (hop : (op = .consumeEvents admin limit rem ∧ slots = []) ∨ (op = .consumeGivenEvents admin slots rem ∧ limit = slots.length))
      (h : consumeEvents s admin limit slots rem = .ok s') : StepRun s s' op
  | cancelOne (signer k : Pubkey) (id : Nat) (h : cancelOrderIx s signer k id = .ok s') : StepRun s s' (.cancelOrder signer k id)
  | cancel (op : Op) (signer k : Pubkey) (limit : Nat) (so : Option Side) (co : Option Nat) (a : OOA) (q : Int)
      (hop : (op = .cancelByClientId signer k (co.getD 0) ∧ so = none ∧ co.isSome ∧ limit = 255) ∨
        (op = .cancelAll signer k so limit ∧ co = none))
      (auth : authCancel s signer k = .ok a) (h : cancelAllFor s k limit so co = .ok (q, s')) : StepRun s s' op
  | prune (admin k : Pubkey) (now : Int) (limit : Nat) (q : Int) (auth : authClose s admin = .ok ())
      (exp : s.g.market.isExpired now = true) (h : cancelAllFor s k limit none none = .ok (q, s')) :
      StepRun s s' (.pruneOrders admin k now limit)
  | deposit (op : Op) (signer k ub uq : Pubkey) (now b q b0 q0 : Int)
      (hop : op = .deposit signer k ub uq now b0 q0 ∨ op = .refill signer k ub uq now b0 q0)
      (P : DepositRun s signer k ub uq now b q s') : StepRun s s' op
  | settle (c : SettleCtx) (h : settleFunds s c = .ok s') (P : SettleRun s c s') : StepRun s s' (.settleFunds c)
  | settleExpired (admin : Pubkey) (c : SettleCtx) (now : Int) (h : settleFundsExpired s admin c now = .ok s') (P : SettleRun s c s') :
      StepRun s s' (.settleFundsExpired admin c now)
  | sweep (admin receiver : Pubkey) (h : sweepFees s admin receiver = .ok s') : StepRun s s' (.sweepFees admin receiver)
  | setExpired (admin : Pubkey) (now : Int) (auth : authClose s admin = .ok ()) (live : s.g.market.isExpired now = false)
      (res : s' = { s with g := { s.g with market := { s.g.market with timeExpiry := -1 } } }) : StepRun s s' (.setMarketExpired admin now)
  | close (admin : Pubkey) (now : Int) (P : CloseRun s admin now s') : StepRun s s' (.closeMarket admin now)
  | createOO (k owner d : Pubkey) (isOpen : s.closed = false) (own : owner ≠ s.g.market.marketAuthority) (new : s.g.accts.get? k = none)
      (res : s' = { s with g := { s.g with accts := s.g.accts ++ [(k, OOA.fresh owner d)] } }) : StepRun s s' (.createOO k owner d)
  | closeOO (k owner : Pubkey) (a : OOA) (acct : s.g.accts.get? k = some a) (own : a.owner = owner) (empty : EmptyPos a.position)
      (res : s' = { s with g := { s.g with accts := s.g.accts.del k } }) : StepRun s s' (.closeOO k owner)
  | delegate (k owner d : Pubkey) (a : OOA) (acct : s.g.accts.get? k = some a) (own : a.owner = owner)
      (res : s' = { s with g := { s.g with accts := s.g.accts.set k { a with delegate := d } } }) : StepRun s s' (.setDelegate k owner d)
  | token (k : Pubkey) (t : TokenAcct) (le : 0 ≤ t.amount ∧ t.amount ≤ u64Max)
      (vault : s.g.market.isMarketVault k = true → t.owner = (s.tokens k).owner ∧ t.mint = (s.tokens k).mint ∧ (s.tokens k).amount ≤ t.amount)
      (res : s' = { s with tokens := fun i => if i = k then t else s.tokens i }) : StepRun s s' (.externalToken k t)
  | lamports (k : Pubkey) (x : Int) (le : 0 ≤ x ∧ x ≤ u64Max) (mkt : k = s.marketKey ∧ s.closed = false → s.lamports k ≤ x)
      (res : s' = { s with lamports := fun i => if i = k then x else s.lamports i }) : StepRun s s' (.externalLamports k x)

theorem step_run {s s' : State} {op : Op} (h : step s op = .ok s') : StepRun s s' op := by
  cases op with
  | placeOrder c a =>
    simp only [step, bind_ok, pure_ok] at h
    obtain ⟨⟨r, s1⟩, h, rfl⟩ := h
    rcases placeOrderIx_inv h with ⟨_, rfl, ha⟩ | ⟨now, o, r1, hn, ho, _, h⟩
    · exact .idle _ c rfl ha rfl
    · obtain ⟨P⟩ := placeOrder_inv h
      exact .place _ c o a.limit r1 (.fixed _ _ _ _ hn ho) P
  | placeOrderPegged c a =>
    simp only [step, bind_ok, pure_ok] at h
    obtain ⟨⟨r, s1⟩, h, rfl⟩ := h
    rcases placeOrderPeggedIx_inv h with ⟨_, rfl, ha⟩ | ⟨now, o, r1, hn, ho, _, h⟩
    · exact .idle _ c rfl ha rfl
    · obtain ⟨P⟩ := placeOrder_inv h
      exact .place _ c o a.limit r1 (.pegged _ _ _ _ hn ho) P
  | editOrder c client e a =>
    simp only [step, bind_ok, pure_ok, editOrderIx] at h
    obtain ⟨⟨r, s1⟩, ⟨now, hn, o, ho, h⟩, rfl⟩ := h
    cases o with
    | none =>
      simp only [bind_ok, pure_ok] at h
      obtain ⟨_, ha, h⟩ := h
      injection h with _ e2
      exact .idle _ c rfl ha e2.symm
    | some o => exact .edit _ c client e o a.limit r (.fixed _ _ _ _ _ _ hn ho) (editOrder_inv h)
  | editOrderPegged c client e a =>
    simp only [step, bind_ok, pure_ok, editOrderPeggedIx] at h
    obtain ⟨⟨r, s1⟩, ⟨now, hn, o, ho, h⟩, rfl⟩ := h
    cases o with
    | none =>
      simp only [bind_ok, pure_ok] at h
      obtain ⟨_, ha, h⟩ := h
      injection h with _ e2
      exact .idle _ c rfl ha e2.symm
    | some o => exact .edit _ c client e o a.limit r (.pegged _ _ _ _ _ _ hn ho) (editOrder_inv h)
  | placeOrders c cancel t bids asks limit =>
    simp only [step, bind_ok, pure_ok, placeOrdersIx, req_ok] at h
    obtain ⟨⟨r, s1⟩, ⟨_, _, now, hn, bs, hb, as, has, h⟩, rfl⟩ := h
    obtain ⟨P⟩ := cancelAllAndPlace_inv h
    exact .multi c cancel t bids asks limit now bs as r hn hb has P
  | placeTakeOrder c a =>
    simp only [step, bind_ok, pure_ok, placeTakeOrderIx] at h
    obtain ⟨⟨r, s1⟩, ⟨o, ho, h⟩, rfl⟩ := h
    obtain ⟨P⟩ := placeTakeOrder_inv h
    exact .take c a o r ho P
  | consumeEvents admin limit rem => exact .consume _ admin limit [] rem (.inl ⟨rfl, rfl⟩) h
  | consumeGivenEvents admin slots rem =>
    simp only [step, consumeGivenEvents, bind_ok, req_ok] at h
    obtain ⟨_, _, h⟩ := h
    exact .consume _ admin slots.length slots rem (.inr ⟨rfl, rfl⟩) h
  | cancelOrder signer k id => exact .cancelOne signer k id h
  | cancelByClientId signer k client =>
    simp only [step, bind_ok, pure_ok] at h
    obtain ⟨⟨q, s1⟩, h, rfl⟩ := h
    obtain ⟨⟨a, ha⟩, h⟩ := cancelByClientId_inv h
    exact .cancel _ signer k 255 none (some client) a q (.inl ⟨rfl, rfl, rfl, rfl⟩) ha h
  | cancelAll signer k side limit =>
    obtain ⟨⟨a, ha⟩, q, h⟩ := cancelAll_inv h
    exact .cancel _ signer k limit side none a q (.inr ⟨rfl, rfl⟩) ha h
  | deposit signer k ub uq now b q =>
    obtain ⟨P⟩ := deposit_inv h
    exact .deposit _ signer k ub uq now b q b q (.inl rfl) P
  | refill signer k ub uq now b q =>
    obtain ⟨a, _, _, _, _, _, h⟩ := refill_inv h
    obtain ⟨P⟩ := deposit_inv h
    exact .deposit _ signer k ub uq now _ _ b q (.inr rfl) P
  | settleFunds c =>
    obtain ⟨P⟩ := settleCore_inv (settleFunds_inv h).1
    exact .settle c h P
  | settleFundsExpired admin c now =>
    obtain ⟨P⟩ := settleCore_inv (settleFundsExpired_inv h).1
    exact .settleExpired admin c now h P
  | sweepFees admin receiver => exact .sweep admin receiver h
  | pruneOrders admin k now limit =>
    obtain ⟨h1, h2, q, h⟩ := pruneOrders_inv h
    exact .prune admin k now limit q h1 h2 h
  | setMarketExpired admin now =>
    obtain ⟨h1, h2, h⟩ := setMarketExpired_inv h
    exact .setExpired admin now h1 h2 h
  | closeMarket admin now => exact .close admin now (closeMarket_inv h)
  | createOO k owner d =>
    obtain ⟨h1, h2, h3, h⟩ := createOO_inv h
    exact .createOO k owner d h1 h2 h3 h
  | closeOO k owner =>
    obtain ⟨a, h1, h2, h3, h⟩ := closeOO_inv h
    exact .closeOO k owner a h1 h2 h3 h
  | setDelegate k owner d =>
    obtain ⟨a, h1, h2, h⟩ := setDelegate_inv h
    exact .delegate k owner d a h1 h2 h
  | externalToken k t =>
    obtain ⟨h1, h2, h3, h⟩ := externalToken_inv h
    exact .token k t ⟨h1, h2⟩ h3 h
  | externalLamports k x =>
    obtain ⟨h1, h2, h3, h⟩ := externalLamports_inv h
    exact .lamports k x ⟨h1, h2⟩ h3 h

/-! ### the configuration never changes -/

theorem SameCfg.dep {m m' : Market} {b q : Int} (h : m' = { m with baseDepositTotal := b, quoteDepositTotal := q }) : SameCfg m m' := by
  subst h; exact ⟨rfl, rfl, rfl, rfl, rfl, rfl, rfl, rfl, rfl, rfl, rfl, rfl, rfl, rfl, rfl⟩

theorem cancelAllFor_frame {s s' : State} {k : Pubkey} {limit : Nat} {so : Option Side} {co : Option Nat} {q : Int} (hi : Inv s)
    (h : cancelAllFor s k limit so co = .ok (q, s')) :
    s'.tokens = s.tokens ∧ LFrame s.g s'.g ∧ s'.g.market = s.g.market ∧ s'.g.heap = s.g.heap ∧ s'.closed = s.closed := by
  obtain ⟨a, a', book', ls, h1, h2, h3, h4, h5, h6⟩ := cancelAllFor_res hi h
  have hput : s.g.put k a = s.g := by
    unfold Ledger.put; rw [Accts.set_get h1]
  have hf := h4.frame
  rw [hput] at hf
  rw [h2]
  exact ⟨rfl, hf, rfl, rfl, rfl⟩

theorem PlaceRun.market {s s' : State} {c : PlaceCtx} {order : Order} {limit : Nat} {r : OrderResult}
    (P : PlaceRun s c order limit r s') (hi : Inv s) (ho : OrderTyped order) : s'.g.market = { P.g1.market with
      baseDepositTotal := P.g1.market.baseDepositTotal + (if order.side = .ask then P.dep else 0)
      quoteDepositTotal := P.g1.market.quoteDepositTotal + (if order.side = .bid then P.dep else 0) } := by
  have hfx := P.fx hi ho
  rw [congrArg State.g P.res]
  exact hfx.m3.trans hfx.m2

theorem addPenalty_market {g g' : Ledger} {k : Pubkey} {n : Nat} (h : addPenalty g k n = .ok g') : g'.market = g.market := by
  rcases addPenalty_inv h with h | ⟨a, _, _, _, h⟩ <;> rw [h]

theorem MultiRun.market {s s' : State} {c : MultiCtx} {cancel : Bool} {orders : List Order} {limit : Nat} {rs : List OrderResult}
    (P : MultiRun s c cancel orders limit rs s') : s'.g.market = { P.g1.market with
      baseDepositTotal := P.g1.market.baseDepositTotal + P.depB
      quoteDepositTotal := P.g1.market.quoteDepositTotal + P.depQ } := by
  obtain ⟨a1, hl1⟩ := lockAsk_inv P.lockB
  obtain ⟨a2, hl2⟩ := lockBid_inv P.lockQ
  have e1 := congrArg Ledger.market hl1.res
  have e2 := congrArg Ledger.market hl2.res
  rw [congrArg State.g P.res]
  refine (addPenalty_market P.pen).trans (e2.trans ?_)
  simp only at e1
  simp only [e1]

theorem multiTyped {t : PlaceOrderType} {now n : Nat} {bids asks : List MultiArgs} {bs as : List Order}
    (hb : multiOrders t now .bid 0 bids = .ok bs) (ha : multiOrders t now .ask n asks = .ok as) : ∀ o ∈ bs ++ as, OrderTyped o := by
  intro o ho
  rcases List.mem_append.mp ho with h | h
  · exact (multiOrders_typed hb o h).1
  · exact (multiOrders_typed ha o h).1

/-- A ledger frame, then a change of the deposit totals. -/
theorem LFrame.cfgDep {g g1 : Ledger} {m : Market} {b q : Int} (h : LFrame g g1)
    (e : m = { g1.market with baseDepositTotal := b, quoteDepositTotal := q }) :
    SameCfg g.market m ∧ m.timeExpiry = g.market.timeExpiry := by
  refine ⟨h.sameCfg.trans (SameCfg.dep e), ?_⟩
  rw [e]; exact h.expiry

theorem step_cfg {s s' : State} {op : Op} (hi : Inv s) (h : step s op = .ok s') :
    SameCfg s.g.market s'.g.market ∧
      (s'.g.market.timeExpiry = s.g.market.timeExpiry ∨ ∃ admin now, op = .setMarketExpired admin now ∧ s'.g.market.timeExpiry = -1) := by
  have key : (SameCfg s.g.market s'.g.market ∧ s'.g.market.timeExpiry = s.g.market.timeExpiry) → SameCfg s.g.market s'.g.market ∧
      (s'.g.market.timeExpiry = s.g.market.timeExpiry ∨ ∃ admin now, op = .setMarketExpired admin now ∧ s'.g.market.timeExpiry = -1) :=
    fun h => ⟨h.1, .inl h.2⟩
  have same : s'.g.market = s.g.market → SameCfg s.g.market s'.g.market ∧
      (s'.g.market.timeExpiry = s.g.market.timeExpiry ∨ ∃ admin now, op = .setMarketExpired admin now ∧ s'.g.market.timeExpiry = -1) := by
    intro h; rw [h]; exact ⟨SameCfg.refl _, .inl rfl⟩
  have frame : LFrame s.g s'.g → SameCfg s.g.market s'.g.market ∧
      (s'.g.market.timeExpiry = s.g.market.timeExpiry ∨ ∃ admin now, op = .setMarketExpired admin now ∧ s'.g.market.timeExpiry = -1) :=
    fun h => ⟨h.sameCfg, .inl h.expiry⟩
  cases step_run h with
  | idle _ _ _ _ h => rw [h] at same ⊢; exact same rfl
  | place op c o l r hop P => exact key ((P.fx hi hop.typed).frame1.cfgDep (P.market hi hop.typed))
  | edit op c client e o l r hop P =>
    obtain ⟨q, s1, h1, _, h2⟩ := P.run
    obtain ⟨_, h3⟩ := cancelByClientId_inv h1
    obtain ⟨_, _, _, _, _, _, _, _, _, hi1⟩ := cancelAllFor_res hi h3
    obtain ⟨_, f1, m1, _, _⟩ := cancelAllFor_frame hi h3
    rcases h2 with ⟨e1, e2, r1, _, h4⟩ | ⟨_, _, rfl⟩
    · obtain ⟨P⟩ := placeOrder_inv h4
      have ho : OrderTyped { o with maxBaseLots := o.maxBaseLots - (e - q) } :=
        ⟨by have := hop.typed.base1; show o.maxBaseLots - (e - q) ≤ _; omega, hop.typed.quote1, hop.typed.price, hop.typed.peg⟩
      exact key ((f1.trans (P.fx hi1 ho).frame1).cfgDep (P.market hi1 ho))
    · exact same m1
  | multi c cancel t bids asks l now bs as rs hn hb ha P =>
    obtain ⟨hi1, f1⟩ := P.start hi
    have f2 := (multiLoop_res hi1.core (multiTyped hb ha) (Int.le_refl _) (Int.le_refl _) P.loop).2.1
    exact key ((f1.trans f2).cfgDep P.market)
  | take c a o r ho P =>
    have hfx := P.fx hi (takeOrder_typed ho)
    refine key (hfx.frame1.cfgDep (b := (P.g2.market).baseDepositTotal) (q := P.g2.market.quoteDepositTotal) ?_)
    rw [congrArg State.g P.res]
    show P.g2.market = _
    have := congrArg Ledger.market hfx.amts.res
    rw [this]
  | consume op admin limit slots rem hop h => exact frame (consumeEvents_Inv hi h).2
  | cancelOne signer k id h =>
    obtain ⟨_, _, _, _, _, _, _, _, h1, _, _⟩ := cancelOrderIx_res hi h
    exact same (by rw [h1])
  | cancel op signer k limit so co a q hop auth h => exact same (cancelAllFor_frame hi h).2.2.1
  | prune admin k now limit q auth exp hc => exact same (cancelAllFor_frame hi hc).2.2.1
  | deposit op signer k ub uq now b q b0 q0 hop P =>
    exact key ((LFrame.refl s.g).cfgDep (by rw [congrArg State.g P.res]))
  | settle c h P =>
    refine key ?_
    rw [congrArg State.g P.res]
    exact ⟨⟨rfl, rfl, rfl, rfl, rfl, rfl, rfl, rfl, rfl, rfl, rfl, rfl, rfl, rfl, rfl⟩, rfl⟩
  | settleExpired admin c now h P =>
    refine key ?_
    rw [congrArg State.g P.res]
    exact ⟨⟨rfl, rfl, rfl, rfl, rfl, rfl, rfl, rfl, rfl, rfl, rfl, rfl, rfl, rfl, rfl⟩, rfl⟩
  | sweep admin receiver h =>
    obtain ⟨_, _, _, t, _, h⟩ := sweepFees_inv h
    refine key ?_
    rw [h]
    exact ⟨⟨rfl, rfl, rfl, rfl, rfl, rfl, rfl, rfl, rfl, rfl, rfl, rfl, rfl, rfl, rfl⟩, rfl⟩
  | setExpired admin now auth live res =>
    rw [res]
    exact ⟨⟨rfl, rfl, rfl, rfl, rfl, rfl, rfl, rfl, rfl, rfl, rfl, rfl, rfl, rfl, rfl⟩, .inr ⟨admin, now, rfl, rfl⟩⟩
  | close admin now P => exact same (by rw [P.res])
  | createOO k owner d _ _ _ res => exact same (by rw [res])
  | closeOO k owner a _ _ _ res => exact same (by rw [res])
  | delegate k owner d a _ _ res => exact same (by rw [res])
  | token k t _ _ res => exact same (by rw [res])
  | lamports k x _ _ res => exact same (by rw [res])

end OB
