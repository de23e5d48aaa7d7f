import Verif.Spec.Asked
import Verif.Proofs.Chain
import Verif.Proofs.Live
/-! The orders an instruction asks for, what the engine is given, what rests; and the lifetime of a resting order. -/
namespace OB
open OB.Spec

section
variable {env : Env} {book book' : Book} {g g' : Ledger} {r : OrderResult}

/-- The order that a call posts, wherever it is found. -/
theorem CallRun.posted_at (C : CallRun env book g r book' g') {c : Comp} {l : LeafNode} (hm : (env.order.side, c, l) ∈ book'.resting)
    (hid : r.orderId = some l.key) (hn : ∀ l0, (env.order.side, c, l0) ∈ book.resting → l0.key ≠ l.key) :
    env.order.postTarget = some c ∧ l.owner = env.owner ∧ l.timestamp = env.nowTs ∧ l.timeInForce = env.order.timeInForce ∧
      l.pegLimit = env.order.pegLimit ∧ l.clientOrderId = env.order.clientOrderId ∧ priceOf env.oracle c l = some C.R.priceLots := by
  obtain ⟨c0, l0, h1, h2, h3, h4, h6, _, h7, h8, h9, h10, h5⟩ := C.posted hid
  obtain ⟨own, outs, _, _, hbk, _, hP⟩ := C.P.posted c0 h1
  obtain ⟨leaf, k1, _, _, _, _, _, _, hm', hall⟩ := hP.new
  have e : (book'.side env.order.side) = own := by
    refine (congrArg (fun b => Book.side b env.order.side) hbk).trans ?_
    cases env.order.side <;> rfl
  have inOwn : ∀ c l, (env.order.side, c, l) ∈ book'.resting → (c = c0 ∧ l = leaf) ∨ l ∈ (book.side env.order.side).orders c := by
    intro c l hl
    rw [mem_resting, e] at hl
    exact hall c l hl
  rcases inOwn c l hm with ⟨rfl, rfl⟩ | ho
  · rcases inOwn c l0 h3 with ⟨_, rfl⟩ | ho0
    · exact ⟨h2, h6, h7, h8, h9, h10, h5⟩
    · exact absurd h4 (hn _ (mem_resting.mpr ho0))
  · exact absurd rfl (hn _ (mem_resting.mpr ho))

/-- What is in the book after a sequence of calls: there before, or posted by one of the calls. -/
theorem calls_posted {cs : List (Env × OrderResult)} (h : Calls book g cs book' g') {s : Side} {c : Comp} {l' : LeafNode}
    (hm : (s, c, l') ∈ book'.resting) :
    (∃ l, (s, c, l) ∈ book.resting ∧ l' = { l with quantity := l'.quantity } ∧ l'.quantity ≤ l.quantity) ∨
    (∃ x ∈ cs, s = x.1.order.side ∧ x.2.orderId = some l'.key ∧ x.1.order.postTarget = some c ∧ l'.owner = x.1.owner ∧
      l'.timestamp = x.1.nowTs ∧ l'.timeInForce = x.1.order.timeInForce ∧ l'.pegLimit = x.1.order.pegLimit ∧
      l'.clientOrderId = x.1.order.clientOrderId ∧ g.market.seqNum < seqOf s l'.key) := by
  induction h with
  | nil book g => exact .inl ⟨l', hm, rfl, Int.le_refl _⟩
  | cons env r cs book book1 book' g g1 g' h hs ih =>
    obtain ⟨C⟩ := callRun h
    have hq := C.seq_next
    rcases ih hm with ⟨l1, h1, h2, h3⟩ | ⟨x, hx, h1, h2, h3, h4, h5, h6, h7, h8, h9⟩
    · rcases C.origin h1 with ⟨l, k1, k2, _, k4⟩ | ⟨k1, k2, k3, k4⟩
      · exact .inl ⟨l, k1, by rw [h2, k2], by omega⟩
      · right
        subst k1
        obtain ⟨a1, a2, a3, a4, a5, a6, _⟩ := C.posted_at h1 k2 (fun l0 hl0 => C.fresh_id k2 hl0)
        have e : l'.key = l1.key := by rw [h2]
        refine ⟨(env, r), by simp, rfl, by rw [e]; exact k2, a1, ?_, ?_, ?_, ?_, ?_, ?_⟩
        · rw [h2]; exact a2
        · rw [h2]; exact a3
        · rw [h2]; exact a4
        · rw [h2]; exact a5
        · rw [h2]; exact a6
        · obtain ⟨_, _, ek⟩ := C.target_some k2
          rw [e, ek, seqOf_newKey (by have := C.R.seq; unfold two64; omega)]
          omega
    · exact .inr ⟨x, by simp [hx], h1, h2, h3, h4, h5, h6, h7, h8, by omega⟩

end

theorem ahead_of_tif {now : Nat} {e t : Nat} (h : (e = 0 ∧ t = 0) ∨ (now < e ∧ t = min (e - now) 65535)) :
    e = 0 ∨ (now : Int) < e := by omega

/-- A single order. -/
theorem Serves.one {op : Op} {q : Asked} {x : Env × OrderResult} (ha : asked op = [q]) (h : Follows q x.1) : Serves op x.1.nowTs [x] := by
  refine .inl ?_
  have : q.ahead x.1.nowTs = true := by
    unfold Asked.ahead; rw [decide_eq_true_eq]; exact ahead_of_tif h.expiry
  rw [ha, List.filter_cons_of_pos this]
  exact .cons _ _ _ _ h .nil

/-- An order already expired. -/
theorem Serves.late {op : Op} {q : Asked} {now : Int} (ha : asked op = [q]) (h : q.expiry ≠ 0 ∧ (q.expiry : Int) ≤ now) : Serves op now [] := by
  refine .inl ?_
  have : ¬ q.ahead now = true := by
    unfold Asked.ahead; rw [decide_eq_true_eq]; omega
  rw [ha, List.filter_cons_of_neg this]
  exact .nil

theorem follows_fixed {c : PlaceCtx} {a : PlaceOrderArgs} {now : Nat} {o : Order} {mb : Int} {limit : Nat} (hn : nowU64 c.now = .ok now)
    (ho : a.order now = .ok (some o)) :
    Follows ⟨a.side, a.priceLots, none, a.orderType, a.clientOrderId, a.expiry, a.stb⟩ (placeEnv c { o with maxBaseLots := mb } now limit) := by
  have h := placesAs hn ho
  refine ⟨h.side, ?_, h.client, h.selfTrade, h.expiry⟩
  rcases h.params with ⟨h1, h2⟩ | ⟨h1, h2⟩ | ⟨h1, h2⟩ | ⟨h1, h2⟩ | ⟨h1, h2⟩ | ⟨h1, h2⟩ <;> (simp only [h1]; exact h2)

theorem follows_pegged {c : PlaceCtx} {a : PlaceOrderPeggedArgs} {m : Market} {now : Nat} {o : Order} {mb : Int} {limit : Nat}
    (hn : nowU64 c.now = .ok now) (ho : a.order m now = .ok (some o)) :
    Follows ⟨a.side, a.offset, some a.pegLimit, a.orderType, a.clientOrderId, a.expiry, a.stb⟩
      (placeEnv c { o with maxBaseLots := mb } now limit) := by
  have h := placesPegAs hn ho
  refine ⟨h.side, ?_, h.client, h.selfTrade, h.expiry⟩
  rcases h.params with ⟨h1, h2⟩ | ⟨h1, h2⟩ | ⟨h1, h2⟩ <;> (simp only [h1]; exact h2)

/-- The requests of a batch. -/
def multiAsked (t : PlaceOrderType) (side : Side) : Nat → List MultiArgs → List Asked
  | _, [] => []
  | i, a :: rest => ⟨side, a.priceLots, none, t, i, a.expiry, .cancelProvide⟩ :: multiAsked t side (i + 1) rest

theorem multiAsked_eq (t : PlaceOrderType) (side : Side) (as : List MultiArgs) (i : Nat) :
    multiAsked t side i as = as.mapIdx (fun j a => ⟨side, a.priceLots, none, t, i + j, a.expiry, .cancelProvide⟩) := by
  induction as generalizing i with
  | nil => rfl
  | cons a as ih =>
    rw [multiAsked, ih, List.mapIdx_cons]
    congr 1
    congr 1
    funext j a
    rw [show i + 1 + j = i + (j + 1) by omega]

theorem asked_multi (c : MultiCtx) (cancel : Bool) (t : PlaceOrderType) (bids asks : List MultiArgs) (limit : Nat) :
    asked (.placeOrders c cancel t bids asks limit) = multiAsked t .bid 0 bids ++ multiAsked t .ask bids.length asks := by
  rw [multiAsked_eq, multiAsked_eq]
  show _ ++ _ = _ ++ _
  simp only [Nat.zero_add]

/-- The order made from a request. -/
structure Made (now : Nat) (q : Asked) (o : Order) : Prop where
  side : o.side = q.side
  params : orderParams q.type q.price = .ok o.params
  peg : q.pegLimit = none
  client : o.clientOrderId = q.client
  stb : o.selfTradeBehavior = q.selfTrade
  expiry : (q.expiry = 0 ∧ o.timeInForce = 0) ∨ (now < q.expiry ∧ o.timeInForce = min (q.expiry - now) 65535)

inductive MadeAll (now : Nat) : List Asked → List Order → Prop
  | nil : MadeAll now [] []
  | cons (q : Asked) (o : Order) (qs : List Asked) (os : List Order) (h : Made now q o) (hs : MadeAll now qs os) :
      MadeAll now (q :: qs) (o :: os)

theorem MadeAll.append {now : Nat} {qs qs' : List Asked} {os os' : List Order} (h : MadeAll now qs os) (h' : MadeAll now qs' os') :
    MadeAll now (qs ++ qs') (os ++ os') := by
  induction h with
  | nil => exact h'
  | cons q o qs os h _ ih => exact .cons _ _ _ _ h ih

theorem multiOrders_made {t : PlaceOrderType} {now : Nat} {side : Side} {i : Nat} {as : List MultiArgs} {os : List Order}
    (h : multiOrders t now side i as = .ok os) : MadeAll now ((multiAsked t side i as).filter (Asked.ahead now)) os := by
  induction as generalizing i os with
  | nil => cases h; exact .nil
  | cons a as ih =>
    simp only [multiOrders, bind_ok, req_ok] at h
    obtain ⟨_, ht, _, _, h⟩ := h
    split at h
    · rename_i hn
      have hx := tif_none hn
      rw [multiAsked, List.filter_cons_of_neg (by unfold Asked.ahead; rw [decide_eq_true_eq]; simp only; omega)]
      exact ih h
    · rename_i tif hn
      have hx := tif_cases hn
      simp only [bind_ok, pure_ok] at h
      obtain ⟨p, hp, os', hos, rfl⟩ := h
      rw [multiAsked, List.filter_cons_of_pos (by unfold Asked.ahead; rw [decide_eq_true_eq]; simp only; omega)]
      exact .cons _ _ _ _ ⟨rfl, hp, rfl, rfl, rfl, hx⟩ (ih hos)

theorem MultiTrace.each {c : MultiCtx} {nowTs limit : Nat} {os : List Order} {cs : List (Env × OrderResult)} {qs : List Asked}
    (h : MultiTrace c nowTs limit os cs) (hm : MadeAll nowTs qs os) : Each qs cs := by
  induction h generalizing qs with
  | nil => cases hm; exact .nil
  | cons o o' r os cs side params quote rest h ih =>
    cases hm with
    | cons q _ qs _ hq hs =>
      refine .cons _ _ _ _ ⟨side.trans hq.side, ?_, rest.2.1.trans hq.client, rest.1.trans hq.stb, ?_⟩ (ih hs)
      · have hp := hq.params
        have e : (multiEnv c o' nowTs limit).order.params = o.params := params
        rw [hq.peg, e]
        unfold orderParams at hp
        cases hty : q.type <;> rw [hty] at hp <;> simp only [PlaceOrderType.toPost, ok_bind] at hp <;> injection hp with hp <;> exact hp.symm
      · have e : (multiEnv c o' nowTs limit).order.timeInForce = o.timeInForce := rest.2.2
        rw [e]
        exact hq.expiry


/-- `PlaceRun.placement` with the request. -/
theorem PlaceRun.serves {s s' : State} {c : PlaceCtx} {o : Order} {limit : Nat} {r : OrderResult} {op : Op} {q : Asked} {now : Nat}
    (P : PlaceRun s c o limit r s') (hr : Reachable s) (ho : OrderTyped o) (ha : asked op = [q]) (hn : nowU64 c.now = .ok now)
    (hf : Follows q (placeEnv c o now limit)) :
    ∃ s1 cs g1, Placement s s1 s' { signer := c.signer, owner := c.ooKey, hasOO := true, admin := c.admin, now := c.now, oracle := c.oracle }
      cs g1 ∧ Serves op c.now cs := by
  refine ⟨s, _, _, P.placement hr ho, ?_⟩
  have e : P.nowTs = now := by
    have h1 := P.now
    rw [hn] at h1
    injection h1 with h1
    exact h1.symm
  have e2 : c.now = ((placeEnv c o P.nowTs limit).nowTs : Int) := (nowU64_eq P.now).1.symm
  rw [show Serves op c.now = Serves op ((placeEnv c o P.nowTs limit).nowTs : Int) by rw [← e2]]
  exact Serves.one (x := (placeEnv c o P.nowTs limit, r)) ha (by rw [e]; exact hf)

theorem EditRun.serves {s s' : State} {c : PlaceCtx} {client : Nat} {e : Int} {o : Order} {limit : Nat} {r : Option OrderResult} {op : Op}
    {q : Asked} {now : Nat} (P : EditRun s c client e o limit r s') (hr : Reachable s) (ho : OrderTyped o) (hop : edits op = true)
    (ha : asked op = [q]) (hn : nowU64 c.now = .ok now) (hf : ∀ mb, Follows q (placeEnv c { o with maxBaseLots := mb } now limit)) :
    ∃ s1 cs g1, Placement s s1 s' { signer := c.signer, owner := c.ooKey, hasOO := true, admin := c.admin, now := c.now, oracle := c.oracle }
      cs g1 ∧ Serves op c.now cs := by
  have had := (authPlace_ok P.auth).choose_spec.2.2.2.2
  obtain ⟨qty, s1, h1, _, h⟩ := P.run
  have hs := cancelByClient_step h1
  obtain ⟨hau, hcl, ls, hc⟩ := step_cancelByClient hr hs
  rcases h with ⟨e1, e2, r1, rfl, h4⟩ | ⟨_, _, rfl⟩
  · obtain ⟨P⟩ := placeOrder_inv h4
    have hr1 : Reachable s1 := .step _ _ _ hr hs
    have Q := P.placement hr1 (ho.less e1)
    refine ⟨s1, _, _, ⟨.inr ⟨rfl, .inl ⟨_, hs⟩⟩, Q.calls, Q.heap, Q.seq, Q.ctx, fun h => by rw [← hc.market]; exact Q.live h, hcl,
      fun _ => hau, had, Q.pays.after hc.tokens hc.market⟩, ?_⟩
    have e : P.nowTs = now := by
      have h1 := P.now
      rw [hn] at h1
      injection h1 with h1
      exact h1.symm
    have e2 : c.now = ((P.nowTs : Nat) : Int) := (nowU64_eq P.now).1.symm
    rw [e2]
    exact Serves.one (x := (placeEnv c { o with maxBaseLots := o.maxBaseLots - (_ - qty) } P.nowTs limit, r1)) ha (by rw [e]; exact hf _)
  · exact ⟨s', [], s'.g, ⟨.inr ⟨rfl, .inl ⟨_, hs⟩⟩, .nil _ _, rfl, rfl, fun _ h => (by cases h), fun h => absurd rfl h, hcl, fun _ => hau,
      had, paid_nil (reachable_Inv (.step _ _ _ hr hs)) (fun _ => ⟨_, hc.acct.choose_spec.choose_spec.2.1⟩) hc.tokens⟩, .inr ⟨hop, rfl⟩⟩

/-- Every placing instruction gives the engine exactly what its arguments ask for. -/
theorem placement_serves {s s' : State} {op : Op} (hr : Reachable s) (h : step s op = .ok s') {p : Placer} (hp : placer op = some p) :
    ∃ s1 cs g1, Placement s s1 s' p cs g1 ∧ Serves op p.now cs := by
  have hst := h
  cases op with
  | placeOrder c a =>
    injection hp with hp; subst hp
    simp only [step, bind_ok, pure_ok, placeOrderIx] at h
    obtain ⟨⟨r, s1⟩, ⟨now, hn, o, ho, h⟩, rfl⟩ := h
    cases o with
    | none =>
      simp only [bind_ok, pure_ok] at h
      obtain ⟨_, ha, h⟩ := h
      injection h with _ e2
      subst e2
      refine ⟨_, _, _, idle_placement hr ha, Serves.late rfl ?_⟩
      rcases PlaceOrderArgs.order_cases ho with ⟨_, h1, h2⟩ | ⟨_, _, _, _, h⟩
      · have := (nowU64_eq hn).1; exact ⟨h1, by simp only; omega⟩
      · cases h
    | some o =>
      simp only [bind_ok, pure_ok] at h
      obtain ⟨⟨r1, s2⟩, h, h'⟩ := h
      injection h' with _ h'
      subst h'
      obtain ⟨P⟩ := placeOrder_inv h
      exact P.serves hr (PlaceOrderArgs.order_typed ho) rfl hn (follows_fixed (mb := o.maxBaseLots) hn ho)
  | placeOrderPegged c a =>
    injection hp with hp; subst hp
    simp only [step, bind_ok, pure_ok, placeOrderPeggedIx] at h
    obtain ⟨⟨r, s1⟩, ⟨now, hn, o, ho, h⟩, rfl⟩ := h
    cases o with
    | none =>
      simp only [bind_ok, pure_ok] at h
      obtain ⟨_, ha, h⟩ := h
      injection h with _ e2
      subst e2
      refine ⟨_, _, _, idle_placement hr ha, Serves.late rfl ?_⟩
      rcases (PlaceOrderPeggedArgs.order_cases ho).2 with ⟨_, h1, h2⟩ | ⟨_, _, _, _, h⟩
      · have := (nowU64_eq hn).1; exact ⟨h1, by simp only; omega⟩
      · cases h
    | some o =>
      simp only [bind_ok, pure_ok] at h
      obtain ⟨⟨r1, s2⟩, h, h'⟩ := h
      injection h' with _ h'
      subst h'
      obtain ⟨P⟩ := placeOrder_inv h
      exact P.serves hr (PlaceOrderPeggedArgs.order_typed ho) rfl hn (follows_pegged (mb := o.maxBaseLots) hn ho)
  | editOrder c client e a =>
    injection hp with hp; subst hp
    simp only [step, bind_ok, pure_ok, editOrderIx] at h
    obtain ⟨⟨r, s1⟩, ⟨now, hn, o, ho, h⟩, rfl⟩ := h
    cases o with
    | none =>
      simp only [bind_ok, pure_ok] at h
      obtain ⟨_, ha, h⟩ := h
      injection h with _ e2
      subst e2
      exact ⟨_, _, _, idle_placement hr ha, .inr ⟨rfl, rfl⟩⟩
    | some o => exact (editOrder_inv h).serves hr (PlaceOrderArgs.order_typed ho) rfl rfl hn (fun mb => follows_fixed hn ho)
  | editOrderPegged c client e a =>
    injection hp with hp; subst hp
    simp only [step, bind_ok, pure_ok, editOrderPeggedIx] at h
    obtain ⟨⟨r, s1⟩, ⟨now, hn, o, ho, h⟩, rfl⟩ := h
    cases o with
    | none =>
      simp only [bind_ok, pure_ok] at h
      obtain ⟨_, ha, h⟩ := h
      injection h with _ e2
      subst e2
      exact ⟨_, _, _, idle_placement hr ha, .inr ⟨rfl, rfl⟩⟩
    | some o => exact (editOrder_inv h).serves hr (PlaceOrderPeggedArgs.order_typed ho) rfl rfl hn (fun mb => follows_pegged hn ho)
  | placeTakeOrder c a =>
    cases step_run h with
    | idle _ _ h => cases h
    | place _ _ _ _ _ h => cases h
    | edit _ _ _ _ _ _ _ h => cases h
    | consume _ _ _ _ _ h => rcases h with ⟨h, _⟩ | ⟨h, _⟩ <;> cases h
    | cancel _ _ _ _ _ _ _ _ h => rcases h with ⟨h, _⟩ | ⟨h, _⟩ <;> cases h
    | deposit _ _ _ _ _ _ _ _ _ _ h => rcases h with h | h <;> cases h
    | take _ _ o r ho P =>
      injection hp with hp
      subst hp
      have hpl : Placement s s s' { signer := c.signer, owner := c.signer, hasOO := false, admin := c.admin, now := c.now, oracle := c.oracle }
          [(({ order := o, oracle := c.oracle, hasOO := false, owner := c.signer, nowTs := P.nowTs, limit := a.limit, rem := c.rem } : Env), r)] P.g1 := by
        refine ⟨.inl rfl, .cons _ _ _ _ _ _ _ _ _ (P.call hr (takeOrder_typed ho)) (.nil _ _), ?_, ?_,
          ctx_one ⟨rfl, rfl, (nowU64_eq P.now).1, rfl⟩, fun _ => P.live, P.isOpen, fun h => (by cases h), P.admin, P.paid hr (takeOrder_typed ho)⟩
        all_goals
          have ham := (P.fx (reachable_Inv hr) (takeOrder_typed ho)).amts.res
          rw [congrArg State.g P.res]
        · show P.g2.heap = _
          rw [ham]
        · show P.g2.market.seqNum = _
          rw [ham]
      refine ⟨s, _, _, hpl, ?_⟩
      have e2 : c.now = ((P.nowTs : Nat) : Int) := (nowU64_eq P.now).1.symm
      rw [show ({ signer := c.signer, owner := c.signer, hasOO := false, admin := c.admin, now := c.now, oracle := c.oracle } : Placer).now
        = ((P.nowTs : Nat) : Int) from e2]
      refine Serves.one (x := (({ order := o, oracle := c.oracle, hasOO := false, owner := c.signer, nowTs := P.nowTs, limit := a.limit, rem := c.rem } : Env), r)) rfl ?_
      unfold takeOrder at ho
      simp only [bind_ok, req_ok, pure_ok] at ho
      obtain ⟨_, _, _, _, pp, hpp, rfl⟩ := ho
      refine ⟨rfl, ?_, rfl, rfl, .inl ⟨rfl, rfl⟩⟩
      cases hty : a.orderType <;> rw [hty] at hpp <;> cases hpp <;> rfl
  | placeOrders c cancel t bids asks limit =>
    cases step_run h with
    | idle _ _ h => cases h
    | place _ _ _ _ _ h => cases h
    | edit _ _ _ _ _ _ _ h => cases h
    | consume _ _ _ _ _ h => rcases h with ⟨h, _⟩ | ⟨h, _⟩ <;> cases h
    | cancel _ _ _ _ _ _ _ _ h => rcases h with ⟨h, _⟩ | ⟨h, _⟩ <;> cases h
    | deposit _ _ _ _ _ _ _ _ _ _ h => rcases h with h | h <;> cases h
    | multi _ _ _ _ _ _ now bs as rs hn hb has P =>
      injection hp with hp
      subst hp
      have ho : ∀ o ∈ bs ++ as, OrderTyped o := fun o ho => by
        rcases List.mem_append.mp ho with h | h
        · exact (multiOrders_typed hb o h).1
        · exact (multiOrders_typed has o h).1
      obtain ⟨cs, k1, _, k3, k4, k5⟩ := multiLoop_charged (nowU64_eq P.now).2 (oracleOk_range P.oracle) (.reachable _ (P.reach hr)) ho P.loop
      obtain ⟨a, h1, h2, h3, h4, h5⟩ := authPlace_ok P.auth
      refine ⟨P.s1, cs, P.g1, ⟨?_, ?_, ?_, P.pay.seq, fun x hx => ?_, fun _ => P.live, h2, fun _ => owner_controls h1 h4, h5,
        P.paid hr (by omega) (by omega)⟩, .inl ?_⟩
      · rcases P.start_step with ⟨_, h⟩ | ⟨_, h⟩
        · exact .inl h
        · exact .inr ⟨rfl, .inr h⟩
      · rw [congrArg State.book P.res]; exact k1
      · rw [congrArg State.g P.res]
        show P.g4.heap = _
        obtain ⟨a1, hl1⟩ := lockAsk_inv P.lockB
        obtain ⟨a2, hl2⟩ := lockBid_inv P.lockQ
        have e3 : P.g3.heap = P.g1.heap := by
          have e1 := congrArg Ledger.heap hl1.res
          have e2 := congrArg Ledger.heap hl2.res
          exact e2.trans e1
        rcases addPenalty_inv P.pen with h | ⟨a, _, _, _, h⟩
        · rw [h]; exact e3
        · rw [h]; exact e3
      · obtain ⟨a1, a2, a3, a4⟩ := k3.ctx x hx
        exact ⟨a1, a2, by rw [a3]; exact (nowU64_eq P.now).1, a4⟩
      · have e : P.nowTs = now := by
          have h1 := P.now
          rw [hn] at h1
          injection h1 with h1
          exact h1.symm
        have e2 : c.now = ((now : Nat) : Int) := (nowU64_eq hn).1.symm
        rw [asked_multi, List.filter_append]
        show Each (List.filter (Asked.ahead c.now) _ ++ List.filter (Asked.ahead c.now) _) cs
        rw [e2]
        rw [e] at k3
        exact k3.each ((multiOrders_made hb).append (multiOrders_made has))
  | _ => cases hp


/-! ### Resting orders -/

theorem Spec.Each.mem {qs : List Asked} {cs : List (Env × OrderResult)} (h : Each qs cs) : ∀ x ∈ cs, ∃ q ∈ qs, Follows q x.1 := by
  induction h with
  | nil => intro x hx; cases hx
  | cons q x qs xs h _ ih =>
    intro y hy
    rcases List.mem_cons.mp hy with rfl | hy
    · exact ⟨q, by simp, h⟩
    · obtain ⟨q', h1, h2⟩ := ih y hy
      exact ⟨q', by simp [h1], h2⟩

theorem Spec.Serves.mem {op : Op} {now : Int} {cs : List (Env × OrderResult)} (h : Serves op now cs) : ∀ x ∈ cs, ∃ q ∈ asked op, Follows q x.1 := by
  intro x hx
  rcases h with h | ⟨_, rfl⟩
  · obtain ⟨q, h1, h2⟩ := h.mem x hx
    exact ⟨q, (List.mem_filter.mp h1).1, h2⟩
  · cases hx

theorem Spec.Follows.peg {q : Asked} {env : Env} (h : Follows q env) {c : Comp} (hc : env.order.postTarget = some c) :
    (c = .fixed ∧ q.pegLimit = none ∧ env.order.pegLimit = -1) ∨ (c = .pegged ∧ q.pegLimit = some env.order.pegLimit) := by
  have hp := h.params
  unfold Order.postTarget at hc
  unfold Order.pegLimit
  cases hq : q.pegLimit <;> cases hty : q.type <;> rw [hq, hty] at hp <;> simp only at hp <;> (try rw [hp] at hc) <;> simp at hc <;>
    simp [hp, hc.symm]

/-- Orders after an instruction: there before, or posted as asked for. -/
theorem step_origin {s s' : State} {op : Op} (hr : Reachable s) (h : step s op = .ok s') :
    s.g.market.seqNum ≤ s'.g.market.seqNum ∧ ∀ side c l', (side, c, l') ∈ s'.book.resting →
      (∃ l, (side, c, l) ∈ s.book.resting ∧ l' = { l with quantity := l'.quantity } ∧ l'.quantity ≤ l.quantity) ∨
      (s.g.market.seqNum < seqOf side l'.key ∧ ∃ p q, placer op = some p ∧ q ∈ asked op ∧ RestsAs q p.owner p.now side c l') := by
  cases hp : placer op with
  | none =>
    have hn := step_other hr h hp
    refine ⟨by rw [hn.seq], fun side c l' hm => .inl ⟨l', ?_, rfl, Int.le_refl _⟩⟩
    rcases hn.book with e | ⟨k, ls, hc, _⟩
    · rw [← e]; exact hm
    · exact hc.sub hm
  | some p =>
    obtain ⟨s1, cs, g1, P, hs⟩ := placement_serves hr h hp
    have hsq : s1.g.market.seqNum = s.g.market.seqNum := by
      rcases P.first hr with e | ⟨_, _, _, ls, hc⟩
      · rw [e]
      · rw [hc.market]
    have hle := (calls_origin P.calls).1
    refine ⟨by rw [P.seq, ← hsq]; exact hle, fun side c l' hm => ?_⟩
    rcases calls_posted P.calls hm with ⟨l, k1, k2, k3⟩ | ⟨x, hx, k1, k2, k3, k4, k5, k6, k7, k8, k9⟩
    · refine .inl ⟨l, ?_, k2, k3⟩
      rcases P.first hr with e | ⟨_, _, _, ls, hc⟩
      · rw [← e]; exact k1
      · exact hc.sub k1
    · obtain ⟨q, hq, hf⟩ := Serves.mem hs x hx
      obtain ⟨c1, c2, c3, c4⟩ := P.ctx x hx
      refine .inr ⟨by omega, p, q, rfl, hq, k1.trans hf.side, k4.trans c1, k8.trans hf.client, by rw [k5]; exact c3, ?_, ?_⟩
      · have he := hf.expiry
        rw [k6, ← c3]
        omega
      · rw [k7]; exact hf.peg k3

/-- Orders after several instructions. -/
theorem runs_origin {s s' : State} {ops : List Op} (hr : Reachable s) (h : Runs s ops s') :
    Reachable s' ∧ s.g.market.seqNum ≤ s'.g.market.seqNum ∧ ∀ side c l', (side, c, l') ∈ s'.book.resting →
      (∃ l, (side, c, l) ∈ s.book.resting ∧ l' = { l with quantity := l'.quantity } ∧ l'.quantity ≤ l.quantity) ∨
      s.g.market.seqNum < seqOf side l'.key := by
  induction h with
  | nil => exact ⟨hr, Nat.le_refl _, fun side c l' hm => .inl ⟨l', hm, rfl, Int.le_refl _⟩⟩
  | snoc op _ hs ih =>
    obtain ⟨i1, i2, i3⟩ := ih
    obtain ⟨k1, k2⟩ := step_origin i1 hs
    refine ⟨.step _ _ _ i1 hs, by omega, fun side c l' hm => ?_⟩
    rcases k2 side c l' hm with ⟨l, h1, h2, h3⟩ | ⟨h1, _⟩
    · rcases i3 side c l h1 with ⟨l0, j1, j2, j3⟩ | j
      · exact .inl ⟨l0, j1, by rw [h2, j2], by omega⟩
      · exact .inr (by rw [h2]; exact j)
    · exact .inr (by omega)

/-- Two orders of the same side and component with the same id are the same. -/
theorem resting_unique {book : Book} (hb : BookOk book) {s : Side} {c : Comp} {l l' : LeafNode} (h : (s, c, l) ∈ book.resting)
    (h' : (s, c, l') ∈ book.resting) (he : l'.key = l.key) : l' = l := by
  have hn := resting_ids hb
  have := List.inj_on_of_nodup_map hn h' h (by unfold restId; simp [he])
  injection this with _ this
  injection this

/-- As long as an order rests, only its quantity changes. -/
theorem runs_kept {s s' : State} {ops : List Op} (hr : Reachable s) (h : Runs s ops s') {side : Side} {c : Comp} {l l' : LeafNode}
    (hm : (side, c, l) ∈ s.book.resting) (hm' : (side, c, l') ∈ s'.book.resting) (hk : l'.key = l.key) :
    l' = { l with quantity := l'.quantity } ∧ l'.quantity ≤ l.quantity := by
  have hi := reachable_Inv hr
  rcases (runs_origin hr h).2.2 side c l' hm' with ⟨l0, h1, h2, h3⟩ | h1
  · have : l0 = l := resting_unique hi.core.bookOk hm h1 (by rw [← hk, h2])
    subst this
    exact ⟨h2, h3⟩
  · obtain ⟨_, _, _, hs⟩ := resting_ok hi.core hm
    rw [hk] at h1
    omega

theorem calls_split {book book' : Book} {g g' : Ledger} {cs : List (Env × OrderResult)} (h : Calls book g cs book' g') :
    ∀ x ∈ cs, ∃ pre post b1 g1 b2 g2, cs = pre ++ x :: post ∧ Calls book g pre b1 g1 ∧ EngineCall x.1 b1 g1 x.2 b2 g2 ∧
      Calls b2 g2 post book' g' := by
  induction h with
  | nil => intro x hx; cases hx
  | cons env r cs book book1 book' g g1 g' h hs ih =>
    intro x hx
    rcases List.mem_cons.mp hx with rfl | hx
    · exact ⟨[], cs, _, _, _, _, rfl, .nil _ _, h, hs⟩
    · obtain ⟨pre, post, b1, gg1, b2, g2, e, h1, h2, h3⟩ := ih x hx
      exact ⟨(env, r) :: pre, post, b1, gg1, b2, g2, by rw [e]; rfl, .cons _ _ _ _ _ _ _ _ _ h h1, h2, h3⟩

/-- Account and slot identify a resting order. -/
theorem slot_unique {g : Ledger} {book : Book} {dB dQ : Int} (h : Core g book dB dQ) {s s' : Side} {c c' : Comp} {l l' : LeafNode}
    (hm : (s, c, l) ∈ book.resting) (hm' : (s', c', l') ∈ book.resting) (ho : l.owner = l'.owner) (hs : l.ownerSlot = l'.ownerSlot) :
    s = s' ∧ c = c' ∧ l = l' := by
  have hl := h.linv
  have hacct : ∃ a, g.accts.get? l.owner = some a := by
    obtain ⟨O, q, hw⟩ := hl
    obtain ⟨oo, hoo⟩ := hw.mem_rest hm
    exact hw.ginv.owner _ hoo
  obtain ⟨a, ha⟩ := hacct
  obtain ⟨oo, h1, _, h2, h3, h4, _⟩ := hl.restRecord hm (a := a) ha
  obtain ⟨oo', h1', _, h2', h3', h4', _⟩ := hl.restRecord hm' (a := a) (by rw [← ho]; exact ha)
  simp only at h1 h1' h2 h2' h3 h3' h4 h4'
  rw [← hs, h1] at h1'
  injection h1' with h1'
  subst h1'
  obtain rfl : s = s' := h3.symm.trans h3'
  obtain rfl : c = c' := h4.symm.trans h4'
  exact ⟨rfl, rfl, (resting_unique h.bookOk hm hm' (h2'.symm.trans h2)).symm⟩

/-- The order that a fill names is the one it was made with. -/
theorem Spec.Fills.full {s s' : State} {op : Op} {p : Placer} {side : Side} {c : Comp} {l : LeafNode} {f : FillEvent}
    (h : Fills s s' op p side c l f) : placer op = some p ∧ ∃ s1 pre x post g1 book g book' g', Placement s s1 s' p (pre ++ x :: post) g1 ∧
      Calls s1.book s1.g pre book g ∧ EngineCall x.1 book g x.2 book' g' ∧ Calls book' g' post s'.book g1 ∧ f ∈ x.2.fills ∧
      side = x.1.order.side.invert ∧ IsFillOf x.1 book c l f := by
  obtain ⟨hp, s1, pre, x, post, g1, book, g, book', g', P, h1, h2, h3, h4, rfl, h5, h6, h7⟩ := h
  refine ⟨hp, s1, pre, x, post, g1, book, g, book', g', P, h1, h2, h3, h4, rfl, ?_⟩
  obtain ⟨C⟩ := callRun h2
  obtain ⟨v, hv, he, hi⟩ := C.fill_visit h4
  obtain ⟨_, rfl, rfl⟩ := slot_unique C.core h5 hi.resting (h6.symm.trans hi.maker.1) (h7.symm.trans hi.maker.2.1)
  exact hi

/-- The order filled by an instruction is the one that was in the book before, or it was posted by this same instruction. -/
theorem fills_order {s s' : State} {op : Op} {p : Placer} {side : Side} {c : Comp} {l : LeafNode} {f : FillEvent} (hr : Reachable s)
    (h : Fills s s' op p side c l f) {l0 : LeafNode} (hm : (side, c, l0) ∈ s.book.resting) (hk : l.key = l0.key) :
    l = { l0 with quantity := l.quantity } ∧ l.quantity ≤ l0.quantity := by
  have hi := reachable_Inv hr
  obtain ⟨hp, s1, pre, x, post, g1, book, g, book', g', P, h1, h2, h3, h4, rfl, h6⟩ := h.full
  have hsq : s1.g.market.seqNum = s.g.market.seqNum := by
    rcases P.first hr with e | ⟨_, _, _, ls, hc⟩
    · rw [e]
    · rw [hc.market]
  rcases (calls_origin h1).2 _ c l h6.resting with ⟨l1, k1, k2, k3⟩ | ⟨_, k2, _⟩
  · have hm1 : (x.1.order.side.invert, c, l1) ∈ s.book.resting := by
      rcases P.first hr with e | ⟨_, _, _, ls, hc⟩
      · rw [← e]; exact k1
      · exact hc.sub k1
    have : l1 = l0 := resting_unique hi.core.bookOk hm hm1 (by rw [← hk, k2])
    subst this
    exact ⟨k2, k3⟩
  · obtain ⟨_, _, _, hs⟩ := resting_ok hi.core hm
    rw [hk] at k2
    omega

/-- Every fill of an instruction is the fill of some resting order. -/
theorem fills_exist {s s1 s' : State} {op : Op} {p : Placer} {cs : List (Env × OrderResult)} {g1 : Ledger} (hp : placer op = some p)
    (P : Placement s s1 s' p cs g1) {x : Env × OrderResult} (hx : x ∈ cs) {f : FillEvent} (hf : f ∈ x.2.fills) :
    ∃ c l, Fills s s' op p x.1.order.side.invert c l f := by
  obtain ⟨pre, post, b1, g2, b2, g3, rfl, h1, h2, h3⟩ := calls_split P.calls x hx
  obtain ⟨C⟩ := callRun h2
  obtain ⟨v, hv, he, hi⟩ := C.fill_visit hf
  exact ⟨_, _, hp, s1, pre, x, post, g1, b1, g2, b2, g3, P, h1, h2, h3, hf, rfl, hi.resting, hi.maker.1, hi.maker.2.1⟩


/-- Where the order filled by an instruction comes from. -/
theorem fills_origin {s s' : State} {op : Op} {p : Placer} {side : Side} {c : Comp} {l : LeafNode} {f : FillEvent} (hr : Reachable s)
    (h : Fills s s' op p side c l f) :
    (∃ l0, (side, c, l0) ∈ s.book.resting ∧ l = { l0 with quantity := l.quantity } ∧ l.quantity ≤ l0.quantity) ∨
    (s.g.market.seqNum < seqOf side l.key ∧ l.owner = p.owner) := by
  obtain ⟨hp, s1, pre, x, post, g1, book, g, book', g', P, h1, h2, h3, h4, rfl, h6⟩ := h.full
  have hsq : s1.g.market.seqNum = s.g.market.seqNum := by
    rcases P.first hr with e | ⟨_, _, _, ls, hc⟩
    · rw [e]
    · rw [hc.market]
  rcases (calls_origin h1).2 _ c l h6.resting with ⟨l1, k1, k2, k3⟩ | ⟨⟨y, hy, _, _, k⟩, k2, _⟩
  · refine .inl ⟨l1, ?_, k2, k3⟩
    rcases P.first hr with e | ⟨_, _, _, ls, hc⟩
    · rw [← e]; exact k1
    · exact hc.sub k1
  · exact .inr ⟨by omega, k.trans (P.ctx y (by simp [hy])).1⟩

/-- The order filled later is the one placed earlier, with what is left of its quantity. -/
theorem fills_later {s s2 s3 : State} {ops : List Op} {op : Op} {p : Placer} {side : Side} {c : Comp} {l l' : LeafNode} {f : FillEvent}
    (hr : Reachable s) (hm : (side, c, l) ∈ s.book.resting) (h : Runs s ops s2) (hf : Fills s2 s3 op p side c l' f) (hk : l'.key = l.key) :
    l' = { l with quantity := l'.quantity } ∧ l'.quantity ≤ l.quantity := by
  obtain ⟨hr2, hle, _⟩ := runs_origin hr h
  rcases fills_origin hr2 hf with ⟨l0, h1, h2, h3⟩ | ⟨h1, _⟩
  · obtain ⟨k1, k2⟩ := runs_kept hr h hm h1 (by rw [← hk, h2])
    exact ⟨by rw [h2, k1], by omega⟩
  · obtain ⟨_, _, _, hs⟩ := resting_ok (reachable_Inv hr).core hm
    rw [hk] at h1
    omega

theorem calls_new_fills {book book' : Book} {g g' : Ledger} {cs : List (Env × OrderResult)} (h : Calls book g cs book' g') :
    ∃ E, g'.heap.events = g.heap.events ++ E ∧ ∀ f, Event.fill f ∈ E → ∃ x ∈ cs, f ∈ x.2.fills := by
  induction h with
  | nil book g => exact ⟨[], by simp, fun f h => nomatch h⟩
  | cons env r cs book book1 book' g g1 g' h hs ih =>
    obtain ⟨C⟩ := callRun h
    obtain ⟨E1, h1, _, h2⟩ := C.events
    obtain ⟨E2, h3, h4⟩ := ih
    refine ⟨E1 ++ E2, by rw [h3, h1, List.append_assoc], fun f hf => ?_⟩
    rcases List.mem_append.mp hf with hf | hf
    · rcases h2 _ hf with ⟨f', hf', he⟩ | ⟨_, _, he⟩
      · injection he with he; rw [he]; exact ⟨(env, r), by simp, hf'⟩
      · cases he
    · obtain ⟨x, hx, hxf⟩ := h4 f hf
      exact ⟨x, by simp [hx], hxf⟩

/-- A fill that an instruction puts on the queue is a fill of a resting order by that instruction. -/
theorem queued_fill {s s' : State} {op : Op} (hr : Reachable s) (h : step s op = .ok s') {f : FillEvent}
    (hf : Event.fill f ∈ s'.g.heap.events) (hn : Event.fill f ∉ s.g.heap.events) : ∃ p side c l, Fills s s' op p side c l f := by
  cases hp : placer op with
  | none => exact absurd ((step_other hr h hp).events.subset hf) hn
  | some p =>
    obtain ⟨s1, cs, g1, P⟩ := placement_full hr h hp
    obtain ⟨E, h1, h2⟩ := calls_new_fills P.calls
    have hh : s1.g.heap = s.g.heap := by
      rcases P.first hr with e | ⟨_, _, _, ls, hc⟩
      · rw [e]
      · exact hc.heap
    rw [P.heap, h1, hh] at hf
    rcases List.mem_append.mp hf with hf | hf
    · exact absurd hf hn
    · obtain ⟨x, hx, hxf⟩ := h2 f hf
      obtain ⟨c, l, hF⟩ := fills_exist hp P hx hxf
      exact ⟨p, _, c, l, hF⟩

end OB
