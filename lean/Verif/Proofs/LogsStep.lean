import Verif.Proofs.Logs
import Verif.Proofs.Placing
import Verif.Spec.Wealth
/-! What the log records of an instruction say. -/
namespace OB
open Spec

theorem emits_calls {book book' : Book} {g g' : Ledger} {cs : List (Env × OrderResult)} (h : Calls book g cs book' g')
    (hh : ∃ q, HeapRep g.heap q) : ∃ ls dn, CallsLogged book g cs ls ∧ Emits g (tradesOf cs) g' ls.flatten dn := by
  induction h with
  | nil book g => obtain ⟨q, hq⟩ := hh; exact ⟨[], [], .nil _ _, .refl hq⟩
  | cons env r cs book book1 book' g g1 g' hc _ ih =>
    obtain ⟨R⟩ := newOrder_inv hc.run
    obtain ⟨L, dn, h1, h2, _⟩ := emits_order hh hc.valid.taker R
    obtain ⟨ls, dn', h3, h4⟩ := ih h2.heap
    refine ⟨L :: ls, dn ++ dn', .cons _ _ _ _ _ _ _ _ _ hc.run h1 h3, ?_⟩
    have := h2.trans h4
    rw [show tradesOf ((env, r) :: cs) = r.fills ++ tradesOf cs from rfl, List.flatten_cons]
    exact this

theorem quiet_lockBid {g g' : Ledger} {k : Pubkey} {amt dep : Int} (hh : ∃ q, HeapRep g.heap q) (h : lockBid g k amt = .ok (g', dep)) :
    Quiet g g' := by
  obtain ⟨a, hl⟩ := lockBid_inv h
  rw [hl.res]
  refine quiet_of hh rfl ⟨rfl, rfl, rfl⟩ rfl rfl (set_keys hl.acct) (fun j b b' hb hb' => ?_)
  rcases set_vols hl.acct hb hb' with ⟨_, rfl, rfl⟩ | ⟨_, rfl⟩ <;> exact ⟨rfl, rfl⟩

theorem quiet_lockAsk {g g' : Ledger} {k : Pubkey} {amt dep : Int} (hh : ∃ q, HeapRep g.heap q) (h : lockAsk g k amt = .ok (g', dep)) :
    Quiet g g' := by
  obtain ⟨a, hl⟩ := lockAsk_inv h
  rw [hl.res]
  refine quiet_of hh rfl ⟨rfl, rfl, rfl⟩ rfl rfl (set_keys hl.acct) (fun j b b' hb hb' => ?_)
  rcases set_vols hl.acct hb hb' with ⟨_, rfl, rfl⟩ | ⟨_, rfl⟩ <;> exact ⟨rfl, rfl⟩

theorem quiet_penalty {g g' : Ledger} {k : Pubkey} {n : Nat} (hh : ∃ q, HeapRep g.heap q) (h : addPenalty g k n = .ok g') : Quiet g g' := by
  rcases addPenalty_inv h with rfl | ⟨a, ha, _, _, rfl⟩
  · obtain ⟨q, hq⟩ := hh; exact .refl hq
  · exact quiet_set hh ha rfl rfl

theorem quiet_cancels {s s' : State} {k : Pubkey} {ls : List (Side × Comp × LeafNode)} (hh : ∃ q, HeapRep s.g.heap q) (h : Cancels s s' k ls) :
    Quiet s.g s'.g := by
  obtain ⟨a, a', h1, h2, h3⟩ := h.acct
  refine quiet_of (by rw [h.heap]; exact hh) (by unfold queuedFills; rw [h.heap]) (by rw [h.market]; exact .refl _) (by rw [h.market]) (by rw [h.market]) ?_ ?_
  · intro j
    by_cases hj : j = k
    · subst hj; rw [h1, h2]; rfl
    · rw [h.others j hj]
  · intro j b b' hb hb'
    by_cases hj : j = k
    · subst hj
      rw [h1] at hb; rw [h2] at hb'
      injection hb with hb; injection hb' with hb'
      subst hb hb'
      exact ⟨h3.makerVolume, h3.takerVolume⟩
    · rw [h.others j hj, hb] at hb'; injection hb' with hb'; subst hb'; exact ⟨rfl, rfl⟩

theorem rep_of {s : State} (hr : Reachable s) : ∃ q, HeapRep s.g.heap q := by
  obtain ⟨O, q, hw⟩ := (reachable_Inv hr).core.linv
  exact ⟨q, hw.heap⟩

/-! ### consuming -/

theorem events_delete {g : Ledger} {q : List (Nat × Event)} {slot : Nat} {e : Event} {x : Event} {h' : EventHeap} (hq : HeapRep g.heap q)
    (he : g.heap.atSlot slot = some e) (hd : g.heap.deleteSlot slot = .ok (x, h')) :
    (∃ q', HeapRep h' q') ∧ ∃ A B, g.heap.events = A ++ e :: B ∧ h'.events = A ++ B := by
  have hm := (atSlot_some hq).mp he
  obtain ⟨A, B, hAB⟩ := List.append_of_mem hm
  subst hAB
  obtain ⟨h1, d1, d2, _⟩ := deleteSlot_spec hq
  rw [hd] at d1
  injection d1 with d1
  injection d1 with _ d1
  subst d1
  refine ⟨⟨_, d2⟩, A.map (·.2), B.map (·.2), ?_, ?_⟩
  · rw [hq.events]; simp
  · rw [d2.events]; simp

theorem emits_event {g g1 : Ledger} {slot : Nat} {e x : Event} {h' : EventHeap} (hh : ∃ q, HeapRep g.heap q) (he : g.heap.atSlot slot = some e)
    (ha : applyEvent g e = .ok g1) (hd : g1.heap.deleteSlot slot = .ok (x, h')) :
    ∃ L dn, applyEventLogs g e = .ok L ∧ totalLogs L = [] ∧ Emits g [] { g1 with heap := h' } L dn := by
  obtain ⟨q, hq⟩ := hh
  cases e with
  | fill f =>
    simp only [applyEvent, bind_ok, pure_ok, Accts.get_ok] at ha
    obtain ⟨a, ha, ⟨a', m'⟩, hx, rfl⟩ := ha
    obtain ⟨L, h1, h2, h3, ⟨l, h4, h5⟩, h6, h7, h8, h9, h10, h11, h12⟩ := emits_deliver ⟨q, hq⟩ ha hx
    obtain ⟨k1, A, B, k2, k3⟩ := events_delete hq he hd
    refine ⟨L, [f], ?_, h3, k1, by rw [h2]; rfl, by rw [h4]; exact .cons h5 .nil, ?_, h6, by rw [sumOf_one]; exact h8, h10, ?_, ?_, ?_, by simp [ha], h12⟩
    · simp only [applyEventLogs]
      rw [(Accts.get_ok).mpr ha, ok_bind, h1]
    · unfold queuedFills
      simp only
      rw [k2, k3, List.append_nil, List.filterMap_append, List.filterMap_append, List.filterMap_cons]
      exact List.perm_middle
    · intro k b b' hb hb'
      rw [(h11 k b b' hb hb').1]
      by_cases hk : f.maker = k
      · simp [sumOf, hk]
      · simp [sumOf, hk]
    · intro k b b' hb hb'
      rw [h3, (h11 k b b' hb hb').2]; simp [sumOf]
    · rw [h3, h9]; simp [sumOf]
  | out o =>
    simp only [applyEvent, bind_ok, pure_ok, Accts.get_ok] at ha
    obtain ⟨a, ha, a', hc, rfl⟩ := ha
    obtain ⟨k1, A, B, k2, k3⟩ := events_delete hq he hd
    refine ⟨[], [], rfl, rfl, quiet_of k1 ?_ (.refl _) rfl rfl (set_keys ha) (fun j b b' hb hb' => ?_)⟩
    · unfold queuedFills; simp only; rw [k2, k3]; simp
    · rcases set_vols ha hb hb' with ⟨_, rfl, rfl⟩ | ⟨_, rfl⟩
      · exact cancel_vols hc
      · exact ⟨rfl, rfl⟩

theorem emits_consume {rem : List Pubkey} {todo : List Nat} {g g' : Ledger} (hh : ∃ q, HeapRep g.heap q) (h : consumeLoop rem todo g = .ok g') :
    ∃ L dn, consumeLoopLogs rem todo g = .ok L ∧ totalLogs L = [] ∧ Emits g [] g' L dn := by
  induction todo generalizing g with
  | nil => cases h; obtain ⟨q, hq⟩ := hh; exact ⟨[], [], rfl, rfl, .refl hq⟩
  | cons slot rest ih =>
    simp only [consumeLoop, bind_ok, unwrapR_ok] at h
    obtain ⟨e, he, h⟩ := h
    unfold consumeLoopLogs
    rw [(unwrapR_ok).mpr he, ok_bind]
    split at h
    · rename_i ht
      rw [if_pos ht]
      simp only [bind_ok] at h
      obtain ⟨g1, ha, ⟨x, h'⟩, hd, h⟩ := h
      obtain ⟨L1, d1, k1, k2, k3⟩ := emits_event hh he ha hd
      obtain ⟨L2, d2, m1, m2, m3⟩ := ih k3.heap h
      refine ⟨L1 ++ L2, d1 ++ d2, ?_, by rw [totalLogs_append, k2, m2]; rfl, k3.trans m3⟩
      rw [k1, ok_bind, ha, ok_bind, hd, ok_bind]
      simp only
      rw [m1]; rfl
    · rename_i ht
      rw [if_neg ht]
      exact ih hh h

/-! ### placing -/

theorem placeLogs {s s' : State} {c : PlaceCtx} {o : Order} {limit : Nat} {r : OrderResult} (P : PlaceRun s c o limit r s') :
    placeOrderLogs s c o limit = newOrderLogs (placeEnv c o P.nowTs limit) s.book s.g := by
  unfold placeOrderLogs
  rw [P.now, ok_bind]; rfl

theorem PlaceRun.quiet {s s' : State} {c : PlaceCtx} {o : Order} {limit : Nat} {r : OrderResult} (P : PlaceRun s c o limit r s')
    (hh : ∃ q, HeapRep P.g1.heap q) : Quiet P.g1 s'.g := by
  have q1 : Quiet P.g1 P.g2 := by
    have hl := P.lock
    cases hs : o.side with
    | bid => rw [hs] at hl; exact quiet_lockBid hh hl
    | ask => rw [hs] at hl; exact quiet_lockAsk hh hl
  have q2 := q1.trans (quiet_penalty q1.heap P.pen)
  have e : s'.g = P.g3 := congrArg State.g P.res
  exact (congrArg (Quiet P.g1) e).mpr q2

theorem multi_logged {c : MultiCtx} {nowTs limit : Nat} {ub uq : Int} {os : List Order} {book book' : Book} {g g' : Ledger}
    {b q b' q' : Int} {rs : List OrderResult} (hnow : (nowTs : Int) ≤ i64Max)
    (hor : ∀ p, c.oracle = some p → i64Min ≤ p ∧ p ≤ i64Max) (hst : EngineState book g) (ho : ∀ o ∈ os, OrderTyped o)
    (hh : ∃ q, HeapRep g.heap q) (h : multiLoop c nowTs limit ub uq os book g b q = .ok (rs, book', g', b', q')) :
    ∃ cs ls, Calls book g cs book' g' ∧ cs.map (·.2) = rs ∧ MultiTrace c nowTs limit os cs ∧ b' = b + chargedBase cs ∧ q' = q + chargedQuote cs ∧
      CallsLogged book g cs ls ∧ multiLogs c nowTs limit ub uq os book g b q = .ok ls.flatten := by
  induction os generalizing book g b q rs with
  | nil => cases h; exact ⟨[], [], .nil _ _, rfl, .nil, by simp [chargedBase], by simp [chargedQuote], .nil _ _, rfl⟩
  | cons o os ih =>
    simp only [multiLoop, bind_ok] at h
    obtain ⟨o', hbo, ⟨r, book1, g1⟩, hn, cost, hcost, ⟨b1, q1⟩, hadd, ⟨rs', x⟩, hrec, h⟩ := h
    simp only [pure_ok] at h
    injection h with e1 e2
    subst e2
    obtain ⟨dB, dQ, hc⟩ := hst.core
    obtain ⟨k1, k2, k3, k4, k5, k6, k7⟩ := boundOrder_ok hc.bls hc.qls (ho o (by simp)) hbo
    have hv : CallValid (multiEnv c o' nowTs limit) g :=
      ⟨⟨⟨k1.1, k1.2⟩, ⟨k1.3, k1.4⟩, k1.5, k1.6⟩, hnow, hor, (fun h => nomatch h)⟩
    have hcall : EngineCall (multiEnv c o' nowTs limit) book g r book1 g1 := ⟨hst, hv, hn⟩
    obtain ⟨R⟩ := newOrder_inv hn
    obtain ⟨l, dn, m1, m2, _⟩ := emits_order hh hv.taker R
    obtain ⟨cs, ls, i1, i2, i3, i4, i5, i6, i7⟩ := ih (.next _ _ _ _ _ _ hst hv hn) (fun o ho' => ho o (by simp [ho'])) m2.heap hrec
    refine ⟨_, l :: ls, .cons _ _ _ _ _ _ _ _ _ hcall i1, by rw [← e1, ← i2]; rfl, .cons _ _ _ _ _ k2 k3 k4 ⟨k5, k6, k7⟩ i3, ?_, ?_,
      .cons _ _ _ _ _ _ _ _ _ hn m1 i6, ?_⟩
    rotate_left 2
    · unfold multiLogs
      rw [hbo, ok_bind]
      refine bind_to (v := (r, book1, g1)) hn ?_
      refine bind_to (v := l) m1 ?_
      refine bind_to hcost ?_
      refine bind_to hadd ?_
      simp only
      rw [i7]; rfl
    all_goals
      obtain ⟨_, _, hc2⟩ := orderCost_inv hcost
      have k2' : (multiEnv c o' nowTs limit).order.side = o.side := k2
      cases hs : o.side with
      | bid =>
        rw [hs] at hadd hc2 k2'
        simp only [bind_ok, pure_ok] at hadd
        obtain ⟨z, hz, hadd⟩ := hadd
        injection hadd with a1 a2
        obtain ⟨_, hz⟩ := addAmt_ok hz
        subst a1 a2
        simp only [chargedBase, chargedQuote, List.map_cons, List.sum_cons, k2', OrderResult.cost, reduceCtorEq, if_true, if_false] at *
        omega
      | ask =>
        rw [hs] at hadd hc2 k2'
        simp only [bind_ok, pure_ok] at hadd
        obtain ⟨z, hz, hadd⟩ := hadd
        injection hadd with a1 a2
        obtain ⟨_, hz⟩ := addAmt_ok hz
        subst a1 a2
        simp only [chargedBase, chargedQuote, List.map_cons, List.sum_cons, k2', OrderResult.cost, reduceCtorEq, if_true, if_false] at *
        omega

/-- A placing instruction writes what its calls of the matching engine write. -/
structure Logged (s s1 s' : State) (op : Op) (p : Placer) (cs : List (Env × OrderResult)) (g1 : Ledger) (ls : List (List Log)) : Prop where
  place : Placement s s1 s' p cs g1
  calls : CallsLogged s1.book s1.g cs ls
  logs : logs s op = .ok ls.flatten
  before : Quiet s.g s1.g
  after : Quiet g1 s'.g

theorem one_logged {env : Env} {book book' : Book} {g g' : Ledger} {r : OrderResult} (h : EngineCall env book g r book' g')
    (hh : ∃ q, HeapRep g.heap q) : ∃ l dn, newOrderLogs env book g = .ok l ∧ CallsLogged book g [(env, r)] [l] ∧ Emits g r.fills g' l dn := by
  obtain ⟨R⟩ := newOrder_inv h.run
  obtain ⟨l, dn, m1, m2, _⟩ := emits_order hh h.valid.taker R
  exact ⟨l, dn, m1, .cons _ _ _ _ _ _ _ _ _ h.run m1 (.nil _ _), m2⟩

theorem asks_logs {s : State} {op : Op} {c : PlaceCtx} {o : Order} {limit : Nat} (h : Asks s op c o limit) :
    logs s op = placeOrderLogs s c o limit := by
  cases h with
  | fixed c a now o hn ho => simp only [logs, hn, ok_bind, ho]
  | pegged c a now o hn ho => simp only [logs, hn, ok_bind, ho]

theorem asksEdit_logs {s : State} {op : Op} {c : PlaceCtx} {client : Nat} {e : Int} {o : Order} {limit : Nat} (h : AsksEdit s op c client e o limit) :
    logs s op = editOrderLogs s c client e o limit := by
  cases h with
  | fixed _ _ _ a now o hn ho => simp only [logs, hn, ok_bind, ho]
  | pegged _ _ _ a now o hn ho => simp only [logs, hn, ok_bind, ho]

def PlaceCtx.placer (c : PlaceCtx) : Placer :=
  { signer := c.signer, owner := c.ooKey, hasOO := true, admin := c.admin, now := c.now, oracle := c.oracle }

theorem PlaceRun.logged {s s' : State} {c : PlaceCtx} {o : Order} {limit : Nat} {r : OrderResult} (P : PlaceRun s c o limit r s')
    (hr : Reachable s) (ho : OrderTyped o) : ∃ cs g1 ls, Placement s s s' c.placer cs g1 ∧ CallsLogged s.book s.g cs ls ∧
      placeOrderLogs s c o limit = .ok ls.flatten ∧ Quiet g1 s'.g := by
  obtain ⟨l, dn, h1, h2, h3⟩ := one_logged (P.call hr ho) (rep_of hr)
  exact ⟨_, P.g1, [l], P.placement hr ho, h2, by rw [placeLogs P, h1]; simp, P.quiet h3.heap⟩

theorem idle_logged {s : State} {op : Op} {c : PlaceCtx} (hr : Reachable s) (h : authPlace s c.signer c.ooKey c.admin = .ok ())
    (hl : logs s op = .ok []) : ∃ s1 cs g1 ls, Logged s s1 s op c.placer cs g1 ls := by
  obtain ⟨q, hq⟩ := rep_of hr
  exact ⟨s, [], s.g, [], idle_placement hr h, .nil _ _, hl, .refl hq, .refl hq⟩

theorem place_logged {s s' : State} {op : Op} {c : PlaceCtx} {o : Order} {limit : Nat} {r : OrderResult} (hr : Reachable s)
    (ha : Asks s op c o limit) (P : PlaceRun s c o limit r s') : ∃ s1 cs g1 ls, Logged s s1 s' op c.placer cs g1 ls := by
  obtain ⟨cs, g1, ls, h1, h2, h3, h4⟩ := P.logged hr ha.typed
  obtain ⟨q, hq⟩ := rep_of hr
  exact ⟨s, cs, g1, ls, h1, h2, by rw [asks_logs ha, h3], .refl hq, h4⟩

theorem edit_logged {s s' : State} {op : Op} {c : PlaceCtx} {client : Nat} {e : Int} {o : Order} {limit : Nat} {r : Option OrderResult}
    (hr : Reachable s) (hop : AsksEdit s op c client e o limit) (P : EditRun s c client e o limit r s') :
    ∃ s1 cs g1 ls, Logged s s1 s' op c.placer cs g1 ls := by
  have had := (authPlace_ok P.auth).choose_spec.2.2.2.2
  obtain ⟨q, s1, h1, hx, h⟩ := P.run
  have hs := cancelByClient_step h1
  obtain ⟨ha, hcl, ls, hc⟩ := step_cancelByClient hr hs
  have hr1 : Reachable s1 := .step _ _ _ hr hs
  have hlog : logs s op = (do
      if e - q > 0 ∧ o.maxBaseLots > e - q then do
        placeOrderLogs s1 c { o with maxBaseLots := ← ckI64 (o.maxBaseLots - (e - q)) } limit
      else return []) := by
    rw [asksEdit_logs hop]
    unfold editOrderLogs
    rw [h1, ok_bind]
    simp only
    rw [ckI64_eq hx.1 hx.2, ok_bind]
  rcases h with ⟨e1, e2, r1, rfl, h4⟩ | ⟨hn, _, rfl⟩
  · obtain ⟨P⟩ := placeOrder_inv h4
    obtain ⟨cs, g1, l, k1, k2, k3, k4⟩ := P.logged hr1 (hop.typed.less e1)
    refine ⟨s1, cs, g1, l, ⟨.inr ⟨rfl, .inl ⟨_, hs⟩⟩, k1.calls, k1.heap, k1.seq, k1.ctx, fun h => by rw [← hc.market]; exact k1.live h, hcl,
      fun _ => ha, had, k1.pays.after hc.tokens hc.market⟩, k2, ?_, quiet_cancels (rep_of hr) hc, k4⟩
    rw [hlog, if_pos ⟨e1, e2⟩]
    have := hop.typed.base1
    rw [ckI64_eq (by simp only [i64Min]; omega) (by omega), ok_bind, k3]
  · obtain ⟨q', hq'⟩ := rep_of hr1
    refine ⟨s', [], s'.g, [], ⟨.inr ⟨rfl, .inl ⟨_, hs⟩⟩, .nil _ _, rfl, rfl, fun _ h => (by cases h), fun h => absurd rfl h, hcl, fun _ => ha, had,
      paid_nil (reachable_Inv (.step _ _ _ hr hs)) (fun _ => ⟨_, hc.acct.choose_spec.choose_spec.2.1⟩) hc.tokens⟩, .nil _ _, ?_,
      quiet_cancels (rep_of hr) hc, .refl hq'⟩
    rw [hlog, if_neg hn]; rfl

theorem multi_ix_logged {s s' : State} {c : MultiCtx} {cancel : Bool} {t : PlaceOrderType} {bids asks : List MultiArgs} {limit now : Nat}
    {bs as : List Order} {rs : List OrderResult} (hr : Reachable s) (hn : nowU64 c.now = .ok now) (hb : multiOrders t now .bid 0 bids = .ok bs)
    (has : multiOrders t now .ask bids.length asks = .ok as) (P : MultiRun s c cancel (bs ++ as) limit rs s') :
    ∃ s1 cs g1 ls, Logged s s1 s' (.placeOrders c cancel t bids asks limit)
      { signer := c.signer, owner := c.ooKey, hasOO := true, admin := c.admin, now := c.now, oracle := c.oracle } cs g1 ls := by
  have ho : ∀ o ∈ bs ++ as, OrderTyped o := fun o ho => by
    rcases List.mem_append.mp ho with h | h
    · exact (multiOrders_typed hb o h).1
    · exact (multiOrders_typed has o h).1
  have hr1 := P.reach hr
  obtain ⟨cs, ls, k1, _, k3, k4, k5, k6, k7⟩ := multi_logged (nowU64_eq P.now).2 (oracleOk_range P.oracle) (.reachable _ hr1) ho (rep_of hr1) P.loop
  obtain ⟨a, h1, h2, h3, h4, h5⟩ := authPlace_ok P.auth
  obtain ⟨_, _, _, k9⟩ := emits_calls k1 (rep_of hr1)
  have q1 := quiet_lockAsk k9.heap P.lockB
  have q2 := quiet_lockBid q1.heap P.lockQ
  have q3 := quiet_penalty q2.heap P.pen
  have q4 : Quiet P.g1 P.g4 := (q1.trans q2).trans q3
  refine ⟨P.s1, cs, P.g1, ls, ⟨?_, ?_, ?_, P.pay.seq, fun x hx => ?_, fun _ => P.live, h2, fun _ => owner_controls h1 h4, h5,
      P.paid hr (by omega) (by omega)⟩, k6, ?_, ?_, ?_⟩
  · rcases P.start_step with ⟨_, h⟩ | ⟨_, h⟩
    · exact .inl h
    · exact .inr ⟨rfl, .inr h⟩
  · rw [congrArg State.book P.res]; exact k1
  · rw [congrArg State.g P.res]
    show P.g4.heap = _
    obtain ⟨a1, hl1⟩ := lockAsk_inv P.lockB
    obtain ⟨a2, hl2⟩ := lockBid_inv P.lockQ
    have e3 : P.g3.heap = P.g1.heap := by
      have e1 := congrArg Ledger.heap hl1.res
      have e2 := congrArg Ledger.heap hl2.res
      exact e2.trans e1
    rcases addPenalty_inv P.pen with h | ⟨a, _, _, _, h⟩
    · rw [h]; exact e3
    · rw [h]; exact e3
  · obtain ⟨a1, a2, a3, a4⟩ := k3.ctx x hx
    exact ⟨a1, a2, by rw [a3]; exact (nowU64_eq P.now).1, a4⟩
  · have e : now = P.nowTs := by
      have := P.now
      rw [hn] at this
      injection this
    rw [← e] at k7
    simp only [logs, placeOrdersLogs, hn, ok_bind, hb, has]
    rcases P.cancelled with ⟨rfl, hs1⟩ | ⟨rfl, q, hc⟩
    · rw [hs1] at k7
      simp only [Bool.false_eq_true, if_false, ok_bind]
      exact k7
    · simp only [if_true, hc, ok_bind]
      exact k7
  · rcases P.start_step with ⟨_, h⟩ | ⟨_, h⟩
    · obtain ⟨q, hq⟩ := rep_of hr
      rw [h]; exact .refl hq
    · obtain ⟨_, _, l, hc⟩ := step_cancelAll hr h
      exact quiet_cancels (rep_of hr) hc
  · exact (congrArg (Quiet P.g1) (congrArg State.g P.res)).mpr q4

theorem take_logged {s s' : State} {c : TakeCtx} {a : PlaceOrderArgs} {o : Order} {r : OrderResult} (hr : Reachable s) (ho : takeOrder a = .ok o)
    (P : TakeRun s c o a.limit r s') : ∃ s1 cs g1 ls, Logged s s1 s' (.placeTakeOrder c a)
      { signer := c.signer, owner := c.signer, hasOO := false, admin := c.admin, now := c.now, oracle := c.oracle } cs g1 ls := by
  obtain ⟨l, dn, h1, h2, h3⟩ := one_logged (P.call hr (takeOrder_typed ho)) (rep_of hr)
  obtain ⟨q, hq⟩ := rep_of hr
  have ham := (P.fx (reachable_Inv hr) (takeOrder_typed ho)).amts.res
  refine ⟨s, _, _, [l], ⟨.inl rfl, .cons _ _ _ _ _ _ _ _ _ (P.call hr (takeOrder_typed ho)) (.nil _ _), ?_, ?_,
    ctx_one ⟨rfl, rfl, (nowU64_eq P.now).1, rfl⟩, fun _ => P.live, P.isOpen, fun h => (by cases h), P.admin, P.paid hr (takeOrder_typed ho)⟩,
    h2, ?_, .refl hq, ?_⟩
  · rw [congrArg State.g P.res]
    show P.g2.heap = _
    rw [ham]
  · rw [congrArg State.g P.res]
    show P.g2.market.seqNum = _
    rw [ham]
  · simp only [logs, takeOrderLogs, ho, ok_bind, P.now]
    rw [h1]; simp
  · refine (congrArg (Quiet P.g1) (congrArg State.g P.res)).mpr ?_
    show Quiet P.g1 P.g2
    rw [ham]
    exact quiet_of h3.heap rfl ⟨rfl, rfl, rfl⟩ rfl rfl (fun _ => rfl)
      (fun k a a' h1 h2 => by rw [h1] at h2; injection h2 with h2; subst h2; exact ⟨rfl, rfl⟩)

/-- What a placing instruction writes. -/
theorem placement_logs {s s' : State} {op : Op} (hr : Reachable s) (h : step s op = .ok s') {p : Placer} (hp : placer op = some p) :
    ∃ s1 cs g1 ls, Logged s s1 s' op p cs g1 ls := by
  cases op with
  | placeOrder c a =>
    injection hp with hp
    subst hp
    simp only [step, bind_ok, pure_ok, placeOrderIx] at h
    obtain ⟨⟨r, s1⟩, ⟨now, hn, o, ho, h⟩, rfl⟩ := h
    cases o with
    | none =>
      simp only [bind_ok, pure_ok] at h
      obtain ⟨_, ha, h⟩ := h
      injection h with _ e2
      subst e2
      exact idle_logged hr ha (by simp only [logs, hn, ok_bind, ho]; rfl)
    | some o =>
      simp only [bind_ok, pure_ok] at h
      obtain ⟨⟨r1, s2⟩, h, e⟩ := h
      injection e with _ e2
      subst e2
      obtain ⟨P⟩ := placeOrder_inv h
      exact place_logged hr (.fixed _ _ _ _ hn ho) P
  | placeOrderPegged c a =>
    injection hp with hp
    subst hp
    simp only [step, bind_ok, pure_ok, placeOrderPeggedIx] at h
    obtain ⟨⟨r, s1⟩, ⟨now, hn, o, ho, h⟩, rfl⟩ := h
    cases o with
    | none =>
      simp only [bind_ok, pure_ok] at h
      obtain ⟨_, ha, h⟩ := h
      injection h with _ e2
      subst e2
      exact idle_logged hr ha (by simp only [logs, hn, ok_bind, ho]; rfl)
    | some o =>
      simp only [bind_ok, pure_ok] at h
      obtain ⟨⟨r1, s2⟩, h, e⟩ := h
      injection e with _ e2
      subst e2
      obtain ⟨P⟩ := placeOrder_inv h
      exact place_logged hr (.pegged _ _ _ _ hn ho) P
  | editOrder c client e a =>
    injection hp with hp
    subst hp
    simp only [step, bind_ok, pure_ok, editOrderIx] at h
    obtain ⟨⟨r, s1⟩, ⟨now, hn, o, ho, h⟩, rfl⟩ := h
    cases o with
    | none =>
      simp only [bind_ok, pure_ok] at h
      obtain ⟨_, ha, h⟩ := h
      injection h with _ e2
      subst e2
      exact idle_logged hr ha (by simp only [logs, hn, ok_bind, ho]; rfl)
    | some o => exact edit_logged hr (.fixed _ _ _ _ _ _ hn ho) (editOrder_inv h)
  | editOrderPegged c client e a =>
    injection hp with hp
    subst hp
    simp only [step, bind_ok, pure_ok, editOrderPeggedIx] at h
    obtain ⟨⟨r, s1⟩, ⟨now, hn, o, ho, h⟩, rfl⟩ := h
    cases o with
    | none =>
      simp only [bind_ok, pure_ok] at h
      obtain ⟨_, ha, h⟩ := h
      injection h with _ e2
      subst e2
      exact idle_logged hr ha (by simp only [logs, hn, ok_bind, ho]; rfl)
    | some o => exact edit_logged hr (.pegged _ _ _ _ _ _ hn ho) (editOrder_inv h)
  | placeOrders c cancel t bids asks limit =>
    injection hp with hp
    subst hp
    simp only [step, bind_ok, pure_ok, placeOrdersIx, req_ok] at h
    obtain ⟨⟨r, s1⟩, ⟨_, _, now, hn, bs, hb, as, has, h⟩, rfl⟩ := h
    obtain ⟨P⟩ := cancelAllAndPlace_inv h
    exact multi_ix_logged hr hn hb has P
  | placeTakeOrder c a =>
    injection hp with hp
    subst hp
    simp only [step, bind_ok, pure_ok, placeTakeOrderIx] at h
    obtain ⟨⟨r, s1⟩, ⟨o, ho, h⟩, rfl⟩ := h
    obtain ⟨P⟩ := placeTakeOrder_inv h
    exact take_logged hr ho P
  | _ => cases hp

end OB
