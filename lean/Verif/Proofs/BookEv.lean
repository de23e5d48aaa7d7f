import Verif.Proofs.Posted
import Verif.Proofs.Bridge
/-! What becomes of the orders in the book. -/
namespace OB
open Spec

theorem seqOf_newKey {side : Side} {p n : Nat} (hn : n < two64) : seqOf side (newNodeKey side p n) = n := by
  unfold seqOf
  rw [newNodeKey_mod hn]
  unfold seqPart
  cases side
  · simp only [if_true]; omega
  · simp only [reduceCtorEq, if_false]

namespace CallRun
variable {env : Env} {book book' : Book} {g g' : Ledger} {r : OrderResult}

/-- Orders dropped as expired or invalid. -/
def dropped (C : CallRun env book g r book' g') : List (Comp × LeafNode) :=
  C.tr.filterMap (fun v => match v.fate with | .drop => some (v.item.comp, v.item.leaf) | _ => none)

theorem dropped_len (C : CallRun env book g r book' g') : C.dropped.length = C.R.s.outs.length := by
  have h := congrArg List.length C.T.outs
  rw [List.length_map, List.length_map] at h
  rw [h]
  unfold dropped
  generalize C.tr = tr
  induction tr with
  | nil => rfl
  | cons v tr ih =>
    cases hf : v.fate with
    | drop =>
      rw [List.filterMap_cons_some (by rw [hf]), List.filterMap_cons_some (b := v.item.leaf) (by unfold Visit.out?; rw [hf]), List.length_cons,
        List.length_cons, ih]
    | fill q sf => rw [List.filterMap_cons_none (by rw [hf]), List.filterMap_cons_none (by unfold Visit.out?; rw [hf]), ih]
    | cancel => rw [List.filterMap_cons_none (by rw [hf]), List.filterMap_cons_none (by unfold Visit.out?; rw [hf]), ih]
    | ignore => rw [List.filterMap_cons_none (by rw [hf]), List.filterMap_cons_none (by unfold Visit.out?; rw [hf]), ih]

/-- What becomes of an opposing order; those dropped are listed. -/
theorem became' (C : CallRun env book g r book' g') {c : Comp} {l : LeafNode} (hm : (env.order.side.invert, c, l) ∈ book.resting) :
    Became env book r book' c l ∧
      ((∃ l', (env.order.side.invert, c, l') ∈ book'.resting ∧ l'.key = l.key) ∨
        (∃ f ∈ r.fills, IsFillOf env book c l f ∧ f.makerOut = true) ∨
        (l.owner = env.owner ∧ env.order.selfTradeBehavior = .cancelProvide ∧
          ∃ p, TradableAt env.nowTs env.oracle env.order.side.invert c l p) ∨ (c, l) ∈ C.dropped) := by
  by_cases hr : ∃ v, Visited C.tr c l v ∧ v.removes
  · obtain ⟨v, hv, hrm⟩ := hr
    have gone : ∀ l', (env.order.side.invert, c, l') ∈ book'.resting → l'.key ≠ l.key :=
      fun l' hl' => C.T.gone C.P.opp hv hrm (C.mem_after.mp hl')
    have hs := item_spec C.core C.P.opp (C.T.mem hv.1)
    obtain ⟨hv1, rfl, rfl⟩ := hv
    have hok := C.T.ok v hv1
    rcases hrm with hc | hd | ⟨sf, hf⟩
    · obtain ⟨h1, _, _, h2, _, h3⟩ := hok.cancel hc
      exact ⟨.cancelled _ h2 h3 (hs.valid h1) gone, .inr (.inr (.inl ⟨h2, h3, _, hs.valid h1⟩))⟩
    · refine ⟨.dropped ?_ gone, .inr (.inr (.inr ?_))⟩
      · rcases hs.invalid (hok.drop hd) with e | ⟨e1, e2⟩
        · exact .inl e
        · exact .inr ⟨_, e1, hs.price, e2⟩
      · exact List.mem_filterMap.mpr ⟨v, hv1, by rw [hd]⟩
    · obtain ⟨f, h1, h2, h3, _⟩ := C.visit_fill hv1 hf
      exact ⟨.filled _ h1 h2 (h2.out.mpr h3) gone, .inr (.inl ⟨_, h1, h2, h2.out.mpr h3⟩)⟩
  · have hr' : ∀ v, Visited C.tr c l v → ¬ v.removes := fun v hv hx => hr ⟨v, hv, hx⟩
    obtain ⟨l', hl', hcase⟩ := C.T.stays C.P.opp (mem_resting.mp hm) hr'
    have hl'' := C.mem_after.mpr hl'
    rcases hcase with ⟨rfl, _⟩ | ⟨v, hv, q, sf, hf, hne, rfl⟩
    · exact ⟨.stays hl'', .inl ⟨_, hl'', rfl⟩⟩
    · refine ⟨?_, .inl ⟨_, hl'', rfl⟩⟩
      obtain ⟨hv1, rfl, rfl⟩ := hv
      obtain ⟨f, h1, h2, h3, _⟩ := C.visit_fill hv1 hf
      refine .partly f h1 h2 ?_ (h3.symm ▸ hl'')
      cases ho : f.makerOut with
      | false => rfl
      | true => exact absurd (h3.symm.trans (h2.out.mp ho)) hne

/-- Opposing orders after the call. -/
theorem from_before (C : CallRun env book g r book' g') {c : Comp} {l' : LeafNode} (hm : (env.order.side.invert, c, l') ∈ book'.resting) :
    ∃ l, (env.order.side.invert, c, l) ∈ book.resting ∧ l' = { l with quantity := l'.quantity } ∧ 1 ≤ l'.quantity ∧
      l'.quantity ≤ l.quantity := by
  obtain ⟨l, hl, hcase⟩ := C.T.after C.P.opp (C.mem_after.mp hm)
  have hml : (env.order.side.invert, c, l) ∈ book.resting := mem_resting.mpr hl
  obtain ⟨_, _, hq, _⟩ := resting_ok C.core hml
  refine ⟨l, hml, ?_⟩
  rcases hcase with ⟨rfl, _⟩ | ⟨v, hv, q, sf, hf, hne, rfl⟩
  · exact ⟨rfl, hq, Int.le_refl _⟩
  · obtain ⟨_, _, _, _, h5, _, h6, _⟩ := (C.T.ok v hv.1).fill q sf hf
    rw [hv.2.2] at h6
    refine ⟨rfl, ?_, ?_⟩ <;> simp only [LeafNode.withQty] <;> omega

theorem ownOf (C : CallRun env book g r book' g') {c0 : Comp} (hc : C.R.target = some c0) :
    ∃ own, book'.side env.order.side = own ∧ ∃ outs, r.outs = C.R.s.outs ++ outs ∧
    PostRes env (newNodeKey env.order.side C.R.priceData (g.market.seqNum + 1)) C.R.priceLots (lockPrice env.order C.R.priceLots) C.R.qty c0
      (book.side env.order.side) C.R.g1 (sideRests env.order.side.invert C.R.opp2.orders)
      (takeB C.dB env.order.side env.hasOO r.totalBaseTakenNative)
      (takeQ C.dQ env.order.side env.hasOO r.totalQuoteTakenNative r.takerFees r.referrerAmount) g.market.seqNum own g'
      r.postedBaseNative r.postedQuoteNative r.makerFees outs := by
  obtain ⟨own, outs, _, _, hbk, h1, hP⟩ := C.P.posted c0 hc
  refine ⟨own, ?_, outs, h1, hP⟩
  refine (congrArg (fun b => Book.side b env.order.side) hbk).trans ?_
  cases env.order.side <;> rfl

/-- The new id does not occur in the book. -/
theorem fresh_id (C : CallRun env book g r book' g') {id : Nat} (hid : r.orderId = some id) {c : Comp} {l : LeafNode}
    (hm : (env.order.side, c, l) ∈ book.resting) : l.key ≠ id := by
  obtain ⟨_, _, rfl⟩ := C.target_some hid
  obtain ⟨_, _, _, hs⟩ := resting_ok C.core hm
  have hlt := C.R.seq
  intro he
  rw [he, seqOf_newKey (by unfold two64; omega)] at hs
  omega

theorem posted_exists (C : CallRun env book g r book' g') {id : Nat} (hid : r.orderId = some id) :
    ∃ c l, l.key = id ∧ PostedAt env book r book' c l C.R.priceLots := by
  obtain ⟨c, l, _, _, h1, h2, h3, _, _, _, _, _, h4⟩ := C.posted hid
  exact ⟨c, l, h2, ⟨by rw [hid, h2], h1, fun c' l' hl' => h2 ▸ C.fresh_id hid hl', h3, h4⟩⟩

/-- Orders of the own side after the call. -/
theorem own_after (C : CallRun env book g r book' g') {c : Comp} {l : LeafNode} (hm : (env.order.side, c, l) ∈ book'.resting) :
    (env.order.side, c, l) ∈ book.resting ∨ r.orderId = some l.key := by
  cases hid : r.orderId with
  | none => rw [mem_resting, C.ownSide_none hid] at hm; exact .inl (mem_resting.mpr hm)
  | some id =>
    obtain ⟨c0, hc, e⟩ := C.target_some hid
    obtain ⟨own, e1, outs, _, hP⟩ := C.ownOf hc
    obtain ⟨leaf, k1, _, _, _, _, _, _, _, hall⟩ := hP.new
    rw [mem_resting, e1] at hm
    rcases hall c l hm with ⟨_, rfl⟩ | h
    · right; rw [k1, e]
    · exact .inl (mem_resting.mpr h)

/-- Events appended. -/
theorem events (C : CallRun env book g r book' g') : ∃ E, g'.heap.events = g.heap.events ++ E ∧ E.length ≤ r.fills.length + r.outs.length ∧
    ∀ e ∈ E, (∃ f ∈ r.fills, e = .fill f) ∨ ∃ o ∈ r.outs, e = .out o := by
  obtain ⟨A, a1, a2, a3⟩ := C.P.loop.events
  have ht : C.R.g1.heap = C.R.s.g.heap := C.P.taker.heap
  cases hid : r.orderId with
  | none =>
    rcases C.R.post with ⟨_, _, _, _, _, e1, _, e2⟩ | ⟨c, _, _, _, e, _⟩
    · refine ⟨A, ?_, ?_, ?_⟩
      · rw [e2, ht]; exact a1
      · rw [e1, C.R.fills]; omega
      · rw [e1, C.R.fills]; exact a3
    · rw [hid] at e; cases e
  | some id =>
    obtain ⟨c0, hc, e⟩ := C.target_some hid
    obtain ⟨own, e1, outs, e2, hP⟩ := C.ownOf hc
    obtain ⟨E, b1, b2, b3⟩ := hP.heap
    refine ⟨A ++ E, ?_, ?_, ?_⟩
    · rw [b1, ht, a1, List.append_assoc]
    · rw [e2, C.R.fills, List.length_append, List.length_append]; omega
    · intro x hx
      rw [e2, C.R.fills]
      rcases List.mem_append.mp hx with hx | hx
      · rcases a3 x hx with h | ⟨o, ho, h⟩
        · exact .inl h
        · exact .inr ⟨o, List.mem_append_left _ ho, h⟩
      · obtain ⟨o, ho, h⟩ := b2 x hx
        exact .inr ⟨o, List.mem_append_right _ ho, h⟩

/-- Own orders removed to make room. -/
theorem room (C : CallRun env book g r book' g') : ∃ E W outs : List (Comp × LeafNode), E.length ≤ 1 ∧ W.length ≤ 1 ∧ outs = E ++ W ∧
    (∀ x ∈ E ++ W, (env.order.side, x.1, x.2) ∈ book.resting) ∧ (∀ x ∈ E, x.2.expiry < env.nowTs) ∧
    (∀ c l, (env.order.side, c, l) ∈ book.resting → (env.order.side, c, l) ∈ book'.resting ∨ (c, l) ∈ E ++ W) ∧
    r.outs.length = C.R.s.outs.length + (E ++ W).length := by
  cases hid : r.orderId with
  | none =>
    refine ⟨[], [], [], by simp, by simp, rfl, by simp, by simp, ?_, ?_⟩
    · intro c l hm; left; rw [mem_resting, C.ownSide_none hid]; exact mem_resting.mp hm
    · rcases C.R.post with ⟨_, _, _, _, _, e1, _, e2⟩ | ⟨c, _, _, _, e, _⟩
      · rw [e1]; rfl
      · rw [hid] at e; cases e
  | some id =>
    obtain ⟨c0, hc, e⟩ := C.target_some hid
    obtain ⟨own, e1, outs, e2, hP⟩ := C.ownOf hc
    obtain ⟨rm, b1, slot, hM, ho, h1, h2⟩ := hP.room
    obtain ⟨E, W, b1', rfl, hE, hW, hEx, _⟩ := hM.split
    have hlen : outs.length = (E ++ W).length := by
      have := congrArg List.length ho; simpa using this
    refine ⟨E, W, _, hE, hW, rfl, ?_, fun x hx => (hEx x hx).2, ?_, ?_⟩
    · intro x hx
      have : (env.order.side, x.1, x.2) ∈ sideRests env.order.side (book.side env.order.side).orders :=
        h1.mem_iff.mpr (List.mem_append_left _ (List.mem_map.mpr ⟨x, hx, rfl⟩))
      exact mem_resting.mpr (mem_sideRests.mp this).2
    · intro c l hm
      have : (env.order.side, c, l) ∈ sideRests env.order.side (book.side env.order.side).orders :=
        mem_sideRests.mpr ⟨rfl, mem_resting.mp hm⟩
      rcases List.mem_append.mp (h1.mem_iff.mp this) with hx | hx
      · right
        obtain ⟨x, hx, he⟩ := List.mem_map.mp hx
        injection he with _ he
        injection he with he1 he2
        rw [← he1, ← he2]; exact hx
      · left
        have := h2.mem_iff.mpr (List.mem_cons_of_mem _ hx)
        rw [mem_resting, e1]
        exact (mem_sideRests.mp this).2
    · rw [e2, List.length_append, hlen]

end CallRun

/-! ### from instructions to calls -/

theorem tif_cases {now expiry t : Nat} (h : tifFromExpiry now expiry = some t) :
    (expiry = 0 ∧ t = 0) ∨ (now < expiry ∧ t = min (expiry - now) 65535) := by
  unfold tifFromExpiry at h
  split at h
  · simp only at h
    split at h
    · cases h
    · injection h with h; right; omega
  · injection h with h; left; omega

theorem PlaceRun.heap {s s' : State} {c : PlaceCtx} {o : Order} {limit : Nat} {r : OrderResult} (P : PlaceRun s c o limit r s') :
    s'.g.heap = P.g1.heap := by
  rw [congrArg State.g P.res]
  show P.g3.heap = _
  have e2 : P.g2.heap = P.g1.heap := by
    have hl := P.lock
    cases hs : o.side with
    | bid => rw [hs] at hl; obtain ⟨a, hl⟩ := lockBid_inv hl; rw [hl.res]
    | ask => rw [hs] at hl; obtain ⟨a, hl⟩ := lockAsk_inv hl; rw [hl.res]
  rcases addPenalty_inv P.pen with h | ⟨a, _, _, _, h⟩
  · rw [h]; exact e2
  · rw [h]; exact e2

theorem tif_none {now expiry : Nat} (h : tifFromExpiry now expiry = none) : expiry ≠ 0 ∧ expiry ≤ now := by
  unfold tifFromExpiry at h
  split at h
  · simp only at h
    split at h
    · omega
    · cases h
  · cases h

theorem PlaceOrderArgs.order_cases {a : PlaceOrderArgs} {now : Nat} {o : Option Order} (h : a.order now = .ok o) :
    (o = none ∧ a.expiry ≠ 0 ∧ a.expiry ≤ now) ∨ ∃ tif p, tifFromExpiry now a.expiry = some tif ∧ orderParams a.orderType a.priceLots = .ok p ∧
      o = some { side := a.side, maxBaseLots := a.maxBaseLots, maxQuoteLotsIncludingFees := a.maxQuoteLots,
                  clientOrderId := a.clientOrderId, timeInForce := tif, selfTradeBehavior := a.stb, params := p } := by
  unfold PlaceOrderArgs.order at h
  simp only [bind_ok, req_ok] at h
  obtain ⟨_, _, _, _, h⟩ := h
  cases ht : tifFromExpiry now a.expiry with
  | none => rw [ht] at h; injection h with h; exact .inl ⟨h.symm, tif_none ht⟩
  | some tif =>
    rw [ht] at h
    simp only [bind_ok, pure_ok] at h
    obtain ⟨p, hp, h⟩ := h
    exact .inr ⟨tif, p, rfl, hp, h.symm⟩

theorem PlaceOrderPeggedArgs.order_cases {a : PlaceOrderPeggedArgs} {m : Market} {now : Nat} {o : Option Order}
    (h : a.order m now = .ok o) :
    1 ≤ a.pegLimit ∧ ((o = none ∧ a.expiry ≠ 0 ∧ a.expiry ≤ now) ∨
      ∃ tif t, tifFromExpiry now a.expiry = some tif ∧ a.orderType.toPost = .ok t ∧
      o = some { side := a.side, maxBaseLots := a.maxBaseLots, maxQuoteLotsIncludingFees := a.maxQuoteLots,
                  clientOrderId := a.clientOrderId, timeInForce := tif, selfTradeBehavior := a.stb,
                  params := .oraclePegged a.offset t a.pegLimit }) := by
  unfold PlaceOrderPeggedArgs.order at h
  simp only [bind_ok, req_ok] at h
  obtain ⟨_, _, _, _, _, hpl, h⟩ := h
  refine ⟨by omega, ?_⟩
  cases ht : tifFromExpiry now a.expiry with
  | none => rw [ht] at h; injection h with h; exact .inl ⟨h.symm, tif_none ht⟩
  | some tif =>
    rw [ht] at h
    simp only [bind_ok, pure_ok] at h
    obtain ⟨p, hp, h⟩ := h
    exact .inr ⟨tif, p, rfl, hp, h.symm⟩

theorem placesAs {c : PlaceCtx} {a : PlaceOrderArgs} {now : Nat} {o : Order} (hn : nowU64 c.now = .ok now) (ho : a.order now = .ok (some o)) :
    PlacesAs c a (placeEnv c o now a.limit) := by
  rcases PlaceOrderArgs.order_cases ho with ⟨h, _⟩ | ⟨tif, p, ht, hp, h⟩
  · cases h
  · injection h with h
    subst h
    refine ⟨rfl, rfl, rfl, ?_, rfl, rfl, tif_cases ht, ⟨rfl, rfl⟩, (nowU64_eq hn).1, rfl, rfl, rfl⟩
    unfold orderParams at hp
    cases hty : a.orderType <;> rw [hty] at hp <;> simp only [PlaceOrderType.toPost, ok_bind] at hp <;> injection hp with hp <;>
      simp [placeEnv, ← hp]

theorem placesPegAs {c : PlaceCtx} {a : PlaceOrderPeggedArgs} {m : Market} {now : Nat} {o : Order} (hn : nowU64 c.now = .ok now)
    (ho : a.order m now = .ok (some o)) : PlacesPegAs c a (placeEnv c o now a.limit) := by
  rcases (PlaceOrderPeggedArgs.order_cases ho).2 with ⟨h, _⟩ | ⟨tif, p, ht, hp, h⟩
  · cases h
  · injection h with h
    subst h
    refine ⟨rfl, rfl, rfl, ?_, rfl, rfl, tif_cases ht, ⟨rfl, rfl⟩, (nowU64_eq hn).1, rfl, rfl, rfl⟩
    cases hty : a.orderType <;> rw [hty] at hp <;> simp only [PlaceOrderType.toPost] at hp <;>
      first | cases hp; done | skip
    all_goals injection hp with hp; simp [placeEnv, ← hp]

theorem placeOrder_call {s s' : State} {c : PlaceCtx} {a : PlaceOrderArgs} (hr : Reachable s) (h : step s (.placeOrder c a) = .ok s') :
    (s' = s ∧ a.expiry ≠ 0 ∧ (a.expiry : Int) ≤ c.now) ∨
    ∃ (env : Env) (r : OrderResult) (g1 : Ledger), PlacesAs c a env ∧ EngineCall env s.book s.g r s'.book g1 ∧ s'.g.heap = g1.heap := by
  simp only [step, bind_ok, pure_ok] at h
  obtain ⟨⟨r, s1⟩, h, rfl⟩ := h
  unfold placeOrderIx at h
  simp only [bind_ok] at h
  obtain ⟨now, hn, oo, hoo, h⟩ := h
  cases oo with
  | none =>
    left
    simp only [bind_ok, pure_ok] at h
    obtain ⟨_, _, h⟩ := h
    injection h with _ h
    have := (nowU64_eq hn).1
    rcases PlaceOrderArgs.order_cases hoo with ⟨_, h1, h2⟩ | ⟨_, _, _, _, h⟩
    · exact ⟨h.symm, h1, by omega⟩
    · cases h
  | some o =>
    right
    simp only [bind_ok, pure_ok] at h
    obtain ⟨⟨r1, s2⟩, h, h'⟩ := h
    injection h' with _ h'
    subst h'
    obtain ⟨P⟩ := placeOrder_inv h
    exact ⟨_, r1, P.g1, (by
      have e : P.nowTs = now := by have := (nowU64_eq P.now).1; have := (nowU64_eq hn).1; omega
      rw [e]; exact placesAs hn hoo), P.call hr (PlaceOrderArgs.order_typed hoo), P.heap⟩

theorem placePegged_call {s s' : State} {c : PlaceCtx} {a : PlaceOrderPeggedArgs} (hr : Reachable s)
    (h : step s (.placeOrderPegged c a) = .ok s') :
    (s' = s ∧ a.expiry ≠ 0 ∧ (a.expiry : Int) ≤ c.now) ∨
    ∃ (env : Env) (r : OrderResult) (g1 : Ledger), PlacesPegAs c a env ∧ EngineCall env s.book s.g r s'.book g1 ∧ s'.g.heap = g1.heap := by
  simp only [step, bind_ok, pure_ok] at h
  obtain ⟨⟨r, s1⟩, h, rfl⟩ := h
  unfold placeOrderPeggedIx at h
  simp only [bind_ok] at h
  obtain ⟨now, hn, oo, hoo, h⟩ := h
  cases oo with
  | none =>
    left
    simp only [bind_ok, pure_ok] at h
    obtain ⟨_, _, h⟩ := h
    injection h with _ h
    have := (nowU64_eq hn).1
    rcases (PlaceOrderPeggedArgs.order_cases hoo).2 with ⟨_, h1, h2⟩ | ⟨_, _, _, _, h⟩
    · exact ⟨h.symm, h1, by omega⟩
    · cases h
  | some o =>
    right
    simp only [bind_ok, pure_ok] at h
    obtain ⟨⟨r1, s2⟩, h, h'⟩ := h
    injection h' with _ h'
    subst h'
    obtain ⟨P⟩ := placeOrder_inv h
    exact ⟨_, r1, P.g1, (by
      have e : P.nowTs = now := by have := (nowU64_eq P.now).1; have := (nowU64_eq hn).1; omega
      rw [e]; exact placesPegAs hn hoo), P.call hr (PlaceOrderPeggedArgs.order_typed hoo), P.heap⟩

end OB
