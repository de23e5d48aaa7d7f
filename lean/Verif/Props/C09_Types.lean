import Verif.Proofs.BookEv
import Verif.Props.C31_Take
/-!
C09  Market, immediate-or-cancel and fill-or-kill orders never rest.
C10  Fill-or-kill is all or nothing.
C11  The work of one placement is bounded.
C44  A resting order changes only through explained events (matching engine).

`PlacesAs`, `PlacesPegAs`, `TakesAs` tie the arguments of an instruction to the call of the matching engine.
-/
namespace OB
open Spec

section
variable {env : Env} {book book' : Book} {g g' : Ledger} {r : OrderResult}

/-- Such an order returns no id, leaves its own side of the book as it was, and every order on the other side was there before, at
least as large. -/
theorem C09_never_rests (h : EngineCall env book g r book' g') (ht : postType env.order = none) :
    r.orderId = none ∧ r.postedBaseNative = 0 ∧ r.postedQuoteNative = 0 ∧ book'.side env.order.side = book.side env.order.side ∧
    ∀ s c l', (s, c, l') ∈ book'.resting →
      ∃ l, (s, c, l) ∈ book.resting ∧ l' = { l with quantity := l'.quantity } ∧ l'.quantity ≤ l.quantity := by
  obtain ⟨C⟩ := callRun h
  have hno : r.orderId = none := by
    cases hid : r.orderId with
    | none => rfl
    | some id =>
      obtain ⟨c, l, _, hp, _⟩ := C.posted hid
      unfold Order.postTarget at hp
      unfold postType at ht
      cases hpar : env.order.params <;> rw [hpar] at hp ht <;> simp at hp ht
  have hown := C.ownSide_none hno
  obtain ⟨_, h1, h2, _⟩ := C.target_none hno
  refine ⟨hno, h1, h2, hown, ?_⟩
  intro s c l' hm
  by_cases hs : s = env.order.side
  · subst hs
    refine ⟨l', ?_, rfl, Int.le_refl _⟩
    rw [mem_resting, ← hown]; exact mem_resting.mp hm
  · have hs' : s = env.order.side.invert := by cases s <;> cases hx : env.order.side <;> simp_all [Side.invert]
    subst hs'
    obtain ⟨l, h3, h4, _, h5⟩ := C.from_before hm
    exact ⟨l, h3, h4, h5⟩

/-- `place_order` with one of these types. -/
theorem C09_place_order {s s' : State} {c : PlaceCtx} {a : PlaceOrderArgs} (hr : Reachable s) (h : step s (.placeOrder c a) = .ok s')
    (ht : a.orderType = .market ∨ a.orderType = .immediateOrCancel ∨ a.orderType = .fillOrKill) :
    ∀ sd k l', (sd, k, l') ∈ s'.book.resting →
      ∃ l, (sd, k, l) ∈ s.book.resting ∧ l' = { l with quantity := l'.quantity } ∧ l'.quantity ≤ l.quantity := by
  rcases placeOrder_call hr h with ⟨rfl, _⟩ | ⟨env, r, g1, hp, hc, _⟩
  · exact fun sd k l' hm => ⟨l', hm, rfl, Int.le_refl _⟩
  · refine (C09_never_rests hc ?_).2.2.2.2
    unfold postType
    rcases hp.params with ⟨h1, h2⟩ | ⟨h1, h2⟩ | ⟨h1, h2⟩ | ⟨h1, h2⟩ | ⟨h1, h2⟩ | ⟨h1, h2⟩ <;> rw [h2] <;> simp [h1] at ht ⊢

/-- `place_take_order`, whatever its type. -/
theorem C09_take_order {s s' : State} {c : TakeCtx} {a : PlaceOrderArgs} (hr : Reachable s) (h : step s (.placeTakeOrder c a) = .ok s') :
    ∀ sd k l', (sd, k, l') ∈ s'.book.resting →
      ∃ l, (sd, k, l) ∈ s.book.resting ∧ l' = { l with quantity := l'.quantity } ∧ l'.quantity ≤ l.quantity := by
  obtain ⟨env, r, g1, hp, hc⟩ : ∃ (env : Env) (r : OrderResult) (g1 : Ledger), TakesAs c a env ∧ EngineCall env s.book s.g r s'.book g1 := by
    cases hs : a.side with
    | bid => obtain ⟨env, r, g1, h1, h2, _⟩ := C31_take_bid hr h hs; exact ⟨env, r, g1, h1, h2⟩
    | ask => obtain ⟨env, r, g1, h1, h2, _⟩ := C31_take_ask hr h hs; exact ⟨env, r, g1, h1, h2⟩
  refine (C09_never_rests hc ?_).2.2.2.2
  unfold postType
  rcases hp.params with ⟨_, h2⟩ | ⟨_, h2⟩ | ⟨_, h2⟩ <;> rw [h2]

/-- A fill-or-kill order that succeeds has traded its whole size. -/
theorem C10_fill_or_kill (h : EngineCall env book g r book' g') {p : Int} (hf : env.order.params = .fillOrKill p) :
    sumQty r.fills = env.order.maxBaseLots := by
  obtain ⟨C⟩ := callRun h
  have h1 := (postDecision_inv C.R.decision).1 (by unfold Order.isFillOrKill; rw [hf])
  have h2 := C.P.loop.base0
  have h3 := C.sumBase
  omega

/-- `place_order`: either the whole size given in the instruction is traded, or the order had expired and nothing changed, or the
instruction fails, which leaves every account as it was. -/
theorem C10_place_order {s s' : State} {c : PlaceCtx} {a : PlaceOrderArgs} (hr : Reachable s) (h : step s (.placeOrder c a) = .ok s')
    (ht : a.orderType = .fillOrKill) :
    (s' = s ∧ a.expiry ≠ 0 ∧ (a.expiry : Int) ≤ c.now) ∨
    ∃ (env : Env) (r : OrderResult) (g1 : Ledger), PlacesAs c a env ∧ EngineCall env s.book s.g r s'.book g1 ∧ sumQty r.fills = a.maxBaseLots := by
  rcases placeOrder_call hr h with h | ⟨env, r, g1, hp, hc, _⟩
  · exact .inl h
  · right
    refine ⟨env, r, g1, hp, hc, ?_⟩
    rw [← hp.base]
    rcases hp.params with ⟨h1, h2⟩ | ⟨h1, h2⟩ | ⟨h1, h2⟩ | ⟨h1, h2⟩ | ⟨h1, h2⟩ | ⟨h1, h2⟩
    all_goals first
      | exact C10_fill_or_kill hc h2
      | (rw [h1] at ht; cases ht)

theorem C10_take_order {s s' : State} {c : TakeCtx} {a : PlaceOrderArgs} (hr : Reachable s) (h : step s (.placeTakeOrder c a) = .ok s')
    (ht : a.orderType = .fillOrKill) :
    ∃ (env : Env) (r : OrderResult) (g1 : Ledger), TakesAs c a env ∧ EngineCall env s.book s.g r s'.book g1 ∧ sumQty r.fills = a.maxBaseLots := by
  obtain ⟨env, r, g1, hp, hc⟩ : ∃ (env : Env) (r : OrderResult) (g1 : Ledger), TakesAs c a env ∧ EngineCall env s.book s.g r s'.book g1 := by
    cases hs : a.side with
    | bid => obtain ⟨env, r, g1, h1, h2, _⟩ := C31_take_bid hr h hs; exact ⟨env, r, g1, h1, h2⟩
    | ask => obtain ⟨env, r, g1, h1, h2, _⟩ := C31_take_ask hr h hs; exact ⟨env, r, g1, h1, h2⟩
  refine ⟨env, r, g1, hp, hc, ?_⟩
  rw [← hp.base]
  rcases hp.params with ⟨h1, h2⟩ | ⟨h1, h2⟩ | ⟨h1, h2⟩
  all_goals first
    | exact C10_fill_or_kill hc h2
    | (rw [h1] at ht; cases ht)

/-- At most `limit` fills; apart from orders filled, and own orders cancelled to avoid a self-trade, at most five orders disappear
from the opposing side and at most two from the own side; at most `limit + 7` events are appended to the queue. -/
theorem C11_bounded_work (h : EngineCall env book g r book' g') :
    r.fills.length ≤ env.limit ∧
    (∃ gone : List (Comp × LeafNode), gone.length ≤ 5 ∧ ∀ c l, (env.order.side.invert, c, l) ∈ book.resting →
      (∃ l', (env.order.side.invert, c, l') ∈ book'.resting ∧ l'.key = l.key) ∨
      (∃ f ∈ r.fills, IsFillOf env book c l f ∧ f.makerOut = true) ∨
      (l.owner = env.owner ∧ env.order.selfTradeBehavior = .cancelProvide ∧
        ∃ p, TradableAt env.nowTs env.oracle env.order.side.invert c l p) ∨ (c, l) ∈ gone) ∧
    (∃ old worst : List (Comp × LeafNode), old.length ≤ 1 ∧ worst.length ≤ 1 ∧ (∀ x ∈ old, expired env.nowTs x.2) ∧
      ∀ c l, (env.order.side, c, l) ∈ book.resting → (env.order.side, c, l) ∈ book'.resting ∨ (c, l) ∈ old ++ worst) ∧
    ∃ E, g'.heap.events = g.heap.events ++ E ∧ E.length ≤ env.limit + 7 := by
  obtain ⟨C⟩ := callRun h
  have h1 := C.P.loop.lim
  rw [← C.R.fills] at h1
  have h2 := C.P.loop.dropped
  obtain ⟨E, W, _, hE, hW, _, _, hEx, hall, hlen⟩ := C.room
  refine ⟨by omega, ⟨C.dropped, by rw [C.dropped_len]; omega, fun c l hm => (C.became' hm).2⟩, ⟨E, W, hE, hW, ?_, hall⟩, ?_⟩
  · intro x hx
    have := hEx x hx
    unfold LeafNode.expiry at this
    unfold expired
    have hcl := C.valid.clock
    unfold i64Max at hcl
    unfold u64MaxN at this
    split at this <;> omega
  · obtain ⟨A, a1, a2, _⟩ := C.events
    rw [List.length_append] at hlen
    exact ⟨A, a1, by omega⟩

/-- Every opposing order is unchanged, filled, cancelled by its owner's order, or removed as expired or invalid; every order of the
opposing side after the call was there before and is not larger. -/
theorem C44_opposing_orders (h : EngineCall env book g r book' g') :
    (∀ c l, (env.order.side.invert, c, l) ∈ book.resting → Became env book r book' c l) ∧
    ∀ c l', (env.order.side.invert, c, l') ∈ book'.resting →
      ∃ l, (env.order.side.invert, c, l) ∈ book.resting ∧ l' = { l with quantity := l'.quantity } ∧ 1 ≤ l'.quantity ∧
        l'.quantity ≤ l.quantity := by
  obtain ⟨C⟩ := callRun h
  exact ⟨fun c l hm => (C.became' hm).1, fun c l' hm => C.from_before hm⟩

/-- An order of the own side after the call was there before, unchanged, or is the new order, whose id is returned and which did not
occur before. -/
theorem C44_own_orders (h : EngineCall env book g r book' g') :
    (∀ c l, (env.order.side, c, l) ∈ book'.resting → (env.order.side, c, l) ∈ book.resting ∨ r.orderId = some l.key) ∧
    ∀ id, r.orderId = some id → ∃ c l p, l.key = id ∧ PostedAt env book r book' c l p := by
  obtain ⟨C⟩ := callRun h
  refine ⟨fun c l hm => C.own_after hm, fun id hid => ?_⟩
  obtain ⟨c, l, h1, h2⟩ := C.posted_exists hid
  exact ⟨c, l, _, h1, h2⟩

end

/-! A fill-or-kill bid for seven lots takes two orders; for eight lots it fails. -/
open Scenario in
example : ∃ (s : State) (r : OrderResult) (book' : Book) (g' : Ledger), EngineCall (taker 2 .bid (.fillOrKill 1015) 7 20000) s.book s.g r book' g' ∧
    decide (r.fills.map (fun f => (f.price, f.quantity, f.makerOut)) = [(1007, 2, true), (1010, 5, true)] ∧ r.orderId = none) = true :=
  call_spec (a := args) (ops := ops0) (p := fun _ r _ _ => decide (r.fills.map (fun f => (f.price, f.quantity, f.makerOut)) =
    [(1007, 2, true), (1010, 5, true)] ∧ r.orderId = none)) (by decide +kernel)

open Scenario in
example : okAnd (exec args ops0) (fun s => match newOrder (taker 2 .bid (.fillOrKill 1015) 8 20000) s.book s.g with
    | .error e => decide (e = .wouldExecutePartially)
    | .ok _ => false) = true := by decide +kernel

/-! An order that drops an expired one, fills one and rests. -/
open Scenario in
example : ∃ (s : State) (r : OrderResult) (book' : Book) (g' : Ledger), EngineCall (taker 2 .bid (.fixed 250 .limit) 4 2000) s.book s.g r book' g' ∧
    decide (r.fills.length = 2 ∧ r.outs.length = 1 ∧ r.orderId.isSome ∧ g'.heap.events.length = 3) = true :=
  call_spec (a := args) (ops := [.createOO 41 31 0, .createOO 42 32 0, .createOO 43 33 0,
   placePegged 0 .ask (-900) 50 2 1, placePegged 0 .ask (-800) 50 1 2,
   .placeOrder (ctx 1 .ask []) { limitOrder .ask 45 1 3 with expiry := 1100 }])
    (p := fun _ r _ g' => decide (r.fills.length = 2 ∧ r.outs.length = 1 ∧ r.orderId.isSome ∧ g'.heap.events.length = 3)) (by decide +kernel)

end OB
