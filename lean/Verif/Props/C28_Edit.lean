import Verif.Props.C34_Expiry
import Verif.Props.C02_Budget
import Verif.Props.C16_Cancel
/-!
C28 — Editing an order never increases exposure beyond the requested size.
-/
namespace OB
open Spec

/-- The arguments of an edit: the client id of the order to replace, the size it is expected to have, and the size asked for. -/
structure EditArgs where
  owner : Pubkey
  client : Nat
  expected : Int
  size : Int

def editArgs : Op → Option EditArgs
  | .editOrder c client expected a => some ⟨c.ooKey, client, expected, a.maxBaseLots⟩
  | .editOrderPegged c client expected a => some ⟨c.ooKey, client, expected, a.maxBaseLots⟩
  | _ => none

/-- Total quantity of some resting orders. -/
def totalQty (ls : List (Side × Comp × LeafNode)) : Int := (ls.map (fun x => x.2.2.quantity)).sum

/-- From `s` to `s1` all resting orders of the account with this client id, that is `ls`, are cancelled, and nothing else. -/
def CancelsClient (s s1 : State) (k : Pubkey) (client : Nat) (ls : List (Side × Comp × LeafNode)) : Prop :=
  Cancels s s1 k ls ∧ (∀ x ∈ ls, x.2.2.clientOrderId = client) ∧
    ∀ x ∈ s1.book.resting, x.2.2.owner = k → x.2.2.clientOrderId ≠ client

/-- From `s1` to `s'` the matching engine is called once, for the order asked for by `op` but with size `size`; what it trades and
posts together is at most that size. -/
def PlacesSized (op : Op) (p : Placer) (s s1 s' : State) (size : Int) : Prop :=
  ∃ env r g1 q, Placement s s1 s' p [(env, r)] g1 ∧ asked op = [q] ∧ Follows q env ∧ env.order.maxBaseLots = size ∧
    sumQty r.fills * s1.g.market.baseLotSize + r.postedBaseNative ≤ size * s1.g.market.baseLotSize

/-- The full claim: the orders with the client id are cancelled, and an order of the requested size less what had been filled is
placed, if anything remains.  It does not hold: `C28_unfilled_not_replaced`. -/
def EditReplaces : Prop :=
  ∀ (s s' : State) (op : Op) (e : EditArgs) (p : Placer), Reachable s → step s op = .ok s' → editArgs op = some e → placer op = some p →
    (∀ q ∈ asked op, q.ahead p.now = true) →
    ∃ s1 ls, CancelsClient s s1 e.owner e.client ls ∧
      (e.expected - totalQty ls < e.size → PlacesSized op p s s1 s' (e.size - (e.expected - totalQty ls))) ∧
      (e.size ≤ e.expected - totalQty ls → s' = s1)

theorem edit_core {s s' : State} {c : PlaceCtx} {client : Nat} {x : Int} {o : Order} {limit : Nat} {r : Option OrderResult} {op : Op}
    {q : Asked} {now : Nat} (P : EditRun s c client x o limit r s') (hr : Reachable s) (ho : OrderTyped o)
    (ha : asked op = [q]) (hn : nowU64 c.now = .ok now) (hf : ∀ mb, Follows q (placeEnv c { o with maxBaseLots := mb } now limit)) :
    0 ≤ x ∧ ∃ s1 ls, CancelsClient s s1 c.ooKey client ls ∧
      ((0 < x - totalQty ls ∧ x - totalQty ls < o.maxBaseLots ∧
        PlacesSized op { signer := c.signer, owner := c.ooKey, hasOO := true, admin := c.admin, now := c.now, oracle := c.oracle }
          s s1 s' (o.maxBaseLots - (x - totalQty ls))) ∨
       (¬ (0 < x - totalQty ls ∧ x - totalQty ls < o.maxBaseLots) ∧ s' = s1)) := by
  have had := (authPlace_ok P.auth).choose_spec.2.2.2.2
  obtain ⟨qty, s1, h1, _, h⟩ := P.run
  have hs := cancelByClient_step h1
  obtain ⟨hau, hcl, _, _⟩ := step_cancelByClient hr hs
  obtain ⟨_, h1'⟩ := cancelByClientId_inv h1
  obtain ⟨ls, c1, c2, _, c3, c4⟩ := cancelAllFor_full (reachable_Inv hr) (reachable_Extra hr) h1'
  have hq : qty = totalQty ls := c4
  subst hq
  refine ⟨P.exp0, s1, ls, ⟨c1, fun x hx => (c2 x hx).2.2 _ rfl, fun x hx ho hc => ?_⟩, ?_⟩
  · exact c3 (by omega) x hx ⟨ho, fun _ h => (by cases h), fun _ h => (by injection h with h; rw [← h]; exact hc)⟩
  rcases h with ⟨e1, e2, r1, rfl, h4⟩ | ⟨hno, _, rfl⟩
  · refine .inl ⟨e1, e2, ?_⟩
    obtain ⟨P⟩ := placeOrder_inv h4
    have hr1 : Reachable s1 := .step _ _ _ hr hs
    have Q := P.placement hr1 (ho.less e1)
    have e : P.nowTs = now := by
      have h1 := P.now
      rw [hn] at h1
      injection h1 with h1
      exact h1.symm
    refine ⟨_, r1, _, q, ⟨.inr ⟨rfl, .inl ⟨_, hs⟩⟩, Q.calls, Q.heap, Q.seq, Q.ctx, fun h => by rw [← c1.market]; exact Q.live h, hcl,
      fun _ => hau, had, Q.pays.after c1.tokens c1.market⟩, ha, ?_, ?_, ?_⟩
    · rw [e]; exact hf _
    · rfl
    · have hcall := P.call hr1 (ho.less e1)
      obtain ⟨b1, _, b3, _⟩ := C03_base_budget hcall
      rw [b1] at b3
      exact b3
  · exact .inr ⟨fun h => hno ⟨h.1, h.2⟩, rfl⟩

/-- An edit whose order is already expired does nothing.  Any other edit cancels all orders with the client id, and then, if
something was filled (compared to the expected size) but less than the requested size, places an order of the requested size less
what was filled, which trades and posts at most that much; otherwise it places nothing.
Missing from the full claim: the case in which nothing was filled, see `C28_unfilled_not_replaced`. -/
theorem C28_edit_partial {s s' : State} {op : Op} {e : EditArgs} {p : Placer} (hr : Reachable s) (h : step s op = .ok s')
    (he : editArgs op = some e) (hp : placer op = some p) :
    (s' = s ∧ ∃ q, asked op = [q] ∧ q.ahead p.now = false) ∨
    (0 ≤ e.expected ∧ ∃ s1 ls, CancelsClient s s1 e.owner e.client ls ∧
      ((0 < e.expected - totalQty ls ∧ e.expected - totalQty ls < e.size ∧
        PlacesSized op p s s1 s' (e.size - (e.expected - totalQty ls))) ∨
       (¬ (0 < e.expected - totalQty ls ∧ e.expected - totalQty ls < e.size) ∧ s' = s1))) := by
  cases op with
  | editOrder c client x a =>
    injection hp with hp; subst hp
    injection he with he; subst he
    simp only [step, bind_ok, pure_ok, editOrderIx] at h
    obtain ⟨⟨r, s1⟩, ⟨now, hn, o, ho, h⟩, rfl⟩ := h
    cases o with
    | none =>
      simp only [bind_ok, pure_ok] at h
      obtain ⟨_, ha, h⟩ := h
      injection h with _ e2
      refine .inl ⟨e2.symm, _, rfl, ?_⟩
      rcases PlaceOrderArgs.order_cases ho with ⟨_, h1, h2⟩ | ⟨_, _, _, _, h⟩
      · have := (nowU64_eq hn).1
        simp only [Asked.ahead, decide_eq_false_iff_not]
        omega
      · cases h
    | some o =>
      have hs : o.maxBaseLots = a.maxBaseLots := by
        rcases PlaceOrderArgs.order_cases ho with ⟨h, _⟩ | ⟨_, _, _, _, h⟩
        · cases h
        · injection h with h; rw [h]
      have := edit_core (op := .editOrder c client x a) (editOrder_inv h) hr (PlaceOrderArgs.order_typed ho) rfl hn (fun mb => follows_fixed hn ho)
      rw [hs] at this
      exact .inr this
  | editOrderPegged c client x a =>
    injection hp with hp; subst hp
    injection he with he; subst he
    simp only [step, bind_ok, pure_ok, editOrderPeggedIx] at h
    obtain ⟨⟨r, s1⟩, ⟨now, hn, o, ho, h⟩, rfl⟩ := h
    cases o with
    | none =>
      simp only [bind_ok, pure_ok] at h
      obtain ⟨_, ha, h⟩ := h
      injection h with _ e2
      refine .inl ⟨e2.symm, _, rfl, ?_⟩
      rcases (PlaceOrderPeggedArgs.order_cases ho).2 with ⟨_, h1, h2⟩ | ⟨_, _, _, _, h⟩
      · have := (nowU64_eq hn).1
        simp only [Asked.ahead, decide_eq_false_iff_not]
        omega
      · cases h
    | some o =>
      have hs : o.maxBaseLots = a.maxBaseLots := by
        rcases (PlaceOrderPeggedArgs.order_cases ho).2 with ⟨h, _⟩ | ⟨_, _, _, _, h⟩
        · cases h
        · injection h with h; rw [h]
      have := edit_core (op := .editOrderPegged c client x a) (editOrder_inv h) hr (PlaceOrderPeggedArgs.order_typed ho) rfl hn
        (fun mb => follows_pegged hn ho)
      rw [hs] at this
      exact .inr this
  | _ => cases he

/-- Editing is cancelling and placing: the edit ends in the same state as the two instructions one after the other, `cancel_order_by_client_order_id`
and then, unless nothing was filled or nothing is left, `place_order` with the size reduced by what was filled. -/
theorem C28_two_steps {s s' : State} {c : PlaceCtx} {client : Nat} {x : Int} {a : PlaceOrderArgs} (hr : Reachable s)
    (h : step s (.editOrder c client x a) = .ok s') :
    (s' = s ∧ a.expiry ≠ 0 ∧ (a.expiry : Int) ≤ c.now) ∨
    ∃ s1 ls, step s (.cancelByClientId c.signer c.ooKey client) = .ok s1 ∧ CancelsClient s s1 c.ooKey client ls ∧
      ((0 < x - totalQty ls ∧ x - totalQty ls < a.maxBaseLots ∧
        step s1 (.placeOrder c { a with maxBaseLots := a.maxBaseLots - (x - totalQty ls) }) = .ok s') ∨
       (¬ (0 < x - totalQty ls ∧ x - totalQty ls < a.maxBaseLots) ∧ s' = s1)) := by
  simp only [step, bind_ok, pure_ok, editOrderIx] at h
  obtain ⟨⟨r, s2⟩, ⟨now, hn, o, ho, h⟩, rfl⟩ := h
  have hnow := (nowU64_eq hn).1
  cases o with
  | none =>
    simp only [bind_ok, pure_ok] at h
    obtain ⟨_, ha, h⟩ := h
    injection h with _ e2
    refine .inl ⟨e2.symm, ?_⟩
    rcases PlaceOrderArgs.order_cases ho with ⟨_, h1, h2⟩ | ⟨_, _, _, _, h⟩
    · exact ⟨h1, by omega⟩
    · cases h
  | some o =>
    have P := editOrder_inv h
    obtain ⟨q, s1, h1, _, h⟩ := P.run
    obtain ⟨_, h1'⟩ := cancelByClientId_inv h1
    obtain ⟨ls, c1, c2, _, c3, c4⟩ := cancelAllFor_full (reachable_Inv hr) (reachable_Extra hr) h1'
    have hq : q = totalQty ls := c4
    subst hq
    have hs : o.maxBaseLots = a.maxBaseLots := by
      rcases PlaceOrderArgs.order_cases ho with ⟨h, _⟩ | ⟨_, _, _, _, h⟩
      · cases h
      · injection h with h; rw [h]
    rw [hs] at h
    refine .inr ⟨s1, ls, cancelByClient_step h1, ⟨c1, fun x hx => (c2 x hx).2.2 _ rfl, fun x hx ho hc =>
      c3 (by omega) x hx ⟨ho, fun _ h => (by cases h), fun _ h => (by injection h with h; rw [← h]; exact hc)⟩⟩, ?_⟩
    rcases h with ⟨e1, e2, r1, _, h4⟩ | ⟨hno, _, e⟩
    · refine .inl ⟨e1, e2, ?_⟩
      have ho2 : ({ a with maxBaseLots := a.maxBaseLots - (x - totalQty ls) } : PlaceOrderArgs).order now =
          .ok (some { o with maxBaseLots := a.maxBaseLots - (x - totalQty ls) }) := by
        unfold PlaceOrderArgs.order at ho ⊢
        simp only [bind_ok, req_ok] at ho
        obtain ⟨_, ht, _, hp, ho⟩ := ho
        have ht2 : ({ a with maxBaseLots := a.maxBaseLots - (x - totalQty ls) } : PlaceOrderArgs).typed := by
          obtain ⟨t1, t2, t3⟩ := ht
          refine ⟨t1, ?_, t3⟩
          unfold inI64 i64Min i64Max at *
          simp only at *
          omega
        rw [req_true ht2, ok_bind, req_true hp, ok_bind]
        simp only
        cases htf : tifFromExpiry now a.expiry with
        | none => rw [htf] at ho; cases ho
        | some tif =>
          rw [htf] at ho
          simp only [bind_ok, pure_ok] at ho ⊢
          obtain ⟨p, hp, ho⟩ := ho
          injection ho with ho
          exact ⟨p, hp, by rw [← ho]⟩
      show (do return (← placeOrderIx s1 c _).2) = _
      unfold placeOrderIx
      rw [hn, ok_bind, ho2, ok_bind]
      simp only
      rw [h4]
      rfl
    · exact .inr ⟨fun h => hno ⟨h.1, h.2⟩, e⟩

namespace EditCase
open Scenario

/-- The ask of 5 lots at 1010 of which 2 are sold is replaced by one of 6 - 2 lots at 1015. -/
def editAsk : Op := .editOrder (ctx 0 .ask []) 1 5 (limitOrder .ask 1015 6 9)

theorem edit_ask_runs : stepAnd args ops1 editAsk (fun s s' => decide (
    (s.book.resting.filter (fun x => x.2.2.clientOrderId = 1)).map (fun x => (x.1, x.2.1, x.2.2.owner, x.2.2.quantity)) = [(.ask, .fixed, 41, 3)] ∧
    (s'.book.resting.filter (fun x => x.2.2.clientOrderId = 1)).length = 0 ∧
    (s'.book.resting.filter (fun x => x.2.2.clientOrderId = 9)).map (fun x => (x.1, x.2.1, x.2.2.owner, x.2.2.quantity)) = [(.ask, .fixed, 41, 4)])) = true := by
  decide +kernel

example : ∃ (s s' : State), Reachable s ∧ step s editAsk = .ok s' ∧ editArgs editAsk = some ⟨41, 1, 5, 6⟩ ∧ s' ≠ s := by
  obtain ⟨s, s', h1, h2, h3⟩ := step_spec edit_ask_runs
  rw [decide_eq_true_eq] at h3
  refine ⟨s, s', h1, h2, rfl, ?_⟩
  rintro rfl
  have h4 := h3.2.1
  have := congrArg List.length h3.1
  rw [List.length_map, h4] at this
  cases this

/-- The bid of 4 lots at 990, of which nothing is filled, is to be moved to 985. -/
def editBid : Op := .editOrder (ctx 0 .bid []) 2 4 (limitOrder .bid 985 4 9)

theorem edit_bid_runs : stepAnd args ops1 editBid (fun s s' => decide ((∀ x ∈ s.book.resting, 0 ≤ x.2.2.quantity) ∧
    (∃ x ∈ s.book.resting, x.2.2.owner = 41 ∧ x.2.2.clientOrderId = 2 ∧ x.2.2.quantity = 4) ∧
    (∀ x ∈ s'.book.resting, x ∈ s.book.resting ∧ x.2.2.clientOrderId ≠ 2) ∧ s'.g.market.seqNum = s.g.market.seqNum)) = true := by
  decide +kernel

end EditCase

/-- An order of which nothing was filled is cancelled, but not replaced: a successful edit leaves the trader without an order. -/
theorem C28_unfilled_not_replaced : ∃ (s s' : State), Reachable s ∧ step s EditCase.editBid = .ok s' ∧
    editArgs EditCase.editBid = some ⟨41, 2, 4, 4⟩ ∧ (∃ x ∈ s.book.resting, x.2.2.owner = 41 ∧ x.2.2.clientOrderId = 2 ∧ x.2.2.quantity = 4) ∧
    ∀ x ∈ s'.book.resting, x ∈ s.book.resting ∧ x.2.2.clientOrderId ≠ 2 := by
  obtain ⟨s, s', h1, h2, h3⟩ := Scenario.step_spec EditCase.edit_bid_runs
  rw [decide_eq_true_eq] at h3
  exact ⟨s, s', h1, h2, rfl, h3.2.1, h3.2.2.1⟩

theorem C28_not_EditReplaces : ¬ EditReplaces := by
  intro hall
  obtain ⟨s, s', h1, h2, h3⟩ := Scenario.step_spec EditCase.edit_bid_runs
  rw [decide_eq_true_eq] at h3
  obtain ⟨s1, ls, ⟨hc, hcl⟩, hp, _⟩ := hall s s' EditCase.editBid ⟨41, 2, 4, 4⟩ _ h1 h2 rfl rfl (by decide)
  have hpos : ∀ l : List (Side × Comp × LeafNode), (∀ x ∈ l, 0 ≤ x.2.2.quantity) → 0 ≤ totalQty l := by
    intro l
    induction l with
    | nil => intro _; exact Int.le_refl 0
    | cons x l ih =>
      intro h
      have h1 := h x (by simp)
      have h2 := ih (fun y hy => h y (by simp [hy]))
      unfold totalQty at h2 ⊢
      simp only [List.map_cons, List.sum_cons]
      omega
  have hge : 1 ≤ totalQty ls := by
    obtain ⟨x, hx, k1, k2, k3⟩ := h3.2.1
    have hx' : x ∈ ls ++ s1.book.resting := hc.book.mem_iff.mp hx
    rcases List.mem_append.mp hx' with hx' | hx'
    · obtain ⟨l1, l2, e⟩ := List.append_of_mem hx'
      have m1 := hpos l1 (fun y hy => h3.1 y (hc.book.mem_iff.mpr (by rw [e]; simp [hy])))
      have m2 := hpos l2 (fun y hy => h3.1 y (hc.book.mem_iff.mpr (by rw [e]; simp [hy])))
      rw [e]
      unfold totalQty at m1 m2 ⊢
      simp only [List.map_append, List.map_cons, List.sum_append, List.sum_cons]
      omega
    · exact absurd k2 (hcl.2 x hx' k1)
  obtain ⟨env, r, g1, q, P, _⟩ := hp (by show (4 : Int) - totalQty ls < 4; omega)
  have hsq : s1.g.market.seqNum = s.g.market.seqNum := by rw [hc.market]
  have hs := P.seq
  cases P.calls with
  | cons _ _ _ _ _ _ _ _ _ hcall hrest =>
    cases hrest
    obtain ⟨C⟩ := callRun hcall
    have := C.seq_next
    have := h3.2.2.2
    omega

end OB
