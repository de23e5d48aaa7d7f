import Verif.Proofs.Requote
import Verif.Proofs.SeqUniq
import Verif.Props.Scenario
/-!
C107  After `cancel_all_and_place_orders` an account quotes only what it just sent.
-/
namespace OB
open Spec

/-- Whatever was in the book before, every order of the account that rests after the instruction is new and is what is left of one of
the entries of the instruction. -/
theorem C107_only_new (s s' : State) (hr : Reachable s) (c : MultiCtx) (t : PlaceOrderType) (bids asks : List MultiArgs) (limit : Nat)
    (h : step s (.placeOrders c true t bids asks limit) = .ok s') (side : Side) (comp : Comp) (l : LeafNode)
    (hm : (side, comp, l) ∈ s'.book.resting) (ho : l.owner = c.ooKey) :
    (∀ comp' l0, (side, comp', l0) ∈ s.book.resting → l0.key ≠ l.key) ∧ ∃ e ∈ entries bids asks, QuoteOf t c.now e side comp l := by
  obtain ⟨h1, h2⟩ := (batch_rest hr h).1 side comp l hm ho
  refine ⟨fun comp' l0 hl0 he => ?_, h2⟩
  obtain ⟨_, _, _, hsq⟩ := resting_ok (reachable_Inv hr).core hl0
  rw [he] at hsq
  omega

/-- No order that the account had before is left, not even a part of it. -/
theorem C107_old_gone (s s' : State) (hr : Reachable s) (c : MultiCtx) (t : PlaceOrderType) (bids asks : List MultiArgs) (limit : Nat)
    (h : step s (.placeOrders c true t bids asks limit) = .ok s') (side : Side) (comp : Comp) (l : LeafNode)
    (hm : (side, comp, l) ∈ s.book.resting) (ho : l.owner = c.ooKey) :
    ∀ comp' l', (side, comp', l') ∈ s'.book.resting → l'.key ≠ l.key := by
  intro comp' l' hl' he
  obtain ⟨_, _, _, hsq⟩ := resting_ok (reachable_Inv hr).core hm
  rcases (step_origin hr h).2 side comp' l' hl' with ⟨l0, k1, k2, _⟩ | ⟨k1, _⟩
  · have hk : l0.key = l.key := by rw [← he, k2]
    obtain ⟨_, e⟩ := seq_distinct (.reachable _ hr) k1 hm (by rw [seqNo_seqOf, seqNo_seqOf, hk])
    have ho' : l'.owner = c.ooKey := by rw [k2]; show l0.owner = _; rw [e]; exact ho
    have := ((batch_rest hr h).1 side comp' l' hl' ho').1
    rw [he] at this
    omega
  · rw [he] at k1; omega

/-- Each entry leaves at most one order: the client order id, which is the position of the entry, tells them apart. -/
theorem C107_one_each (s s' : State) (hr : Reachable s) (c : MultiCtx) (t : PlaceOrderType) (bids asks : List MultiArgs) (limit : Nat)
    (h : step s (.placeOrders c true t bids asks limit) = .ok s') (x y : Side × Comp × LeafNode) (hx : x ∈ s'.book.resting)
    (hy : y ∈ s'.book.resting) (hxo : x.2.2.owner = c.ooKey) (hyo : y.2.2.owner = c.ooKey)
    (he : x.2.2.clientOrderId = y.2.2.clientOrderId) : x = y :=
  (batch_rest hr h).2 x hx y hy hxo hyo he

/-- So the account has at most as many bids as the instruction has, and at most as many asks. -/
theorem C107_count (s s' : State) (hr : Reachable s) (c : MultiCtx) (t : PlaceOrderType) (bids asks : List MultiArgs) (limit : Nat)
    (h : step s (.placeOrders c true t bids asks limit) = .ok s') :
    (quotes s' c.ooKey .bid).length ≤ bids.length ∧ (quotes s' c.ooKey .ask).length ≤ asks.length := by
  have hr' : Reachable s' := .step _ _ _ hr h
  have key : ∀ side, (quotes s' c.ooKey side).length ≤ ((entries bids asks).filter (fun e => decide (e.1 = side))).length := by
    intro side
    classical
    obtain ⟨h1, h2⟩ := quotes_matched hr h side
    have := sum_matched (f := fun x => x.2.2.clientOrderId) (k := fun e : Side × Nat × MultiArgs => e.2.1) (v := fun _ => 1) (w := fun _ => 1)
      (quotes_nodup hr' c.ooKey side) h2 (fun x hx => by
        obtain ⟨e, he, hk, _⟩ := h1 x hx
        exact ⟨e, he, hk, Int.le_refl _⟩) (fun _ _ => by decide)
    simp at this
    exact this
  obtain ⟨e1, e2⟩ := entries_side bids asks
  have l1 := congrArg List.length e1
  have l2 := congrArg List.length e2
  rw [List.length_map] at l1 l2
  have := key .bid
  have := key .ask
  omega

/-- And what its orders on a side would trade is worth at most what the entries of that side say together. -/
theorem C107_exposure (s s' : State) (hr : Reachable s) (c : MultiCtx) (t : PlaceOrderType) (bids asks : List MultiArgs) (limit : Nat)
    (h : step s (.placeOrders c true t bids asks limit) = .ok s') :
    ((quotes s' c.ooKey .bid).map worth).sum ≤ (bids.map (fun a => max a.maxQuoteLots 0)).sum ∧
    ((quotes s' c.ooKey .ask).map worth).sum ≤ (asks.map (fun a => max a.maxQuoteLots 0)).sum := by
  have hr' : Reachable s' := .step _ _ _ hr h
  have key : ∀ side, ((quotes s' c.ooKey side).map worth).sum ≤
      (((entries bids asks).filter (fun e => decide (e.1 = side))).map (fun e => max e.2.2.maxQuoteLots 0)).sum := by
    intro side
    classical
    obtain ⟨h1, h2⟩ := quotes_matched hr h side
    refine sum_matched (f := fun x => x.2.2.clientOrderId) (k := fun e : Side × Nat × MultiArgs => e.2.1) (v := worth)
      (w := fun e => max e.2.2.maxQuoteLots 0) (quotes_nodup hr' c.ooKey side) h2 (fun x hx => ?_) (fun _ _ => by omega)
    obtain ⟨e, he, hk, hq⟩ := h1 x hx
    have := hq.budget
    exact ⟨e, he, hk, by unfold worth; omega⟩
  obtain ⟨e1, e2⟩ := entries_side bids asks
  refine ⟨?_, ?_⟩
  · conv_rhs => rw [← e1, List.map_map]
    exact key .bid
  · conv_rhs => rw [← e2, List.map_map]
    exact key .ask

/-! Trader 31, who has bids and an ask in the book, requotes with two bids and an ask.  The first bid has
expired; the other and the ask are all that the account has afterwards. -/

def C107_ctx : MultiCtx := { signer := 31, ooKey := 41, admin := 0, userBase := 51, userQuote := 61, now := 1000, oracle := some 1000, rem := [] }
def C107_bids : List MultiArgs := [{ priceLots := 970, maxQuoteLots := 3000, expiry := 5 }, { priceLots := 980, maxQuoteLots := 3000, expiry := 1200 }]
def C107_asks : List MultiArgs := [{ priceLots := 1020, maxQuoteLots := 5000, expiry := 0 }]

example : ∃ s s' : State, Reachable s ∧ step s (.placeOrders C107_ctx true .limit C107_bids C107_asks 10) = .ok s' ∧
    (quotes s 41 .bid).map (fun x => (x.2.2.clientOrderId, x.2.2.quantity)) = [(2, 4), (3, 2)] ∧
    (quotes s' 41 .bid).map (fun x => (x.2.2.clientOrderId, x.2.2.key / 2 ^ 64, x.2.2.quantity, x.2.2.timeInForce)) = [(1, 980, 3, 200)] ∧
    (quotes s' 41 .ask).map (fun x => (x.2.2.clientOrderId, x.2.2.key / 2 ^ 64, x.2.2.quantity, x.2.2.timeInForce)) = [(2, 1020, 4, 0)] := by
  obtain ⟨s, s', h1, h2, h3⟩ := Scenario.step_spec (a := Scenario.args) (ops := Scenario.ops1)
    (op := .placeOrders C107_ctx true .limit C107_bids C107_asks 10)
    (p := fun s s' => decide ((quotes s 41 .bid).map (fun x => (x.2.2.clientOrderId, x.2.2.quantity)) = [(2, 4), (3, 2)] ∧
      (quotes s' 41 .bid).map (fun x => (x.2.2.clientOrderId, x.2.2.key / 2 ^ 64, x.2.2.quantity, x.2.2.timeInForce)) = [(1, 980, 3, 200)] ∧
      (quotes s' 41 .ask).map (fun x => (x.2.2.clientOrderId, x.2.2.key / 2 ^ 64, x.2.2.quantity, x.2.2.timeInForce)) = [(2, 1020, 4, 0)]))
    (by decide +kernel)
  rw [decide_eq_true_eq] at h3
  exact ⟨s, s', h1, h2, h3⟩

end OB
