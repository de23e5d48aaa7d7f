import Verif.Proofs.Cancel
import Verif.Props.Scenario
/-!
C16  Cancelling returns exactly what the order had locked.

`Cancels s s' k ls` (Spec/Cancel) says that exactly the orders `ls` left the book, that the account `k` has for each of them the
remaining base (ask), or the remaining quote at the locked price plus the maker fee rounded up (bid), moved from locked to free, and
that nothing else is different.
-/
namespace OB
open Spec

/-- `cancel_order` -/
theorem C16_cancel_order (s s' : State) (hr : Reachable s) (signer k : Pubkey) (id : Nat)
    (h : step s (.cancelOrder signer k id) = .ok s') :
    Controls s signer k ∧ ∃ x : Side × Comp × LeafNode, x ∈ s.book.resting ∧ x.2.2.key = id ∧ Cancels s s' k [x] := by
  obtain ⟨x, h1, h2, h3⟩ := cancelOrderIx_full (reachable_Inv hr) h
  exact ⟨h3, x, h2.book.mem_iff.mpr (by simp), h1, h2⟩

/-- `cancel_order_by_client_order_id` cancels every order of the account with this client order id, and only these. -/
theorem C16_cancel_by_client_id (s s' : State) (hr : Reachable s) (signer k : Pubkey) (client : Nat)
    (h : step s (.cancelByClientId signer k client) = .ok s') :
    Controls s signer k ∧ ∃ ls, Cancels s s' k ls ∧ (∀ x ∈ ls, x.2.2.clientOrderId = client) ∧
      ∀ x ∈ s'.book.resting, x.2.2.owner = k → x.2.2.clientOrderId ≠ client := by
  simp only [step, bind_ok, pure_ok] at h
  obtain ⟨⟨q, s1⟩, h, rfl⟩ := h
  obtain ⟨⟨a, ha⟩, h⟩ := cancelByClientId_inv h
  obtain ⟨h1, _, _, h2⟩ := authCancel_ok ha
  obtain ⟨ls, c1, c2, _, c3, _⟩ := cancelAllFor_full (reachable_Inv hr) (reachable_Extra hr) h
  refine ⟨owner_controls h1 h2, ls, c1, fun x hx => (c2 x hx).2.2 _ rfl, fun x hx ho hc => ?_⟩
  exact c3 (by omega) x hx ⟨ho, fun _ h => (by cases h), fun _ h => (by injection h with h; rw [← h]; exact hc)⟩

/-- `cancel_all_orders` cancels orders of the account on the given side, at most `limit`; all of them if the limit is at least the
number of orders an account can have. -/
theorem C16_cancel_all (s s' : State) (hr : Reachable s) (signer k : Pubkey) (side : Option Side) (limit : Nat)
    (h : step s (.cancelAll signer k side limit) = .ok s') :
    Controls s signer k ∧ ∃ ls, Cancels s s' k ls ∧ (∀ x ∈ ls, ∀ t, side = some t → x.1 = t) ∧ ls.length ≤ limit ∧
      (24 ≤ limit → ∀ x ∈ s'.book.resting, x.2.2.owner = k → ∃ t, side = some t ∧ x.1 ≠ t) := by
  obtain ⟨⟨a, ha⟩, q, h⟩ := cancelAll_inv h
  obtain ⟨h1, _, _, h2⟩ := authCancel_ok ha
  obtain ⟨ls, c1, c2, c3, c4, _⟩ := cancelAllFor_full (reachable_Inv hr) (reachable_Extra hr) h
  refine ⟨owner_controls h1 h2, ls, c1, fun x hx t ht => (c2 x hx).2.1 t ht, c3, fun hl x hx ho => ?_⟩
  by_contra hn
  refine c4 hl x hx ⟨ho, fun t ht => ?_, fun _ h => (by cases h)⟩
  by_contra hne
  exact hn ⟨t, ht, hne⟩

/-- `prune_orders` does the same for the close-market admin, on an expired market. -/
theorem C16_prune (s s' : State) (hr : Reachable s) (admin k : Pubkey) (now : Int) (limit : Nat)
    (h : step s (.pruneOrders admin k now limit) = .ok s') :
    (s.g.market.closeMarketAdmin ≠ 0 ∧ admin = s.g.market.closeMarketAdmin) ∧ ∃ ls, Cancels s s' k ls ∧ ls.length ≤ limit ∧
      (24 ≤ limit → ∀ x ∈ s'.book.resting, x.2.2.owner ≠ k) := by
  simp only [step, pruneOrders, bind_ok, pure_ok, req_ok] at h
  obtain ⟨_, h1, _, h2, ⟨q, s1⟩, h, rfl⟩ := h
  obtain ⟨ls, c1, c2, c3, c4, _⟩ := cancelAllFor_full (reachable_Inv hr) (reachable_Extra hr) h
  exact ⟨⟨(authClose_ok h1).2.1, (authClose_ok h1).2.2.symm⟩, ls, c1, c3, fun hl x hx ho =>
    c4 hl x hx ⟨ho, fun _ h => (by cases h), fun _ h => (by cases h)⟩⟩

/-- The bid of 4 lots at 990 (client id 2) of account 41 is cancelled: 4 * 990 * 10 quote and 7.92 → 8 fee become free. -/
example : ∃ s s' : State, Reachable s ∧ step s (.cancelByClientId 31 41 2) = .ok s' ∧ freeQuote s' 41 = freeQuote s 41 + 39600 + 8 ∧
    s'.book.resting.length + 1 = s.book.resting.length := by
  obtain ⟨s, s', h1, h2, h3⟩ := Scenario.step_spec (a := Scenario.args) (ops := Scenario.ops1) (op := .cancelByClientId 31 41 2)
    (p := fun s s' => decide (freeQuote s' 41 = freeQuote s 41 + 39600 + 8 ∧ s'.book.resting.length + 1 = s.book.resting.length))
    (by decide +kernel)
  exact ⟨s, s', h1, h2, of_decide_eq_true h3⟩

/-- The orders of account 41 on the bid side (one fixed, one pegged) are cancelled. -/
example : ∃ s s' : State, Reachable s ∧ step s (.cancelAll 31 41 (some .bid) 24) = .ok s' ∧
    s'.book.resting.length + 2 = s.book.resting.length := by
  obtain ⟨s, s', h1, h2, h3⟩ := Scenario.step_spec (a := Scenario.args) (ops := Scenario.ops1) (op := .cancelAll 31 41 (some .bid) 24)
    (p := fun s s' => decide (s'.book.resting.length + 2 = s.book.resting.length)) (by decide +kernel)
  exact ⟨s, s', h1, h2, of_decide_eq_true h3⟩

/-- An ask is cancelled by its id: the order placed first has sequence number 1 and price 1010. -/
example : ∃ s s' : State, Reachable s ∧ step s (.cancelOrder 31 41 (1010 * 2 ^ 64 + 1)) = .ok s' ∧ freeBase s' 41 = freeBase s 41 + 500 := by
  obtain ⟨s, s', h1, h2, h3⟩ := Scenario.step_spec (a := Scenario.args) (ops := Scenario.ops0) (op := .cancelOrder 31 41 (1010 * 2 ^ 64 + 1))
    (p := fun s s' => decide (freeBase s' 41 = freeBase s 41 + 500)) (by decide +kernel)
  exact ⟨s, s', h1, h2, of_decide_eq_true h3⟩

/-- After the market has expired the admin prunes. -/
example : ∃ s s' : State, Reachable s ∧ step s (.pruneOrders 2 41 3000 24) = .ok s' ∧
    s'.book.resting.length + 3 = s.book.resting.length := by
  obtain ⟨s, s', h1, h2, h3⟩ := Scenario.step_spec (a := Scenario.args) (ops := Scenario.ops0 ++ [.setMarketExpired 2 2000])
    (op := .pruneOrders 2 41 3000 24) (p := fun s s' => decide (s'.book.resting.length + 3 = s.book.resting.length)) (by decide +kernel)
  exact ⟨s, s', h1, h2, of_decide_eq_true h3⟩

end OB
