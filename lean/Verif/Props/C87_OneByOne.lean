import Verif.Proofs.SplitBatch
import Verif.Props.Scenario
/-!
C87  A batch of orders does what placing its orders one at a time would do.
-/
namespace OB
open Spec

/-- `place_orders` and, with `cancel`, `cancel_all_and_place_orders`: after a batch that succeeds, the book, the events, the orders and
volumes of all accounts, and what each trader has, are what they would be if its owner had cancelled their orders (`cancel`) and then sent
the entries one at a time with `place_order`, each with all they have left.  All of these would have succeeded.

The batch is paid at its end, a single order at once.  So the batch can pay from what later orders of the batch brought in: of the `x`
base and `y` quote tokens that the owner of the single orders has in the account, the owner of the batch still has in the wallet.  And the
batch is charged one penalty if it left more events behind than it found, the single orders one for each that did. -/
theorem C87_one_by_one (s s' : State) (hr : Reachable s) (c : MultiCtx) (cancel : Bool) (t : PlaceOrderType) (bids asks : List MultiArgs)
    (limit : Nat) (h : step s (.placeOrders c cancel t bids asks limit) = .ok s') (hB : (s.tokens c.userBase).owner = c.signer)
    (hQ : (s.tokens c.userQuote).owner = c.signer) (hne : c.userBase ≠ c.userQuote)
    (hf : SupplyFits s [c.userBase, c.userQuote, s.g.market.marketBaseVault, s.g.market.marketQuoteVault])
    (hpen : owes s c.ooKey + (bids.length + asks.length) ≤ u64Max) :
    ∃ s1 s'' x y p, ((cancel = false ∧ s1 = s) ∨ (cancel = true ∧ step s (.cancelAll c.signer c.ooKey none 255) = .ok s1)) ∧
      OneByOne c t limit s1 (entries bids asks) s'' ∧ PaidFromWallet c s' s'' x y p ∧ 0 ≤ x ∧ 0 ≤ y ∧
      owes s' c.ooKey - owes s c.ooKey = min 1 (owes s'' c.ooKey - owes s c.ooKey) := by
  obtain ⟨s1, s'', x, y, p, h1, h2, h3, h4, h5, h6, _⟩ := batch_one_by_one hr h hB hQ hne hf hpen
  exact ⟨s1, s'', x, y, p, h1, h2, h3, h4, h5, h6⟩

/-- In particular the owner has the same in total, and everybody else has the same. -/
theorem C87_same_funds (s s' : State) (hr : Reachable s) (c : MultiCtx) (cancel : Bool) (t : PlaceOrderType) (bids asks : List MultiArgs)
    (limit : Nat) (h : step s (.placeOrders c cancel t bids asks limit) = .ok s') (hB : (s.tokens c.userBase).owner = c.signer)
    (hQ : (s.tokens c.userQuote).owner = c.signer) (hne : c.userBase ≠ c.userQuote)
    (hf : SupplyFits s [c.userBase, c.userQuote, s.g.market.marketBaseVault, s.g.market.marketQuoteVault])
    (hpen : owes s c.ooKey + (bids.length + asks.length) ≤ u64Max) :
    ∃ s1 s'', ((cancel = false ∧ s1 = s) ∨ (cancel = true ∧ step s (.cancelAll c.signer c.ooKey none 255) = .ok s1)) ∧
      OneByOne c t limit s1 (entries bids asks) s'' ∧
      tokens s'' c.userBase + freeBase s'' c.ooKey = tokens s' c.userBase + freeBase s' c.ooKey ∧
      tokens s'' c.userQuote + freeQuote s'' c.ooKey = tokens s' c.userQuote + freeQuote s' c.ooKey ∧
      (∀ k, k ≠ c.ooKey → freeBase s'' k = freeBase s' k ∧ freeQuote s'' k = freeQuote s' k) ∧
      ∀ k, k ≠ c.userBase → k ≠ c.userQuote → k ≠ s'.g.market.marketBaseVault → k ≠ s'.g.market.marketQuoteVault → tokens s'' k = tokens s' k := by
  obtain ⟨s1, s'', x, y, p, h1, h2, P, _, _, _, ⟨a, ha⟩, n1, n2, n3, n4⟩ := batch_one_by_one hr h hB hQ hne hf hpen
  have ho := P.own a ha
  refine ⟨s1, s'', h1, h2, ?_, ?_, fun k hk => ?_, fun k k1 k2 k3 k4 => ?_⟩
  · have := P.tokens c.userBase
    unfold moved at this
    rw [if_neg n1, if_pos rfl, if_neg n2, if_neg hne] at this
    unfold freeBase
    rw [ho, ha]
    simp only [Option.map_some, Option.getD_some]
    omega
  · have := P.tokens c.userQuote
    unfold moved at this
    rw [if_neg n3, if_neg (Ne.symm hne), if_neg n4, if_pos rfl] at this
    unfold freeQuote
    rw [ho, ha]
    simp only [Option.map_some, Option.getD_some]
    omega
  · unfold freeBase freeQuote
    rw [P.others k hk]; exact ⟨rfl, rfl⟩
  · have := P.tokens k
    unfold moved at this
    rw [if_neg k1, if_neg k2, if_neg k3, if_neg k4] at this
    omega

/-! The hypotheses are met: trader 33 sends a bid, which rests, and an ask, which trades with two bids of trader 31.  One at a time the
bid is paid from the wallet; the batch pays it from what the ask brought in. -/

def C87_ctx : MultiCtx := { signer := 33, ooKey := 43, admin := 0, userBase := 53, userQuote := 63, now := 1000, oracle := some 1000, rem := [] }
def C87_bids : List MultiArgs := [{ priceLots := 980, maxQuoteLots := 3000, expiry := 0 }, { priceLots := 970, maxQuoteLots := 3000, expiry := 5 }]
def C87_asks : List MultiArgs := [{ priceLots := 985, maxQuoteLots := 5000, expiry := 0 }]

def C87_fits (s : State) : Bool :=
  let v := s.g.market.marketBaseVault
  let w := s.g.market.marketQuoteVault
  decide ((s.tokens 53).owner = 33 ∧ (s.tokens 63).owner = 33 ∧ owes s 43 ≤ 100 ∧ 0 ≤ tokens s 53 ∧ 0 ≤ tokens s 63 ∧ 0 ≤ tokens s v ∧ 0 ≤ tokens s w ∧
    tokens s 53 + tokens s 63 + tokens s v + tokens s w ≤ u64Max)

theorem C87_fits_spec {s : State} (h : C87_fits s = true) : (s.tokens C87_ctx.userBase).owner = C87_ctx.signer ∧
    (s.tokens C87_ctx.userQuote).owner = C87_ctx.signer ∧
    SupplyFits s [C87_ctx.userBase, C87_ctx.userQuote, s.g.market.marketBaseVault, s.g.market.marketQuoteVault] ∧
    owes s C87_ctx.ooKey + (C87_bids.length + C87_asks.length) ≤ u64Max := by
  unfold C87_fits at h
  simp only [decide_eq_true_eq] at h
  obtain ⟨h1, h2, h3, h4, h5, h6, h7, h8⟩ := h
  refine ⟨h1, h2, ⟨fun i hi => ?_, fun i hi j hj hne _ => ?_⟩, ?_⟩
  · simp only [List.mem_cons, List.not_mem_nil, or_false] at hi
    rcases hi with rfl | rfl | rfl | rfl <;> assumption
  · simp only [List.mem_cons, List.not_mem_nil, or_false] at hi hj
    simp only [C87_ctx] at hi hj
    rcases hi with rfl | rfl | rfl | rfl <;> rcases hj with rfl | rfl | rfl | rfl <;> first | exact absurd rfl hne | omega
  · have : u64Max = 18446744073709551615 := rfl
    simp only [C87_ctx, C87_bids, C87_asks, List.length_cons, List.length_nil]
    push_cast
    omega

def C87_first : Side × Nat × MultiArgs := (.bid, 0, { priceLots := 980, maxQuoteLots := 3000, expiry := 0 })
def C87_last : Side × Nat × MultiArgs := (.ask, 2, { priceLots := 985, maxQuoteLots := 5000, expiry := 0 })

example : ∃ s s' : State, Reachable s ∧ step s (.placeOrders C87_ctx true .limit C87_bids C87_asks 10) = .ok s' ∧
    (s.tokens C87_ctx.userBase).owner = C87_ctx.signer ∧ (s.tokens C87_ctx.userQuote).owner = C87_ctx.signer ∧
    C87_ctx.userBase ≠ C87_ctx.userQuote ∧
    SupplyFits s [C87_ctx.userBase, C87_ctx.userQuote, s.g.market.marketBaseVault, s.g.market.marketQuoteVault] ∧
    owes s C87_ctx.ooKey + (C87_bids.length + C87_asks.length) ≤ u64Max ∧ Grows s s' ∧ tokens s' 63 = tokens s 63 ∧
    ∃ s1 s2 s3, step s (.cancelAll 33 43 none 255) = .ok s1 ∧
      step s1 (.placeOrder (singleCtx C87_ctx .bid) (asSingle s1 C87_ctx .limit 10 C87_first)) = .ok s2 ∧
      step s2 (.placeOrder (singleCtx C87_ctx .ask) (asSingle s2 C87_ctx .limit 10 C87_last)) = .ok s3 ∧
      tokens s3 63 < tokens s' 63 ∧ tokens s3 63 + freeQuote s3 43 = tokens s' 63 + freeQuote s' 43 := by
  obtain ⟨s, s', h1, h2, h3⟩ := Scenario.step_spec (a := Scenario.args) (ops := Scenario.ops1)
    (op := .placeOrders C87_ctx true .limit C87_bids C87_asks 10)
    (p := fun s s' => C87_fits s && decide (Grows s s') && decide (tokens s' 63 = tokens s 63) &&
      Scenario.okAnd (step s (.cancelAll 33 43 none 255)) (fun s1 =>
        Scenario.okAnd (step s1 (.placeOrder (singleCtx C87_ctx .bid) (asSingle s1 C87_ctx .limit 10 C87_first))) (fun s2 =>
          Scenario.okAnd (step s2 (.placeOrder (singleCtx C87_ctx .ask) (asSingle s2 C87_ctx .limit 10 C87_last))) (fun s3 =>
            decide (tokens s3 63 < tokens s' 63 ∧ tokens s3 63 + freeQuote s3 43 = tokens s' 63 + freeQuote s' 43)))))
    (by decide +kernel)
  simp only [Bool.and_eq_true, decide_eq_true_eq] at h3
  obtain ⟨⟨⟨h3, h4⟩, h5⟩, h6⟩ := h3
  obtain ⟨s1, k1, h6⟩ := Scenario.okAnd_spec h6
  obtain ⟨s2, k2, h6⟩ := Scenario.okAnd_spec h6
  obtain ⟨s3, k3, h6⟩ := Scenario.okAnd_spec h6
  rw [decide_eq_true_eq] at h6
  obtain ⟨f1, f2, f3, f4⟩ := C87_fits_spec h3
  exact ⟨s, s', h1, h2, f1, f2, by decide, f3, f4, h4, h5, s1, s2, s3, k1, k2, k3, h6⟩

end OB
