import Verif.Proofs.Keys
/-!
C20  Order keys encode price-time priority.
-/
namespace OB

/-- Bids: a numerically larger id means a higher price, or the same price and an earlier sequence number. -/
theorem C20_bid_order (p₁ p₂ n₁ n₂ : Nat) (h₁ : n₁ < 2 ^ 64) (h₂ : n₂ < 2 ^ 64) :
    newNodeKey .bid p₁ n₁ > newNodeKey .bid p₂ n₂ ↔ p₁ > p₂ ∨ (p₁ = p₂ ∧ n₁ < n₂) := by
  rw [newNodeKey_eq (by unfold two64; omega), newNodeKey_eq (by unfold two64; omega)]
  unfold seqPart two64
  simp only [if_true]
  omega

/-- Asks: a numerically smaller id means a lower price, or the same price and an earlier sequence number. -/
theorem C20_ask_order (p₁ p₂ n₁ n₂ : Nat) (h₁ : n₁ < 2 ^ 64) (h₂ : n₂ < 2 ^ 64) :
    newNodeKey .ask p₁ n₁ < newNodeKey .ask p₂ n₂ ↔ p₁ < p₂ ∨ (p₁ = p₂ ∧ n₁ < n₂) := by
  rw [newNodeKey_eq (by unfold two64; omega), newNodeKey_eq (by unfold two64; omega)]
  unfold seqPart two64
  simp only [reduceCtorEq, if_false]
  omega

/-- Keys fit u128 and are determined by, and determine, price data and sequence number. -/
theorem C20_key_injective (side : Side) (p₁ p₂ n₁ n₂ : Nat) (h₁ : n₁ < 2 ^ 64) (h₂ : n₂ < 2 ^ 64)
    (hp₁ : p₁ < 2 ^ 64) :
    newNodeKey side p₁ n₁ < 2 ^ 128 ∧ (newNodeKey side p₁ n₁ = newNodeKey side p₂ n₂ ↔ p₁ = p₂ ∧ n₁ = n₂) := by
  refine ⟨newNodeKey_lt (by unfold two64; omega) (by unfold two64; omega), ?_⟩
  rw [newNodeKey_eq (by unfold two64; omega), newNodeKey_eq (by unfold two64; omega)]
  unfold seqPart two64
  split <;> omega

/-- A fixed price order: the price decoded from the stored id is the price encoded. -/
theorem C20_fixed_roundtrip (side : Side) (price : Int) (n : Nat) (leaf : LeafNode) (h1 : 1 ≤ price) (h2 : price ≤ 2 ^ 63 - 1)
    (hn : n < 2 ^ 64) :
    ∃ d, fixedPriceData price = .ok d ∧
      (leaf.key = newNodeKey side d n → fixedPriceLots leaf.priceData = .ok price) := by
  have h2' : price ≤ i64Max := by unfold i64Max; omega
  refine ⟨_, fixedPriceData_ok h1 h2', fun hk => ?_⟩
  unfold LeafNode.priceData
  rw [hk, newNodeKey_div (by unfold two64; omega) (by unfold two64; omega), fixedPriceLots_ok (by omega)]
  congr 1; omega

/-- Fixed price data is strictly monotone in the price. -/
theorem C20_fixed_monotone (p q : Int) (dp dq : Nat) (h1 : 1 ≤ p) (h2 : p ≤ 2 ^ 63 - 1) (h3 : 1 ≤ q) (h4 : q ≤ 2 ^ 63 - 1)
    (hp : fixedPriceData p = .ok dp) (hq : fixedPriceData q = .ok dq) : dp < dq ↔ p < q := by
  rw [fixedPriceData_ok h1 (by unfold i64Max; omega), ok_ok] at hp
  rw [fixedPriceData_ok h3 (by unfold i64Max; omega), ok_ok] at hq
  omega

/-- A pegged order: the offset decoded from the stored id is the offset encoded, for every i64 offset, negative included. -/
theorem C20_pegged_roundtrip (side : Side) (off : Int) (n : Nat) (leaf : LeafNode) (h : -2 ^ 63 ≤ off ∧ off ≤ 2 ^ 63 - 1)
    (hn : n < 2 ^ 64) (hk : leaf.key = newNodeKey side (oraclePeggedPriceData off) n) :
    oraclePeggedPriceOffset leaf.priceData = off := by
  have he : (oraclePeggedPriceData off : Int) = off + 9223372036854775808 :=
    oraclePeggedPriceData_eq (by unfold i64Min i64Max; omega)
  unfold LeafNode.priceData
  rw [hk, newNodeKey_div (by unfold two64; omega) (by unfold two64; omega),
    oraclePeggedPriceOffset_eq (by unfold two64; omega), he]
  omega

/-- Pegged price data is strictly monotone in the offset. -/
theorem C20_pegged_monotone (a b : Int) (ha : -2 ^ 63 ≤ a ∧ a ≤ 2 ^ 63 - 1) (hb : -2 ^ 63 ≤ b ∧ b ≤ 2 ^ 63 - 1) :
    oraclePeggedPriceData a < oraclePeggedPriceData b ↔ a < b := by
  have h1 : (oraclePeggedPriceData a : Int) = a + 9223372036854775808 :=
    oraclePeggedPriceData_eq (by unfold i64Min i64Max; omega)
  have h2 : (oraclePeggedPriceData b : Int) = b + 9223372036854775808 :=
    oraclePeggedPriceData_eq (by unfold i64Min i64Max; omega)
  omega

/-- Non-vacuity: a bid at 100 placed before another at 100 outranks it; a negative offset survives the round trip. -/
example : newNodeKey .bid 100 3 > newNodeKey .bid 100 4 ∧ newNodeKey .bid 100 9 > newNodeKey .bid 99 4 := by decide
example : oraclePeggedPriceOffset (oraclePeggedPriceData (-9223372036854775808)) = -9223372036854775808 ∧
    oraclePeggedPriceOffset (oraclePeggedPriceData (-7)) = -7 := by decide

end OB
