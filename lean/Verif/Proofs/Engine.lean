import Verif.Proofs.Facts
import Verif.Spec.Engine
/-! Calls of the matching engine satisfy the invariant. -/
namespace OB
open Spec

theorem Spec.OrderValid.ok {o : Order} (h : OrderValid o) : OrderOk o :=
  ⟨h.base.1, h.base.2, h.quote.1, h.quote.2, h.price, h.peg⟩

theorem OrderTyped.valid {o : Order} (h : OrderTyped o) (h1 : 0 ≤ o.maxBaseLots) (h2 : 0 ≤ o.maxQuoteLotsIncludingFees) : OrderValid o :=
  ⟨⟨h1, h.base1⟩, ⟨h2, h.quote1⟩, h.price, h.peg⟩

theorem Spec.EngineState.core {book : Book} {g : Ledger} (h : EngineState book g) : ∃ dB dQ, Core g book dB dQ := by
  induction h with
  | reachable s h => exact ⟨0, 0, (reachable_Inv h).core⟩
  | next env book book' g g' r _ hc hr ih =>
    obtain ⟨dB, dQ, ih⟩ := ih
    obtain ⟨h1, _⟩ := ih.newOrder hc.order.ok hc.taker hr
    exact ⟨_, _, h1⟩

/-- Everything known of a call. -/
theorem engine_call {env : Env} {book book' : Book} {g g' : Ledger} {r : OrderResult} (h : EngineState book g) (hc : CallValid env g)
    (hr : newOrder env book g = .ok (r, book', g')) :
    ∃ dB dQ, Core g book dB dQ ∧ ∃ R ot, PlaceRes env book g r book' g' R ot dB dQ := by
  obtain ⟨dB, dQ, hcore⟩ := h.core
  obtain ⟨_, _, R, ot, hP⟩ := hcore.newOrder hc.order.ok hc.taker hr
  exact ⟨dB, dQ, hcore, R, ot, hP⟩

theorem priceData_eq (l : LeafNode) (h : l.key < 2 ^ 128) : l.priceData = l.key / 2 ^ 64 := by
  unfold LeafNode.priceData
  rw [Nat.shiftRight_eq_div_pow, Nat.mod_eq_of_lt]
  unfold two64
  rw [Nat.div_lt_iff_lt_mul (by decide)]
  omega

theorem offset_eq (d : Nat) (h : d < two64) : oraclePeggedPriceOffset d = (d : Int) - 2 ^ 63 := by
  unfold oraclePeggedPriceOffset asI64
  unfold two64 at *
  simp only []
  unfold i64Max
  split <;> omega

theorem within_iff (s : Side) (p lim : Int) : s.isPriceWithinLimit p lim = true ↔ within s p lim := by
  cases s <;> simp [Side.isPriceWithinLimit, within]

theorem better_iff (s : Side) (p : Int) (l : LeafNode) :
    (l.pegLimit ≠ -1 ∧ s.isPriceBetter p l.pegLimit = true) ↔ beyondPeg s p l := by
  cases s <;> simp [Side.isPriceBetter, beyondPeg]

theorem expired_iff (now : Nat) (l : LeafNode) : l.isExpired now = true ↔ expired now l := by
  unfold LeafNode.isExpired expired
  simp only [decide_eq_true_eq]
  omega

end OB
