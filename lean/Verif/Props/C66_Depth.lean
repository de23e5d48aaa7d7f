import Verif.Proofs.Depth
import Verif.Props.C56_Greedy
/-!
C66  What the book shows is what can be traded: the best price, the quantity within a limit and the price at a depth.

`Ladder book s now oracle L`: `L` lists the orders of side `s` that can trade, in price-time priority.  `offered L`: their base lots.
`accepted s lim L`: those whose price a taker with limit `lim` accepts.  `costOf`: the quote lots to take them all.
-/
namespace OB
open Spec

section
variable {env : Env} {book book' : Book} {g g' : Ledger} {r : OrderResult} {s : Side} {oracle : Option Int} {now : Nat} {o : Int}

/-- The best price is that of a tradable order and no tradable order has a better one. -/
theorem C66_best (h : EngineState book g) (hns : NoSkipped book s oracle) {p : Int} (hp : (book.side s).bestPrice now oracle = .ok (some p)) :
    (∃ c l, (s, c, l) ∈ book.resting ∧ TradableAt now oracle s c l p) ∧
      ∀ c l p', (s, c, l) ∈ book.resting → TradableAt now oracle s c l p' → ¬ betterPrice s p' p := by
  obtain ⟨L, hL⟩ := ladder_exists h s now oracle
  obtain ⟨hb, _⟩ := side_reads h hns hL
  rw [hb] at hp
  injection hp with hp
  cases L with
  | nil => cases hp
  | cons x L =>
    injection hp with hp
    simp only at hp
    have hx := (hL.mem x).mp (by simp)
    rw [hp] at hx
    refine ⟨⟨_, _, hx⟩, fun c l p' h1 h2 hbt => ?_⟩
    rcases List.mem_cons.mp ((hL.mem ⟨c, l, p'⟩).mpr ⟨h1, h2⟩) with e | hm
    · rw [← e] at hp
      subst hp
      unfold betterPrice at hbt
      cases s <;> simp at hbt
    · have := (List.pairwise_cons.mp hL.sorted).1 _ hm
      unfold Before at this
      rw [hp] at this
      unfold betterPrice at *
      cases s <;> simp only at * <;> omega

/-- There is no best price exactly if nothing can be traded; the query always answers. -/
theorem C66_best_none (h : EngineState book g) (hns : NoSkipped book s oracle) :
    (∃ x, (book.side s).bestPrice now oracle = .ok x) ∧
      ((book.side s).bestPrice now oracle = .ok none ↔ ∀ c l p, (s, c, l) ∈ book.resting → ¬ TradableAt now oracle s c l p) := by
  obtain ⟨L, hL⟩ := ladder_exists h s now oracle
  obtain ⟨hb, _⟩ := side_reads h hns hL
  rw [hb]
  refine ⟨⟨_, rfl⟩, ?_⟩
  constructor
  · intro hp c l p h1 h2
    have hm := (hL.mem ⟨c, l, p⟩).mpr ⟨h1, h2⟩
    cases L with
    | nil => cases hm
    | cons x L => cases hp
  · intro hno
    cases L with
    | nil => rfl
    | cons x L => exact absurd ((hL.mem x).mp (by simp)).2 (hno _ _ _ ((hL.mem x).mp (by simp)).1)

/-- The quantity at a price is the sum of all offers a taker with this limit accepts; the query fails exactly if this sum is not an
`i64`. -/
theorem C66_quantity (h : EngineState book g) (hns : NoSkipped book s (some o)) {L : List Offer} (hL : Ladder book s now (some o) L)
    (lim : Int) (n : Int) :
    (book.side s).quantityAtPrice lim now o = .ok n ↔ n = offered (accepted s (some lim) L) ∧ n ≤ i64Max := by
  have hpos := ladder_pos h hL
  rw [((side_reads h hns hL).2 o rfl).1 lim, depthR_eq hL.sorted (fun x hx => (hpos x hx).1) (Int.le_refl _) (by decide), Int.zero_add,
    ckI64_ok]
  have := offered_nonneg (L := accepted s (some lim) L) (fun x hx => (hpos x (List.mem_of_mem_filter hx)).1)
  unfold i64Min
  constructor
  · rintro ⟨⟨_, h2⟩, rfl⟩; exact ⟨rfl, h2⟩
  · rintro ⟨rfl, h2⟩; exact ⟨⟨by omega, h2⟩, rfl⟩

/-- The price at depth `q` is the worst one to be paid for `q` lots: a limit gets `q` lots exactly if it accepts this price. -/
theorem C66_impact (h : EngineState book g) (hns : NoSkipped book s (some o)) {L : List Offer} (hL : Ladder book s now (some o) L)
    {q p : Int} (hq : 1 ≤ q) (hp : (book.side s).impactPrice q now o = .ok (some p)) :
    (∃ x ∈ L, x.price = p) ∧ ∀ lim, q ≤ offered (accepted s lim L) ↔ acceptable s.invert lim p := by
  have hpos := ladder_pos h hL
  rw [((side_reads h hns hL).2 o rfl).2 q] at hp
  refine ⟨?_, impact_iff hL.sorted (fun x hx => (hpos x hx).1) hq hp⟩
  obtain ⟨A, x, B, rfl, e, _⟩ := impactR_some hp
  exact ⟨x, by simp, e⟩

/-- Without such a price fewer than `q` lots are offered; the query answers if the sum of the offers is an `i64`. -/
theorem C66_impact_none (h : EngineState book g) (hns : NoSkipped book s (some o)) {L : List Offer} (hL : Ladder book s now (some o) L)
    {q : Int} (hq : 1 ≤ q) :
    ((book.side s).impactPrice q now o = .ok none → offered L < q) ∧
      (offered L ≤ i64Max → ∃ x, (book.side s).impactPrice q now o = .ok x) := by
  have hpos := ladder_pos h hL
  rw [((side_reads h hns hL).2 o rfl).2 q]
  constructor
  · intro hp
    rcases impactR_none hp with rfl | h1
    · simp only [offered, List.map_nil, List.sum_nil]; omega
    · omega
  · intro hle
    exact impactR_ok (fun x hx => (hpos x hx).1) (Int.le_refl _) (by omega)

/-- An order whose budget and limit on the number of fills cover the offers it accepts, none of which it cancels as its own, trades
all it wants and accepts. -/
theorem C66_trades (h : EngineCall env book g r book' g') (hpo : ¬ PostsOnly env.order)
    (hns : NoSkipped book env.order.side.invert env.oracle) {L : List Offer}
    (hL : Ladder book env.order.side.invert env.nowTs env.oracle L) (hown : ∀ x ∈ L, ¬ cancelsOwn env x.order)
    (hn : (accepted env.order.side.invert (limitOf env.order env.oracle) L).length ≤ env.limit)
    (hc : costOf (accepted env.order.side.invert (limitOf env.order env.oracle) L) ≤ spendable env.order g.market.takerFee) :
    sumQty r.fills = min env.order.maxBaseLots (offered (accepted env.order.side.invert (limitOf env.order env.oracle) L)) := by
  rw [fillsAre_sum (C56_fills_are_greedy h hpo hns hL)]
  exact greedy_all L hL.sorted (ladder_pos h.state hL) hown _ _ _ h.valid.order.base.1 hn hc

/-- The quantity shown at the limit of an order is what the order gets. -/
theorem C66_quantity_trades (h : EngineCall env book g r book' g') (hpo : ¬ PostsOnly env.order) (ho : env.oracle = some o)
    (hns : NoSkipped book env.order.side.invert env.oracle) {L : List Offer}
    (hL : Ladder book env.order.side.invert env.nowTs env.oracle L) (hown : ∀ x ∈ L, ¬ cancelsOwn env x.order) {lim : Int}
    (hl : limitOf env.order env.oracle = some lim)
    (hn : (accepted env.order.side.invert (some lim) L).length ≤ env.limit)
    (hc : costOf (accepted env.order.side.invert (some lim) L) ≤ spendable env.order g.market.takerFee) {n : Int}
    (hq : (book.side env.order.side.invert).quantityAtPrice lim env.nowTs o = .ok n) :
    sumQty r.fills = min env.order.maxBaseLots n := by
  rw [ho] at hns hL
  obtain ⟨rfl, _⟩ := (C66_quantity h.state hns hL lim n).mp hq
  rw [← ho] at hns hL
  rw [← hl] at hn hc ⊢
  exact C66_trades h hpo hns hL hown hn hc

/-- An order for as many lots as the depth asked for is filled in full exactly if its limit accepts the price at that depth. -/
theorem C66_impact_trades (h : EngineCall env book g r book' g') (hpo : ¬ PostsOnly env.order) (ho : env.oracle = some o)
    (hns : NoSkipped book env.order.side.invert env.oracle) {L : List Offer}
    (hL : Ladder book env.order.side.invert env.nowTs env.oracle L) (hown : ∀ x ∈ L, ¬ cancelsOwn env x.order)
    (hn : (accepted env.order.side.invert (limitOf env.order env.oracle) L).length ≤ env.limit)
    (hc : costOf (accepted env.order.side.invert (limitOf env.order env.oracle) L) ≤ spendable env.order g.market.takerFee) {p : Int}
    (h1 : 1 ≤ env.order.maxBaseLots)
    (hp : (book.side env.order.side.invert).impactPrice env.order.maxBaseLots env.nowTs o = .ok (some p)) :
    sumQty r.fills = env.order.maxBaseLots ↔ acceptable env.order.side (limitOf env.order env.oracle) p := by
  rw [C66_trades h hpo hns hL hown hn hc]
  have hns' := hns
  have hL' := hL
  rw [ho] at hns' hL'
  have hi := (C66_impact h.state hns' hL' h1 hp).2 (limitOf env.order env.oracle)
  rw [invert_invert] at hi
  rw [← hi]
  omega

end

/-! The asks of the example book: 2 lots at 1007 (pegged), 5 at 1010, 3 at 1020 and further ones.  Seven lots are shown up to 1015,
the price at depth 8 is 1020, and an order for 8 lots limited at 1030 takes them while one limited at 1015 gets 7. -/
namespace DepthCase
open Scenario

/-- The hypotheses of `C66_trades` about the offers of a taker, checked by running through the book. -/
def fitsB (env : Env) (s : State) : Bool :=
  let L := List.insertionSort (notBehind env.order.side.invert)
    (s.book.resting.filterMap (offerOf env.order.side.invert env.nowTs env.oracle))
  let A := accepted env.order.side.invert (limitOf env.order env.oracle) L
  noSkippedB s.book env.order.side.invert env.oracle && decide ((∀ x ∈ L, ¬ cancelsOwn env x.order) ∧ A.length ≤ env.limit ∧
    costOf A ≤ spendable env.order s.g.market.takerFee)

def order (lim : Int) : Env := taker 2 .bid (.fixed lim .limit) 8 20000

theorem fits {lim : Int} {p : State → OrderResult → Bool}
    (h : callAnd args ops0 (order lim) (fun s r _ _ => fitsB (order lim) s && p s r) = true) :
    ∃ (s : State) (r : OrderResult) (book' : Book) (g' : Ledger) (L : List Offer), EngineCall (order lim) s.book s.g r book' g' ∧
      NoSkipped s.book .ask (some 1000) ∧ Ladder s.book .ask 2000 (some 1000) L ∧ (∀ x ∈ L, ¬ cancelsOwn (order lim) x.order) ∧
      (accepted .ask (some lim) L).length ≤ (order lim).limit ∧
      costOf (accepted .ask (some lim) L) ≤ spendable (order lim).order s.g.market.takerFee ∧ p s r = true := by
  obtain ⟨s, r, book', g', h1, h2⟩ := call_spec h
  rw [Bool.and_eq_true] at h2
  obtain ⟨h2, h3⟩ := h2
  unfold fitsB at h2
  simp only [Bool.and_eq_true, decide_eq_true_eq] at h2
  obtain ⟨k1, k2, k3, k4⟩ := h2
  have e1 : (order lim).order.side.invert = .ask := rfl
  have e2 : (order lim).nowTs = 2000 := rfl
  have e3 : (order lim).oracle = some 1000 := rfl
  have e4 : limitOf (order lim).order (some 1000) = some lim := rfl
  rw [e1, e2, e3] at k2
  rw [e1, e2, e3, e4] at k3 k4
  exact ⟨s, r, book', g', _, h1, noSkippedB_spec k1, ladder_sort h1.state _ _ _, k2, k3, k4, h3⟩

example : ∃ (s : State) (r : OrderResult) (book' : Book) (g' : Ledger) (L : List Offer), EngineCall (order 1030) s.book s.g r book' g' ∧
    NoSkipped s.book .ask (some 1000) ∧ Ladder s.book .ask 2000 (some 1000) L ∧ (∀ x ∈ L, ¬ cancelsOwn (order 1030) x.order) ∧
    (accepted .ask (some 1030) L).length ≤ (order 1030).limit ∧
    costOf (accepted .ask (some 1030) L) ≤ spendable (order 1030).order s.g.market.takerFee ∧
    decide (s.book.asks.bestPrice 2000 (some 1000) = .ok (some 1007) ∧ s.book.asks.quantityAtPrice 1030 2000 1000 = .ok 10 ∧
      s.book.asks.impactPrice 8 2000 1000 = .ok (some 1020) ∧ sumQty r.fills = 8) = true :=
  fits (p := fun s r => decide (s.book.asks.bestPrice 2000 (some 1000) = .ok (some 1007) ∧
    s.book.asks.quantityAtPrice 1030 2000 1000 = .ok 10 ∧ s.book.asks.impactPrice 8 2000 1000 = .ok (some 1020) ∧
    sumQty r.fills = 8)) (by decide +kernel)

example : ∃ (s : State) (r : OrderResult) (book' : Book) (g' : Ledger) (L : List Offer), EngineCall (order 1015) s.book s.g r book' g' ∧
    NoSkipped s.book .ask (some 1000) ∧ Ladder s.book .ask 2000 (some 1000) L ∧ (∀ x ∈ L, ¬ cancelsOwn (order 1015) x.order) ∧
    (accepted .ask (some 1015) L).length ≤ (order 1015).limit ∧
    costOf (accepted .ask (some 1015) L) ≤ spendable (order 1015).order s.g.market.takerFee ∧
    decide (s.book.asks.quantityAtPrice 1015 2000 1000 = .ok 7 ∧ s.book.asks.impactPrice 100 2000 1000 = .ok none ∧
      s.book.bids.bestPrice 2000 (some 1000) ≠ .ok none ∧ sumQty r.fills = 7) = true :=
  fits (p := fun s r => decide (s.book.asks.quantityAtPrice 1015 2000 1000 = .ok 7 ∧ s.book.asks.impactPrice 100 2000 1000 = .ok none ∧
    s.book.bids.bestPrice 2000 (some 1000) ≠ .ok none ∧ sumQty r.fills = 7)) (by decide +kernel)

end DepthCase

end OB
