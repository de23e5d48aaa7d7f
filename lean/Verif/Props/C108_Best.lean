import Verif.Proofs.Best
import Verif.Props.C88_More
/-!
C108  Best execution: no other choice among the offers on the book would have been better for the taker.

`Choice env L a`: trading `a o` lots with each offer `o` of `L`, at most what it offers; `choiceQty` and `choiceQuote` are the lots and the
quote lots it trades.  `Ladder … L`: `L` lists the orders that the book offers to the taker.
-/
namespace OB
open Spec

section
variable {env : Env} {book book' : Book} {g g' : Ledger} {r : OrderResult} {L : List Offer} {a : Offer → Int}

theorem spendable_ask {o : Order} (ho : o.side = .ask) (fee : Int) : spendable o fee = o.maxQuoteLotsIncludingFees := by
  unfold spendable; rw [ho]

/-- The full claim for asks: whoever sells as many lots of the offers gets no more.  It does not hold for an ask that limits how many quote
lots it may get: `C108_capped_false`. -/
def AskSellsMost : Prop :=
  ∀ (env : Env) (book book' : Book) (g g' : Ledger) (r : OrderResult) (L : List Offer) (a : Offer → Int), EngineCall env book g r book' g' →
    ¬ PostsOnly env.order → env.order.side = .ask → NoSkipped book .bid env.oracle → Ladder book .bid env.nowTs env.oracle L →
    Choice env L a → (∀ o ∈ L, ¬ acceptable .ask (limitOf env.order env.oracle) o.price → a o = 0) → r.fills.length < env.limit →
    choiceQty L a ≤ env.order.maxBaseLots → choiceQuote L a ≤ env.order.maxQuoteLotsIncludingFees → choiceQty L a ≤ sumQty r.fills

/-- As many lots cannot be bought for less than the bid pays. -/
theorem C108_bid_cheapest (h : EngineCall env book g r book' g') (hpo : ¬ PostsOnly env.order) (hside : env.order.side = .bid)
    (hns : NoSkipped book .ask env.oracle) (hL : Ladder book .ask env.nowTs env.oracle L) (ha : Choice env L a)
    (hq : choiceQty L a = sumQty r.fills) : sumQuote r.fills ≤ choiceQuote L a := by
  have hinv : env.order.side.invert = .ask := by rw [hside]; rfl
  have k := C56_fills_are_greedy h hpo (by rwa [hinv]) (by rwa [hinv])
  obtain ⟨dB, dQ, hc⟩ := h.state.core
  have e : sumQty r.fills = sizeSum _ := fillsAre_sum k
  obtain ⟨P, _, h2⟩ := greedy_best L (by rw [hinv]; exact hL.sorted) (ladder_pos h.state hL) env.limit _ _ h.valid.order.base.1
    (spendable_nonneg h.valid.order hc.fees.t0) (.inl hside) 1 (fun o ho => by rw [hside]; exact (ladder_pos h.state hL o ho).2)
  have h3 := h2 a ha
  rw [← e, ← fillsAre_cost k, hq, hside] at h3
  simp only [dear] at h3
  omega

/-- A bid that does not use up the number of orders it may fill: no more lots can be bought at prices within its limit, with its size and
its money. -/
theorem C108_bid_most (h : EngineCall env book g r book' g') (hpo : ¬ PostsOnly env.order) (hside : env.order.side = .bid)
    (hns : NoSkipped book .ask env.oracle) (hL : Ladder book .ask env.nowTs env.oracle L) (ha : Choice env L a)
    (hacc : ∀ o ∈ L, ¬ acceptable .bid (limitOf env.order env.oracle) o.price → a o = 0) (hlim : r.fills.length < env.limit)
    (hbase : choiceQty L a ≤ env.order.maxBaseLots) (hquote : choiceQuote L a ≤ spendable env.order g.market.takerFee) :
    choiceQty L a ≤ sumQty r.fills := by
  have hinv : env.order.side.invert = .ask := by rw [hside]; rfl
  have k := C56_fills_are_greedy h hpo (by rwa [hinv]) (by rwa [hinv])
  obtain ⟨dB, dQ, hc⟩ := h.state.core
  have e : sumQty r.fills = sizeSum _ := fillsAre_sum k
  rcases greedy_most L (by rw [hinv]; exact hL.sorted) (ladder_pos h.state hL) env.limit _ _ h.valid.order.base.1
    (spendable_nonneg h.valid.order hc.fees.t0) (.inl hside) (by rw [k.length_eq]; exact hlim) 1
    (fun o ho => by rw [hside]; exact (ladder_pos h.state hL o ho).2) with h1 | h1 | ⟨P, _, h1, h2, h3⟩
  · rw [e, h1]; exact hbase
  · rw [e]; exact h1 a ha (by rw [hside]; exact hacc)
  · have h4 := h3 a ha
    rw [← e, ← fillsAre_cost k] at h4
    rw [← fillsAre_cost k] at h2
    by_contra hcon
    have h5 := Int.mul_le_mul_of_nonneg_left (show 1 ≤ choiceQty L a - sumQty r.fills by omega) (show 0 ≤ P by omega)
    rw [Int.mul_sub, Int.mul_one] at h5
    omega

theorem room_ask (hside : env.order.side = .ask) (hL : Ladder book .bid env.nowTs env.oracle L)
    (hroom : ∀ c l p, (Side.bid, c, l) ∈ book.resting → TradableAt env.nowTs env.oracle .bid c l p →
      env.order.maxBaseLots * p ≤ env.order.maxQuoteLotsIncludingFees) (fee : Int) :
    ∀ o ∈ L, env.order.maxBaseLots * o.price ≤ spendable env.order fee := by
  intro o ho
  rw [spendable_ask hside]
  have := (hL.mem o).mp ho
  exact hroom _ _ _ this.1 this.2

/-- An ask whose quote limit covers its size at every price offered: as many lots cannot be sold for more than it gets. -/
theorem C108_ask_dearest_partial (h : EngineCall env book g r book' g') (hpo : ¬ PostsOnly env.order) (hside : env.order.side = .ask)
    (hns : NoSkipped book .bid env.oracle) (hL : Ladder book .bid env.nowTs env.oracle L)
    (hroom : ∀ c l p, (Side.bid, c, l) ∈ book.resting → TradableAt env.nowTs env.oracle .bid c l p →
      env.order.maxBaseLots * p ≤ env.order.maxQuoteLotsIncludingFees)
    (ha : Choice env L a) (hq : choiceQty L a = sumQty r.fills) : choiceQuote L a ≤ sumQuote r.fills := by
  have hinv : env.order.side.invert = .bid := by rw [hside]; rfl
  have k := C56_fills_are_greedy h hpo (by rwa [hinv]) (by rwa [hinv])
  obtain ⟨dB, dQ, hc⟩ := h.state.core
  have e : sumQty r.fills = sizeSum _ := fillsAre_sum k
  obtain ⟨m, hm⟩ : ∃ m, ∀ o ∈ L, m ≤ dear env.order.side o.price := by
    clear ha hq k e hL
    induction L with
    | nil => exact ⟨0, fun o ho => by simp at ho⟩
    | cons x L ih =>
      obtain ⟨m, hm⟩ := ih
      refine ⟨min m (dear env.order.side x.price), fun o ho => ?_⟩
      rcases List.mem_cons.mp ho with rfl | ho
      · omega
      · have := hm o ho; omega
  obtain ⟨P, _, h2⟩ := greedy_best L (by rw [hinv]; exact hL.sorted) (ladder_pos h.state hL) env.limit _ _ h.valid.order.base.1
    (spendable_nonneg h.valid.order hc.fees.t0) (.inr (room_ask hside hL hroom _)) m hm
  have h3 := h2 a ha
  rw [← e, ← fillsAre_cost k, hq, hside] at h3
  simp only [dear] at h3
  omega

/-- An ask whose quote limit covers its size at every price offered and that does not use up the number of orders it may fill: no more lots
can be sold at prices within its limit. -/
theorem C108_ask_most_partial (h : EngineCall env book g r book' g') (hpo : ¬ PostsOnly env.order) (hside : env.order.side = .ask)
    (hns : NoSkipped book .bid env.oracle) (hL : Ladder book .bid env.nowTs env.oracle L)
    (hroom : ∀ c l p, (Side.bid, c, l) ∈ book.resting → TradableAt env.nowTs env.oracle .bid c l p →
      env.order.maxBaseLots * p ≤ env.order.maxQuoteLotsIncludingFees)
    (ha : Choice env L a) (hacc : ∀ o ∈ L, ¬ acceptable .ask (limitOf env.order env.oracle) o.price → a o = 0)
    (hlim : r.fills.length < env.limit) (hbase : choiceQty L a ≤ env.order.maxBaseLots) : choiceQty L a ≤ sumQty r.fills := by
  have hinv : env.order.side.invert = .bid := by rw [hside]; rfl
  have k := C56_fills_are_greedy h hpo (by rwa [hinv]) (by rwa [hinv])
  obtain ⟨dB, dQ, hc⟩ := h.state.core
  have e : sumQty r.fills = sizeSum _ := fillsAre_sum k
  obtain ⟨m, hm⟩ : ∃ m, ∀ o ∈ L, m ≤ dear env.order.side o.price := by
    clear ha hacc hbase k e hL
    induction L with
    | nil => exact ⟨0, fun o ho => by simp at ho⟩
    | cons x L ih =>
      obtain ⟨m, hm⟩ := ih
      refine ⟨min m (dear env.order.side x.price), fun o ho => ?_⟩
      rcases List.mem_cons.mp ho with rfl | ho
      · omega
      · have := hm o ho; omega
  rcases greedy_most L (by rw [hinv]; exact hL.sorted) (ladder_pos h.state hL) env.limit _ _ h.valid.order.base.1
    (spendable_nonneg h.valid.order hc.fees.t0) (.inr (room_ask hside hL hroom _)) (by rw [k.length_eq]; exact hlim) m hm with
    h1 | h1 | ⟨P, h0, _⟩
  · rw [e, h1]; exact hbase
  · rw [e]; exact h1 a ha (by rw [hside]; exact hacc)
  · rw [hside] at h0; cases h0

end

/-! Concrete cases. -/
namespace BestCase
open Scenario MoreCase

/-- `n` lots of the offers at price `p`. -/
def only (p n : Int) (o : Offer) : Int := if o.price = p then n else 0

/-- The offers to the taker `env`. -/
def ladderOf (env : Env) (book : Book) : List Offer :=
  List.insertionSort (notBehind env.order.side.invert) (book.resting.filterMap (offerOf env.order.side.invert env.nowTs env.oracle))

/-- `a` is a choice from these offers and takes none that is not acceptable, checked by running through them. -/
def choiceB (env : Env) (book : Book) (a : Offer → Int) : Bool :=
  decide (∀ o ∈ ladderOf env book, 0 ≤ a o ∧ a o ≤ o.order.quantity ∧ (cancelsOwn env o.order → a o = 0) ∧
    (¬ acceptable env.order.side (limitOf env.order env.oracle) o.price → a o = 0))

theorem choiceB_spec {env : Env} {book : Book} {a : Offer → Int} (h : choiceB env book a = true) : Choice env (ladderOf env book) a ∧
    ∀ o ∈ ladderOf env book, ¬ acceptable env.order.side (limitOf env.order env.oracle) o.price → a o = 0 := by
  have h := of_decide_eq_true h
  exact ⟨⟨fun o ho => (h o ho).1, fun o ho => (h o ho).2.1, fun o ho => (h o ho).2.2.1⟩, fun o ho => (h o ho).2.2.2⟩

/-- Trader 33 buys up to twelve lots at up to 1030 for at most 5100 quote lots. -/
def poor : Env := taker 2 .bid (.fixed 1030 .limit) 12 5100

end BestCase

open BestCase MoreCase in
/-- An ask limited to 1000 quote lots sells nothing, as one lot of the best bid is worth 1003; selling one lot to the next bid at 995 would
be within all its limits. -/
theorem C108_capped_false : ∃ (s : State) (r : OrderResult) (book' : Book) (g' : Ledger), EngineCall capped s.book s.g r book' g' ∧
    NoSkipped s.book .bid (some 1000) ∧ Ladder s.book .bid 2000 (some 1000) (ladderOf capped s.book) ∧
    Choice capped (ladderOf capped s.book) (only 995 1) ∧
    (∀ o ∈ ladderOf capped s.book, ¬ acceptable .ask (some 980) o.price → only 995 1 o = 0) ∧
    choiceQty (ladderOf capped s.book) (only 995 1) = 1 ∧ choiceQuote (ladderOf capped s.book) (only 995 1) = 995 ∧ r.fills = [] := by
  obtain ⟨s, s1, r, r1, b, b1, g, g1, h1, h2, h3, h4, h5, h6, h7⟩ := beforeAfter_spec (env := capped) (op := highBid)
    (p := fun _ s1 _ r1 => choiceB capped s1.book (only 995 1) && decide (choiceQty (ladderOf capped s1.book) (only 995 1) = 1 ∧
      choiceQuote (ladderOf capped s1.book) (only 995 1) = 995 ∧ r1.fills = [])) (by decide +kernel)
  rw [Bool.and_eq_true, decide_eq_true_eq] at h7
  obtain ⟨k1, k2⟩ := choiceB_spec h7.1
  exact ⟨s1, r1, b1, g1, h3, h4, ladder_sort h3.state _ _ _, k1, k2, h7.2⟩

open MoreCase in
theorem C108_not_AskSellsMost : ¬ AskSellsMost := by
  intro hall
  obtain ⟨s, r, b, g, h1, h2, h3, h4, h5, h6, h7, h8⟩ := C108_capped_false
  have := hall capped _ _ _ _ r _ _ h1 (by unfold PostsOnly; decide) rfl h2 h3 h4 h5 (by rw [h8]; decide) (by rw [h6]; decide)
    (by rw [h7]; decide)
  rw [h6, h8] at this
  exact absurd this (by decide)

/-! The hypotheses of `C108_bid_cheapest` and `C108_bid_most`: a bid with money for five lots buys two at 1007 and three at 1010 for 5044;
the five lots offered at 1010 alone would cost 5050. -/
open BestCase Scenario in
example : ∃ (s : State) (r : OrderResult) (book' : Book) (g' : Ledger), EngineCall poor s.book s.g r book' g' ∧
    NoSkipped s.book .ask (some 1000) ∧ Ladder s.book .ask 2000 (some 1000) (ladderOf poor s.book) ∧
    (Choice poor (ladderOf poor s.book) (only 1010 5) ∧
      ∀ o ∈ ladderOf poor s.book, ¬ acceptable .bid (some 1030) o.price → only 1010 5 o = 0) ∧
    (r.fills.length < poor.limit ∧ choiceQty (ladderOf poor s.book) (only 1010 5) = sumQty r.fills ∧
      choiceQuote (ladderOf poor s.book) (only 1010 5) ≤ spendable poor.order s.g.market.takerFee ∧
      choiceQuote (ladderOf poor s.book) (only 1010 5) = 5050 ∧ sumQty r.fills = 5 ∧ sumQuote r.fills = 5044) := by
  obtain ⟨s, r, book', g', h1, h2⟩ := call_spec (a := args) (ops := ops0) (env := poor)
    (p := fun s r _ _ => noSkippedB s.book .ask (some 1000) && (choiceB poor s.book (only 1010 5) && decide (r.fills.length < poor.limit ∧
      choiceQty (ladderOf poor s.book) (only 1010 5) = sumQty r.fills ∧
      choiceQuote (ladderOf poor s.book) (only 1010 5) ≤ spendable poor.order s.g.market.takerFee ∧
      choiceQuote (ladderOf poor s.book) (only 1010 5) = 5050 ∧ sumQty r.fills = 5 ∧ sumQuote r.fills = 5044))) (by decide +kernel)
  rw [Bool.and_eq_true, Bool.and_eq_true, decide_eq_true_eq] at h2
  exact ⟨s, r, book', g', h1, noSkippedB_spec h2.1, ladder_sort h1.state _ _ _, choiceB_spec h2.2.1, h2.2.2⟩

/-! The hypotheses of `C108_ask_dearest_partial` and `C108_ask_most_partial`: an ask for four lots sells two at 995 and two at 990. -/
open BestCase MoreCase Scenario in
example : ∃ (s : State) (r : OrderResult) (book' : Book) (g' : Ledger), EngineCall uncapped s.book s.g r book' g' ∧
    NoSkipped s.book .bid (some 1000) ∧ Ladder s.book .bid 2000 (some 1000) (ladderOf uncapped s.book) ∧
    (∀ c l p, (Side.bid, c, l) ∈ s.book.resting → TradableAt uncapped.nowTs uncapped.oracle .bid c l p →
      uncapped.order.maxBaseLots * p ≤ uncapped.order.maxQuoteLotsIncludingFees) ∧
    (Choice uncapped (ladderOf uncapped s.book) (only 990 4) ∧
      ∀ o ∈ ladderOf uncapped s.book, ¬ acceptable .ask (some 980) o.price → only 990 4 o = 0) ∧
    (r.fills.length < uncapped.limit ∧ choiceQty (ladderOf uncapped s.book) (only 990 4) = 4 ∧ sumQty r.fills = 4 ∧
      choiceQuote (ladderOf uncapped s.book) (only 990 4) = 3960 ∧ sumQuote r.fills = 3970) := by
  obtain ⟨s, r, book', g', h1, h2⟩ := call_spec (a := args) (ops := ops0) (env := uncapped)
    (p := fun s r _ _ => noSkippedB s.book .bid (some 1000) && (choiceB uncapped s.book (only 990 4) && decide (
      (∀ x ∈ s.book.resting, x.1 = .bid → ∀ p ∈ (priceOf uncapped.oracle x.2.1 x.2.2).toList, p ≤ 1003) ∧ r.fills.length < uncapped.limit ∧
      choiceQty (ladderOf uncapped s.book) (only 990 4) = 4 ∧ sumQty r.fills = 4 ∧
      choiceQuote (ladderOf uncapped s.book) (only 990 4) = 3960 ∧ sumQuote r.fills = 3970))) (by decide +kernel)
  rw [Bool.and_eq_true, Bool.and_eq_true, decide_eq_true_eq] at h2
  refine ⟨s, r, book', g', h1, noSkippedB_spec h2.1, ladder_sort h1.state _ _ _, fun c l p hl ht => ?_, choiceB_spec h2.2.1, h2.2.2.2⟩
  have := h2.2.2.1 _ hl rfl p (by rw [ht.price]; simp)
  show 4 * p ≤ 20000
  omega

end OB
