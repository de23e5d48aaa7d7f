import Verif.Proofs.More
import Verif.Props.C56_Greedy
/-!
C88  A deeper book is never worse for a taker, and asking for more never trades less.

`OffersMore s book book1`: every order of side `s` of `book` rests in `book1` too.  `AsksMore env env1`: order `env1` differs from `env` only
in that it wants more, pays more, accepts more prices or may fill more orders.
-/
namespace OB
open Spec

section
variable {env env1 : Env} {book book' book1 book1' : Book} {g g' g1 g1' : Ledger} {r r1 : OrderResult}

/-- The full claim: with more offers an order trades at least as much.  It does not hold: `C88_dust_false`, `C88_cap_false`. -/
def MoreOffersNeverHurt : Prop :=
  ∀ (env : Env) (book book' book1 book1' : Book) (g g' g1 g1' : Ledger) (r r1 : OrderResult), EngineCall env book g r book' g' →
    EngineCall env book1 g1 r1 book1' g1' → ¬ PostsOnly env.order → NoSkipped book1 env.order.side.invert env.oracle →
    OffersMore env.order.side.invert book book1 → g1.market.takerFee = g.market.takerFee → sumQty r.fills ≤ sumQty r1.fills

theorem noSkipped_less {s : Side} {oracle : Option Int} (hm : OffersMore s book book1) (h : NoSkipped book1 s oracle) : NoSkipped book s oracle :=
  fun l p hl hp => h l p (hm _ _ hl) hp

theorem spendable_nonneg {o : Order} (ho : OrderValid o) {fee : Int} (hf : 0 ≤ fee) : 0 ≤ spendable o fee := by
  unfold spendable
  have := ho.quote.1
  cases o.side with
  | bid => exact Int.ediv_nonneg (by omega) (by omega)
  | ask => exact this

/-- The two matches of an order, in a book and in one that offers more. -/
theorem more_offers (h : EngineCall env book g r book' g') (h1 : EngineCall env book1 g1 r1 book1' g1') (hpo : ¬ PostsOnly env.order)
    (hns : NoSkipped book1 env.order.side.invert env.oracle) (hm : OffersMore env.order.side.invert book book1)
    (hfee : g1.market.takerFee = g.market.takerFee) (hlim : r1.fills.length < env.limit)
    (hroom : env.order.side = .bid ∨ ∀ c l p, (env.order.side.invert, c, l) ∈ book1.resting →
      TradableAt env.nowTs env.oracle env.order.side.invert c l p → env.order.maxBaseLots * p ≤ env.order.maxQuoteLotsIncludingFees) :
    sumQty r.fills ≤ sumQty r1.fills ∧
    (sumQty r1.fills = sumQty r.fills → dear env.order.side (sumQuote r1.fills) ≤ dear env.order.side (sumQuote r.fills)) ∧
    (∀ p, (∀ x, acceptable env.order.side (limitOf env.order env.oracle) x → 1 ≤ x → dear env.order.side x ≤ dear env.order.side p) →
      dear env.order.side (sumQuote r1.fills) ≤ dear env.order.side (sumQuote r.fills) +
        (sumQty r1.fills - sumQty r.fills) * dear env.order.side p) := by
  obtain ⟨L, hL⟩ := ladder_exists h.state env.order.side.invert env.nowTs env.oracle
  obtain ⟨L1, hL1⟩ := ladder_exists h1.state env.order.side.invert env.nowTs env.oracle
  have k := C56_fills_are_greedy h hpo (noSkipped_less hm hns) hL
  have k1 := C56_fills_are_greedy h1 hpo hns hL1
  rw [hfee] at k1
  obtain ⟨dB, dQ, hc⟩ := h.state.core
  have hlen : r1.fills.length = (greedy env env.limit env.order.maxBaseLots (spendable env.order g.market.takerFee) L1).length :=
    k1.length_eq.symm
  have hpos := ladder_pos h1.state hL1
  have main := greedy_more (env := env) (ladder_sublist hL hL1 hm) hL1.sorted hpos (n := env.limit)
    h.valid.order.base.1 (spendable_nonneg h.valid.order hc.fees.t0) (by
      by_cases hb : env.order.side = .bid
      · exact .inl hb
      · rcases hroom with hr | hr
        · exact .inl hr
        · refine .inr (fun o ho => ?_)
          have := (hL1.mem o).mp ho
          have h2 := hr _ _ _ this.1 this.2
          have e : spendable env.order g.market.takerFee = env.order.maxQuoteLotsIncludingFees := by
            unfold spendable
            cases hs : env.order.side with
            | bid => exact absurd hs hb
            | ask => rfl
          rw [e]; exact h2) (by rw [← hlen]; exact hlim)
  rw [fillsAre_sum k, fillsAre_sum k1, fillsAre_cost k, fillsAre_cost k1]
  exact ⟨main.1, main.2.1, fun p hp => main.2.2 p (fun o ho ha => hp _ ha (hpos o ho).2)⟩

/-- A bid that does not use up the number of orders it may fill: with more offers it buys at least as many lots, pays no more for as many
lots, and at most its limit for each further lot. -/
theorem C88_bid_partial (h : EngineCall env book g r book' g') (h1 : EngineCall env book1 g1 r1 book1' g1') (hpo : ¬ PostsOnly env.order)
    (hside : env.order.side = .bid) (hns : NoSkipped book1 .ask env.oracle) (hm : OffersMore .ask book book1)
    (hfee : g1.market.takerFee = g.market.takerFee) (hlim : r1.fills.length < env.limit) :
    sumQty r.fills ≤ sumQty r1.fills ∧ (sumQty r1.fills = sumQty r.fills → sumQuote r1.fills ≤ sumQuote r.fills) ∧
      ∀ lim, limitOf env.order env.oracle = some lim →
        sumQuote r1.fills ≤ sumQuote r.fills + (sumQty r1.fills - sumQty r.fills) * lim := by
  have hinv : env.order.side.invert = .ask := by rw [hside]; rfl
  obtain ⟨m1, m2, m3⟩ := more_offers h h1 hpo (by rwa [hinv]) (by rwa [hinv]) hfee hlim (.inl hside)
  rw [hside] at m2 m3
  refine ⟨m1, m2, fun lim hl => m3 lim (fun x hx _ => ?_)⟩
  exact hx lim hl

/-- An ask that does not use up the number of orders it may fill, and whose quote limit covers its size at every price offered: with more
offers it sells at least as many lots, gets no less, and at least its limit for each further lot. -/
theorem C88_ask_partial (h : EngineCall env book g r book' g') (h1 : EngineCall env book1 g1 r1 book1' g1') (hpo : ¬ PostsOnly env.order)
    (hside : env.order.side = .ask) (hns : NoSkipped book1 .bid env.oracle) (hm : OffersMore .bid book book1)
    (hfee : g1.market.takerFee = g.market.takerFee) (hlim : r1.fills.length < env.limit)
    (hroom : ∀ c l p, (Side.bid, c, l) ∈ book1.resting → TradableAt env.nowTs env.oracle .bid c l p →
      env.order.maxBaseLots * p ≤ env.order.maxQuoteLotsIncludingFees) :
    sumQty r.fills ≤ sumQty r1.fills ∧ sumQuote r.fills ≤ sumQuote r1.fills ∧
      ∀ lim, limitOf env.order env.oracle = some lim →
        sumQuote r.fills + (sumQty r1.fills - sumQty r.fills) * lim ≤ sumQuote r1.fills := by
  have hinv : env.order.side.invert = .bid := by rw [hside]; rfl
  obtain ⟨m1, m2, m3⟩ := more_offers h h1 hpo (by rwa [hinv]) (by rwa [hinv]) hfee hlim (.inr (by rw [hinv]; exact hroom))
  rw [hside] at m2 m3
  simp only [dear] at m2 m3
  refine ⟨m1, ?_, fun lim hl => ?_⟩
  · have := m3 1 (fun x _ hx => by omega)
    have h2 : 0 ≤ (sumQty r1.fills - sumQty r.fills) * 1 := by omega
    rw [Int.mul_neg] at this
    omega
  · have := m3 lim (fun x hx _ => by
      have : within .ask x lim := hx lim hl
      unfold within at this
      simp only at this
      omega)
    rw [Int.mul_neg] at this
    omega

/-- A bid that asks for more trades at least as much. -/
theorem C88_larger_bid (h : EngineCall env book g r book' g') (h1 : EngineCall env1 book g r1 book1' g1') (hpo : ¬ PostsOnly env.order)
    (hpo1 : ¬ PostsOnly env1.order) (hmore : AsksMore env env1) (hside : env.order.side = .bid) (hns : NoSkipped book .ask env.oracle) :
    sumQty r.fills ≤ sumQty r1.fills := by
  have hinv : env.order.side.invert = .ask := by rw [hside]; rfl
  obtain ⟨L, hL⟩ := ladder_exists h.state env.order.side.invert env.nowTs env.oracle
  have k := C56_fills_are_greedy h hpo (by rwa [hinv]) hL
  have k1 := C56_fills_are_greedy h1 hpo1 (by rw [hmore.side, hmore.world.2, hinv]; exact hns) (by
    rw [hmore.side, hmore.world.1, hmore.world.2]; exact hL)
  obtain ⟨dB, dQ, hc⟩ := h.state.core
  have hf := hc.fees.t0
  rw [fillsAre_sum k, fillsAre_sum k1]
  refine greedy_larger hmore L hL.sorted (ladder_pos h.state hL) _ _ _ _ _ _ hmore.limit h.valid.order.base.1 hmore.base ?_ (.inl hside)
  have := hmore.quote
  unfold spendable
  rw [hmore.side, hside]
  exact Int.ediv_le_ediv (by omega) (by omega)

/-- An ask that asks for more trades at least as much, if the quote limits cover the sizes at every price offered. -/
theorem C88_larger_ask (h : EngineCall env book g r book' g') (h1 : EngineCall env1 book g r1 book1' g1') (hpo : ¬ PostsOnly env.order)
    (hpo1 : ¬ PostsOnly env1.order) (hmore : AsksMore env env1) (hside : env.order.side = .ask) (hns : NoSkipped book .bid env.oracle)
    (hroom : ∀ c l p, (Side.bid, c, l) ∈ book.resting → TradableAt env.nowTs env.oracle .bid c l p →
      env.order.maxBaseLots * p ≤ env.order.maxQuoteLotsIncludingFees ∧
      env1.order.maxBaseLots * p ≤ env1.order.maxQuoteLotsIncludingFees) :
    sumQty r.fills ≤ sumQty r1.fills := by
  have hinv : env.order.side.invert = .bid := by rw [hside]; rfl
  obtain ⟨L, hL⟩ := ladder_exists h.state env.order.side.invert env.nowTs env.oracle
  have k := C56_fills_are_greedy h hpo (by rwa [hinv]) hL
  have k1 := C56_fills_are_greedy h1 hpo1 (by rw [hmore.side, hmore.world.2, hinv]; exact hns) (by
    rw [hmore.side, hmore.world.1, hmore.world.2]; exact hL)
  have e : ∀ o : Order, o.side = .ask → spendable o g.market.takerFee = o.maxQuoteLotsIncludingFees := by
    intro o ho; unfold spendable; rw [ho]
  rw [fillsAre_sum k, fillsAre_sum k1, e _ hside, e _ (hmore.side.trans hside)]
  refine greedy_larger hmore L hL.sorted (ladder_pos h.state hL) _ _ _ _ _ _ hmore.limit h.valid.order.base.1 hmore.base hmore.quote
    (.inr (fun o ho => ?_))
  rw [hinv] at hL
  have := (hL.mem o).mp ho
  exact hroom _ _ _ this.1 this.2

end

/-! Concrete cases. -/
namespace MoreCase
open Scenario

/-- Every order of side `side` of `book` rests in `book1`, checked by running through them. -/
def offersMoreB (side : Side) (book book1 : Book) : Bool := book.resting.all (fun x => !decide (x.1 = side) || decide (x ∈ book1.resting))

theorem offersMoreB_spec {side : Side} {book book1 : Book} (h : offersMoreB side book book1 = true) : OffersMore side book book1 := by
  intro c l hl
  have := List.all_eq_true.mp h _ hl
  simpa using this

def callOk (env : Env) : Bool :=
  orderOkB env.order && env.hasOO && decide ((env.nowTs : Int) ≤ i64Max) && decide (i64Min ≤ env.oracle.getD 0 ∧ env.oracle.getD 0 ≤ i64Max)

theorem callOk_spec {env : Env} {s : State} {r : OrderResult} {book' : Book} {g' : Ledger} (h : callOk env = true) (hs : Reachable s)
    (hr : newOrder env s.book s.g = .ok (r, book', g')) : EngineCall env s.book s.g r book' g' := by
  unfold callOk at h
  rw [Bool.and_eq_true, Bool.and_eq_true, Bool.and_eq_true, decide_eq_true_eq, decide_eq_true_eq] at h
  obtain ⟨⟨⟨ho, ht⟩, hn⟩, hor⟩ := h
  exact ⟨.reachable s hs, ⟨orderOkB_spec ho, hn, (by intro p hp; rw [hp] at hor; exact hor), (by rw [ht]; intro hx; cases hx)⟩, hr⟩

/-- Somebody else executes `op`; then `env` is matched before and after it. -/
def beforeAfter (env : Env) (op : Op) (p : State → State → OrderResult → OrderResult → Bool) : Bool :=
  callOk env && stepAnd args ops0 op (fun s s1 => okAnd (newOrder env s.book s.g) (fun x => okAnd (newOrder env s1.book s1.g) (fun y =>
    noSkippedB s1.book env.order.side.invert env.oracle && offersMoreB env.order.side.invert s.book s1.book &&
      decide (s1.g.market.takerFee = s.g.market.takerFee) && p s s1 x.1 y.1)))

theorem beforeAfter_spec {env : Env} {op : Op} {p : State → State → OrderResult → OrderResult → Bool} (h : beforeAfter env op p = true) :
    ∃ (s s1 : State) (r r1 : OrderResult) (book' book1' : Book) (g' g1' : Ledger), step s op = .ok s1 ∧
      EngineCall env s.book s.g r book' g' ∧ EngineCall env s1.book s1.g r1 book1' g1' ∧
      NoSkipped s1.book env.order.side.invert env.oracle ∧ OffersMore env.order.side.invert s.book s1.book ∧
      s1.g.market.takerFee = s.g.market.takerFee ∧ p s s1 r r1 = true := by
  unfold beforeAfter at h
  rw [Bool.and_eq_true] at h
  obtain ⟨h0, h⟩ := h
  obtain ⟨s, s1, hs, hst, h⟩ := step_spec h
  obtain ⟨⟨r, b, g⟩, h1, h⟩ := okAnd_spec h
  obtain ⟨⟨r1, b1, g1⟩, h2, h⟩ := okAnd_spec h
  simp only [Bool.and_eq_true, decide_eq_true_eq] at h
  exact ⟨s, s1, r, r1, b, b1, g, g1, hst, callOk_spec h0 hs h1, callOk_spec h0 (.step s s1 op hs hst) h2, noSkippedB_spec h.1.1.1,
    offersMoreB_spec h.1.1.2, h.1.2, h.2⟩

/-- Trader 32 offers one lot at 1006, better than all others. -/
def dust : Op := place 1 .ask 1006 1 9

/-- Trader 33 buys up to four lots at up to 1030, from at most one order. -/
def oneFill : Env := { taker 2 .bid (.fixed 1030 .limit) 4 20000 with limit := 1 }

/-- The same from at most ten orders. -/
def manyFills : Env := taker 2 .bid (.fixed 1030 .limit) 4 20000

/-- Trader 32 bids 1003 for one lot, more than all others. -/
def highBid : Op := place 1 .bid 1003 1 9

/-- Trader 33 sells up to four lots for at most 1000 quote lots. -/
def capped : Env := taker 2 .ask (.fixed 980 .limit) 4 1000

/-- Trader 33 sells up to four lots. -/
def uncapped : Env := taker 2 .ask (.fixed 980 .limit) 4 20000

end MoreCase

open MoreCase in
/-- A bid that may fill one order buys two lots; after somebody offers one lot at a slightly better price, only this one. -/
theorem C88_dust_false : ∃ (s s1 : State) (r r1 : OrderResult) (book' book1' : Book) (g' g1' : Ledger), step s dust = .ok s1 ∧
    EngineCall oneFill s.book s.g r book' g' ∧ EngineCall oneFill s1.book s1.g r1 book1' g1' ∧ OffersMore .ask s.book s1.book ∧
    r.fills.map (fun f => (f.price, f.quantity)) = [(1007, 2)] ∧ r1.fills.map (fun f => (f.price, f.quantity)) = [(1006, 1)] := by
  obtain ⟨s, s1, r, r1, b, b1, g, g1, h1, h2, h3, _, h5, _, h7⟩ := beforeAfter_spec (env := oneFill) (op := dust)
    (p := fun _ _ r r1 => decide (r.fills.map (fun f => (f.price, f.quantity)) = [(1007, 2)] ∧
      r1.fills.map (fun f => (f.price, f.quantity)) = [(1006, 1)])) (by decide +kernel)
  exact ⟨s, s1, r, r1, b, b1, g, g1, h1, h2, h3, h5, of_decide_eq_true h7⟩

open MoreCase in
/-- An ask limited to 1000 quote lots sells one lot at 995; after somebody bids 1003 it sells nothing, as one lot is worth more than it may
get. -/
theorem C88_cap_false : ∃ (s s1 : State) (r r1 : OrderResult) (book' book1' : Book) (g' g1' : Ledger), step s highBid = .ok s1 ∧
    EngineCall capped s.book s.g r book' g' ∧ EngineCall capped s1.book s1.g r1 book1' g1' ∧ OffersMore .bid s.book s1.book ∧
    r.fills.map (fun f => (f.price, f.quantity)) = [(995, 1)] ∧ r1.fills = [] := by
  obtain ⟨s, s1, r, r1, b, b1, g, g1, h1, h2, h3, _, h5, _, h7⟩ := beforeAfter_spec (env := capped) (op := highBid)
    (p := fun _ _ r r1 => decide (r.fills.map (fun f => (f.price, f.quantity)) = [(995, 1)] ∧ r1.fills = [])) (by decide +kernel)
  exact ⟨s, s1, r, r1, b, b1, g, g1, h1, h2, h3, h5, of_decide_eq_true h7⟩

open MoreCase in
theorem C88_not_MoreOffersNeverHurt : ¬ MoreOffersNeverHurt := by
  intro hall
  obtain ⟨s, s1, r, r1, b, b1, g, g1, _, h2, h3, h4, h5, h6, h7⟩ := beforeAfter_spec (env := oneFill) (op := dust)
    (p := fun _ _ r r1 => decide (sumQty r.fills = 2 ∧ sumQty r1.fills = 1)) (by decide +kernel)
  have h7 := of_decide_eq_true h7
  have := hall oneFill _ _ _ _ _ _ _ _ r r1 h2 h3 (by unfold PostsOnly; decide) h4 h5 h6
  omega

/-! The hypotheses of `C88_bid_partial`: the same offer of one lot, and a bid that may fill ten orders: it pays less for its four lots. -/
open MoreCase in
example : ∃ (s s1 : State) (r r1 : OrderResult) (book' book1' : Book) (g' g1' : Ledger), step s dust = .ok s1 ∧
    EngineCall manyFills s.book s.g r book' g' ∧ EngineCall manyFills s1.book s1.g r1 book1' g1' ∧ NoSkipped s1.book .ask (some 1000) ∧
    OffersMore .ask s.book s1.book ∧ s1.g.market.takerFee = s.g.market.takerFee ∧ r1.fills.length < manyFills.limit ∧
    r.fills.map (fun f => (f.price, f.quantity)) = [(1007, 2), (1010, 2)] ∧
    r1.fills.map (fun f => (f.price, f.quantity)) = [(1006, 1), (1007, 2), (1010, 1)] := by
  obtain ⟨s, s1, r, r1, b, b1, g, g1, h1, h2, h3, h4, h5, h6, h7⟩ := beforeAfter_spec (env := manyFills) (op := dust)
    (p := fun _ _ r r1 => decide (r1.fills.length < manyFills.limit ∧ r.fills.map (fun f => (f.price, f.quantity)) = [(1007, 2), (1010, 2)] ∧
      r1.fills.map (fun f => (f.price, f.quantity)) = [(1006, 1), (1007, 2), (1010, 1)])) (by decide +kernel)
  exact ⟨s, s1, r, r1, b, b1, g, g1, h1, h2, h3, h4, h5, h6, of_decide_eq_true h7⟩

/-! The hypotheses of `C88_ask_partial`, with the bid at 1003. -/
open MoreCase in
example : ∃ (s s1 : State) (r r1 : OrderResult) (book' book1' : Book) (g' g1' : Ledger), step s highBid = .ok s1 ∧
    EngineCall uncapped s.book s.g r book' g' ∧ EngineCall uncapped s1.book s1.g r1 book1' g1' ∧ NoSkipped s1.book .bid (some 1000) ∧
    OffersMore .bid s.book s1.book ∧ s1.g.market.takerFee = s.g.market.takerFee ∧ r1.fills.length < uncapped.limit ∧
    (∀ c l p, (Side.bid, c, l) ∈ s1.book.resting → TradableAt uncapped.nowTs uncapped.oracle .bid c l p →
      uncapped.order.maxBaseLots * p ≤ uncapped.order.maxQuoteLotsIncludingFees) ∧
    r.fills.map (fun f => (f.price, f.quantity)) = [(995, 2), (990, 2)] ∧
    r1.fills.map (fun f => (f.price, f.quantity)) = [(1003, 1), (995, 2), (990, 1)] := by
  obtain ⟨s, s1, r, r1, b, b1, g, g1, h1, h2, h3, h4, h5, h6, h7⟩ := beforeAfter_spec (env := uncapped) (op := highBid)
    (p := fun _ s1 r r1 => decide (r1.fills.length < uncapped.limit ∧
      (∀ x ∈ s1.book.resting, x.1 = .bid → ∀ p ∈ (priceOf uncapped.oracle x.2.1 x.2.2).toList, p ≤ 1003) ∧
      r.fills.map (fun f => (f.price, f.quantity)) = [(995, 2), (990, 2)] ∧
      r1.fills.map (fun f => (f.price, f.quantity)) = [(1003, 1), (995, 2), (990, 1)])) (by decide +kernel)
  obtain ⟨k1, k2, k3⟩ := of_decide_eq_true h7
  refine ⟨s, s1, r, r1, b, b1, g, g1, h1, h2, h3, h4, h5, h6, k1, fun c l p hl ht => ?_, k3⟩
  have := k2 _ hl rfl p (by rw [ht.price]; simp)
  show 4 * p ≤ 20000
  omega

/-! The hypotheses of `C88_larger_bid`: a bid for four lots and one for six at a higher limit. -/
open MoreCase Scenario in
example : ∃ (s : State) (r r1 : OrderResult) (book' book1' : Book) (g' g1' : Ledger), EngineCall oneFill s.book s.g r book' g' ∧
    EngineCall (taker 2 .bid (.immediateOrCancel 1040) 6 30000) s.book s.g r1 book1' g1' ∧
    AsksMore oneFill (taker 2 .bid (.immediateOrCancel 1040) 6 30000) ∧ NoSkipped s.book .ask (some 1000) ∧
    sumQty r.fills = 2 ∧ sumQty r1.fills = 6 := by
  obtain ⟨s, hs, h⟩ := exec_spec (a := args) (ops := ops0) (p := fun s => noSkippedB s.book .ask (some 1000) &&
    okAnd (newOrder oneFill s.book s.g) (fun x => okAnd (newOrder (taker 2 .bid (.immediateOrCancel 1040) 6 30000) s.book s.g) (fun y =>
      decide (sumQty x.1.fills = 2 ∧ sumQty y.1.fills = 6)))) (by decide +kernel)
  rw [Bool.and_eq_true] at h
  obtain ⟨h0, h⟩ := h
  obtain ⟨⟨r, b, g⟩, h1, h⟩ := okAnd_spec h
  obtain ⟨⟨r1, b1, g1⟩, h2, h⟩ := okAnd_spec h
  refine ⟨s, r, r1, b, b1, g, g1, callOk_spec (by decide) hs h1, callOk_spec (by decide) hs h2, ?_, noSkippedB_spec h0, of_decide_eq_true h⟩
  refine ⟨rfl, fun p hp x hx => ?_, by decide, by decide, by decide, rfl, ⟨rfl, rfl⟩, ⟨rfl, rfl⟩⟩
  have h3 : within .bid p 1030 := hp 1030 rfl
  cases hx
  unfold within at *
  simp only at *
  show p ≤ 1040
  omega

/-! The hypotheses of `C88_larger_ask`: an ask for four lots and one for five at a lower limit. -/
open MoreCase Scenario in
example : ∃ (s : State) (r r1 : OrderResult) (book' book1' : Book) (g' g1' : Ledger), EngineCall uncapped s.book s.g r book' g' ∧
    EngineCall (taker 2 .ask (.immediateOrCancel 970) 5 20000) s.book s.g r1 book1' g1' ∧
    AsksMore uncapped (taker 2 .ask (.immediateOrCancel 970) 5 20000) ∧ NoSkipped s.book .bid (some 1000) ∧
    (∀ c l p, (Side.bid, c, l) ∈ s.book.resting → TradableAt 2000 (some 1000) .bid c l p → 4 * p ≤ 20000 ∧ 5 * p ≤ 20000) ∧
    sumQty r.fills = 4 ∧ sumQty r1.fills = 5 := by
  obtain ⟨s, hs, h⟩ := exec_spec (a := args) (ops := ops0) (p := fun s => noSkippedB s.book .bid (some 1000) &&
    decide (∀ x ∈ s.book.resting, x.1 = .bid → ∀ p ∈ (priceOf (some 1000) x.2.1 x.2.2).toList, p ≤ 1003) &&
    okAnd (newOrder uncapped s.book s.g) (fun x => okAnd (newOrder (taker 2 .ask (.immediateOrCancel 970) 5 20000) s.book s.g) (fun y =>
      decide (sumQty x.1.fills = 4 ∧ sumQty y.1.fills = 5)))) (by decide +kernel)
  rw [Bool.and_eq_true, Bool.and_eq_true, decide_eq_true_eq] at h
  obtain ⟨⟨h0, hp⟩, h⟩ := h
  obtain ⟨⟨r, b, g⟩, h1, h⟩ := okAnd_spec h
  obtain ⟨⟨r1, b1, g1⟩, h2, h⟩ := okAnd_spec h
  refine ⟨s, r, r1, b, b1, g, g1, callOk_spec (by decide) hs h1, callOk_spec (by decide) hs h2, ?_, noSkippedB_spec h0, ?_, of_decide_eq_true h⟩
  · refine ⟨rfl, fun p hp x hx => ?_, by decide, by decide, by decide, rfl, ⟨rfl, rfl⟩, ⟨rfl, rfl⟩⟩
    have h3 : within .ask p 980 := hp 980 rfl
    cases hx
    unfold within at *
    simp only at *
    show 970 ≤ p
    omega
  · intro c l p hl ht
    have := hp _ hl rfl p (by rw [ht.price]; simp)
    omega

end OB
