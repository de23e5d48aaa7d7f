import Verif.Proofs.Call
import Verif.Props.Scenario
/-!
C04  Every fill respects the taker's limit price.
C05  Every fill executes at the resting order's own price.
C06  Matching follows price-time priority.

`EngineCall env book g r book' g'`: the matching engine was called successfully with the book and ledger of a reachable state (or
the state left by the previous order of the same instruction); `r.fills` are the fills it made, in order.
-/
namespace OB
open Spec

section
variable {env : Env} {book book' : Book} {g g' : Ledger} {r : OrderResult}

theorem C04_limit_respected (h : EngineCall env book g r book' g') (f : FillEvent) (hf : f ∈ r.fills) (lim : Int)
    (hl : limitOf env.order env.oracle = some lim) : within env.order.side f.price lim := by
  obtain ⟨C⟩ := callRun h
  obtain ⟨v, hv, he, _⟩ := C.fill_visit hf
  obtain ⟨q, sf, h1, rfl⟩ := fill_some.mp he
  have hw := ((C.T.ok v hv).fill q sf h1).2.1
  exact CallRun.within_trans ((within_iff _ _ _).mp hw) (C.limit hl)

theorem C05_fill_of_resting_order (h : EngineCall env book g r book' g') (f : FillEvent) (hf : f ∈ r.fills) :
    ∃ c l, IsFillOf env book c l f := by
  obtain ⟨C⟩ := callRun h
  obtain ⟨v, hv, he, hi⟩ := C.fill_visit hf
  exact ⟨_, _, hi⟩

/-- The fills come in order of priority, each from a different order: no order filled later has priority over one filled earlier. -/
theorem C06_fills_in_priority_order (h : EngineCall env book g r book' g') :
    ∃ xs : List (Comp × LeafNode × FillEvent), r.fills = xs.map (fun x => x.2.2) ∧ (∀ x ∈ xs, IsFillOf env book x.1 x.2.1 x.2.2) ∧
      xs.Pairwise (fun x y => (x.1, x.2.1.key) ≠ (y.1, y.2.1.key) ∧
        ¬ Before env.order.side.invert y.2.2.price y.2.1 x.2.2.price x.2.1) := by
  obtain ⟨C⟩ := callRun h
  refine ⟨fillsOf env (g.market.seqNum + 1) C.tr, C.fillsOf_eq.symm, ?_, ?_⟩
  · intro x hx
    obtain ⟨v, hv, he⟩ := List.mem_filterMap.mp hx
    cases hf : v.fill? env (g.market.seqNum + 1) with
    | none => rw [hf] at he; cases he
    | some f => rw [hf] at he; cases he; exact isFillOf C.core C.P.opp C.T hv hf
  · have h1 := items_distinct C.P.opp
    have h2 := items_priority C.core C.side C.P.opp
    rw [← C.T.split] at h1 h2
    have h1 := List.pairwise_map.mp (List.pairwise_append.mp h1).1
    have h2 := List.pairwise_map.mp (List.pairwise_append.mp h2).1
    unfold fillsOf
    rw [List.pairwise_filterMap]
    refine (h1.and h2).imp_of_mem ?_
    rintro v w hv hw ⟨h3, h4⟩ x hx y hy
    cases hfv : v.fill? env (g.market.seqNum + 1) with
    | none => rw [hfv] at hx; cases hx
    | some f =>
      cases hfw : w.fill? env (g.market.seqNum + 1) with
      | none => rw [hfw] at hy; cases hy
      | some f' =>
        rw [hfv] at hx; rw [hfw] at hy; cases hx; cases hy
        refine ⟨h3, ?_⟩
        obtain ⟨q, sf, _, e1⟩ := fill_some.mp hfv
        obtain ⟨q', sf', _, e2⟩ := fill_some.mp hfw
        have e3 : f.price = v.item.priceLots := by rw [e1]; rfl
        have e4 : f'.price = w.item.priceLots := by rw [e2]; rfl
        simp only [e3, e4]
        have p1 := (item_spec C.core C.P.opp (C.T.mem hv)).pos
        have p2 := (item_spec C.core C.P.opp (C.T.mem hw)).pos
        exact ekey_before (by omega) (by omega) h4

/-- The full claim: an order is filled only after every tradable order with priority over it is used up (an own order may be
cancelled instead). -/
def BetterUsedUpFirst : Prop :=
  ∀ (env : Env) (book book' : Book) (g g' : Ledger) (r : OrderResult), EngineCall env book g r book' g' →
  ∃ xs : List (Comp × LeafNode × FillEvent), r.fills = xs.map (fun x => x.2.2) ∧ (∀ x ∈ xs, IsFillOf env book x.1 x.2.1 x.2.2) ∧
    ∀ x ∈ xs, ∀ c l p, (env.order.side.invert, c, l) ∈ book.resting → TradableAt env.nowTs env.oracle env.order.side.invert c l p →
      Before env.order.side.invert p l x.2.2.price x.2.1 →
      (∃ y ∈ xs, y.1 = c ∧ y.2.1 = l ∧ y.2.2.makerOut = true) ∨
      (l.owner = env.owner ∧ env.order.selfTradeBehavior = .cancelProvide ∧
        ∀ l' ∈ book'.resting, l'.1 = env.order.side.invert → l'.2.1 = c → l'.2.2.key ≠ l.key)

/-- Missing from the full claim: a pegged order can be lost behind a pegged order whose price has left the range [1, 2^63 - 1)
(excluded by `NoSkipped` for pegged `l`); an ask whose quote budget does not buy another lot at the better price goes on at
worse prices. -/
theorem C06_better_used_up_first_partial (h : EngineCall env book g r book' g') :
    ∃ xs : List (Comp × LeafNode × FillEvent), r.fills = xs.map (fun x => x.2.2) ∧ (∀ x ∈ xs, IsFillOf env book x.1 x.2.1 x.2.2) ∧
      ∀ x ∈ xs, ∀ c l p, (env.order.side.invert, c, l) ∈ book.resting → TradableAt env.nowTs env.oracle env.order.side.invert c l p →
        Before env.order.side.invert p l x.2.2.price x.2.1 → (c = .fixed ∨ NoSkipped book env.order.side.invert env.oracle) →
        (∃ y ∈ xs, y.1 = c ∧ y.2.1 = l ∧ (y.2.2.makerOut = true ∨
          (env.order.side = .ask ∧ env.order.maxQuoteLotsIncludingFees - sumQuote r.fills < p))) ∨
        (l.owner = env.owner ∧ env.order.selfTradeBehavior = .cancelProvide ∧
          ∀ l' ∈ book'.resting, l'.1 = env.order.side.invert → l'.2.1 = c → l'.2.2.key ≠ l.key) := by
  obtain ⟨C⟩ := callRun h
  refine ⟨fillsOf env (g.market.seqNum + 1) C.tr, C.fillsOf_eq.symm, ?_, ?_⟩
  · intro x hx
    obtain ⟨v, hv, he⟩ := List.mem_filterMap.mp hx
    cases hf : v.fill? env (g.market.seqNum + 1) with
    | none => rw [hf] at he; cases he
    | some f => rw [hf] at he; cases he; exact isFillOf C.core C.P.opp C.T hv hf
  intro x hx c l p hm ht hbe hsk
  obtain ⟨v, hv, he⟩ := List.mem_filterMap.mp hx
  cases hf : v.fill? env (g.market.seqNum + 1) with
  | none => rw [hf] at he; cases he
  | some f =>
    rw [hf] at he; cases he
    obtain ⟨q, sf, hfate, rfl⟩ := fill_some.mp hf
    obtain ⟨j, hj, rfl, rfl, rfl, hjv⟩ := item_complete C.core C.P.opp hm ht hsk
    obtain ⟨w, hw, rfl, hc⟩ := C.used_up hv hfate hj hjv hbe
    rcases hc with hc | ⟨q', sf', hfw, hc⟩
    · right
      obtain ⟨_, _, _, ho, _, hs⟩ := (C.T.ok w hw).cancel hc
      refine ⟨ho, hs, ?_⟩
      rintro ⟨sd, c', l'⟩ hl' rfl rfl
      exact C.T.gone C.P.opp ⟨hw, rfl, rfl⟩ (.inl hc) (C.mem_after.mp hl')
    · left
      have hsome := (fill_some (env := env) (seq := g.market.seqNum + 1)).mpr ⟨q', sf', hfw, rfl⟩
      refine ⟨(w.item.comp, w.item.leaf, _), List.mem_filterMap.mpr ⟨w, hw, by rw [hsome]; rfl⟩, rfl, rfl, ?_⟩
      rcases hc with hc | hc
      · left; simp only [mkFill, decide_eq_true_eq]; omega
      · exact .inr hc

/-- A better order of another trader which is not used up although a worse one is filled. -/
def passedOver (env : Env) (book : Book) (r : OrderResult) : Bool :=
  book.resting.any (fun x => decide (x.1 = env.order.side.invert ∧ x.2.2.owner ≠ env.owner) &&
    (match priceOf env.oracle x.2.1 x.2.2 with
    | some p => decide (TradableAt env.nowTs env.oracle x.1 x.2.1 x.2.2 p) &&
        r.fills.any (fun f => decide (betterPrice x.1 p f.price)) &&
        r.fills.all (fun f => decide (f.maker = x.2.2.owner → f.makerOut = false))
    | none => false))

theorem passedOver_spec (h : EngineCall env book g r book' g') (hp : passedOver env book r = true) : ¬ BetterUsedUpFirst := by
  intro hall
  obtain ⟨xs, h1, h2, h3⟩ := hall env book book' g g' r h
  unfold passedOver at hp
  obtain ⟨⟨sd, c, l⟩, hm, hp⟩ := List.any_eq_true.mp hp
  simp only [Bool.and_eq_true, decide_eq_true_eq] at hp
  obtain ⟨⟨rfl, ho⟩, hp⟩ := hp
  cases hpr : priceOf env.oracle c l with
  | none => rw [hpr] at hp; cases hp
  | some p =>
    rw [hpr] at hp
    simp only [Bool.and_eq_true, decide_eq_true_eq] at hp
    obtain ⟨⟨ht, hany⟩, hal⟩ := hp
    obtain ⟨f, hf, hb⟩ := List.any_eq_true.mp hany
    rw [decide_eq_true_eq] at hb
    rw [h1] at hf
    obtain ⟨x, hx, rfl⟩ := List.mem_map.mp hf
    rcases h3 x hx c l p hm ht (.inl hb) with ⟨y, hy, rfl, rfl, hout⟩ | ⟨hown, _⟩
    · have hfy : y.2.2 ∈ r.fills := by rw [h1]; exact List.mem_map_of_mem hy
      have := List.all_eq_true.mp hal _ hfy
      rw [decide_eq_true_eq] at this
      rw [this (h2 y hy).maker.1] at hout
      cases hout
    · exact ho hown

end

/-! Three fills: a pegged order and two fixed ones, the last one partly. -/
open Scenario in
example : ∃ (s : State) (r : OrderResult) (book' : Book) (g' : Ledger), EngineCall (taker 2 .bid (.fixed 1030 .limit) 9 20000) s.book s.g r book' g' ∧
    decide (r.fills.map (fun f => (f.price, f.quantity, f.makerOut)) = [(1007, 2, true), (1010, 5, true), (1020, 2, false)]) = true :=
  call_spec (a := args) (ops := ops0) (p := fun _ r _ _ => decide (r.fills.map (fun f => (f.price, f.quantity, f.makerOut)) =
    [(1007, 2, true), (1010, 5, true), (1020, 2, false)])) (by decide +kernel)

namespace Scenario

/-- Two pegged asks at 100 and 200 (oracle at 1000) and fixed asks at 45 and 60. -/
def opsSkip : List Op :=
  [.createOO 41 31 0, .createOO 42 32 0, .createOO 43 33 0,
   placePegged 0 .ask (-900) 50 2 1, placePegged 0 .ask (-800) 50 2 2, place 1 .ask 45 1 3, place 1 .ask 60 3 4]

/-- Bids of ten lots at 10 and at 4. -/
def opsQuote : List Op :=
  [.createOO 41 31 0, .createOO 42 32 0, .createOO 43 33 0, place 0 .bid 10 10 1, place 1 .bid 4 10 2]

end Scenario

/-- With the oracle at 850 the first pegged ask has price -50 and is skipped; the second one, at price 50, is on offer
next to the fixed ask at 45 but is lost when that one is taken: a bid for two lots buys at 45 and 60. -/
theorem C06_better_used_up_first_false : ¬ BetterUsedUpFirst := by
  obtain ⟨s, r, book', g', h, hp⟩ := Scenario.call_spec (a := Scenario.args) (ops := Scenario.opsSkip)
    (env := Scenario.taker 2 .bid (.fixed 60 .limit) 2 1000 850)
    (p := fun s r _ _ => passedOver (Scenario.taker 2 .bid (.fixed 60 .limit) 2 1000 850) s.book r) (by decide +kernel)
  exact passedOver_spec h hp

/-- The other gap: an ask with a quote budget of 15 sells one lot at 10, leaves nine there, and sells another one at 4. -/
theorem C06_better_used_up_first_false_quote : ¬ BetterUsedUpFirst := by
  obtain ⟨s, r, book', g', h, hp⟩ := Scenario.call_spec (a := Scenario.args) (ops := Scenario.opsQuote)
    (env := Scenario.taker 2 .ask (.fixed 4 .limit) 20 15)
    (p := fun s r _ _ => passedOver (Scenario.taker 2 .ask (.fixed 4 .limit) 20 15) s.book r) (by decide +kernel)
  exact passedOver_spec h hp

end OB
