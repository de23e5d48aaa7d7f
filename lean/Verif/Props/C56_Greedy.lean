import Verif.Proofs.PostRest
import Verif.Props.Scenario
/-!
C56  What an order trades is a function of the visible offers: best price first, as much as wanted, offered and affordable.
C57  The rest of a limit order is posted in full.

`Ladder book s now oracle L`: `L` lists the orders of side `s` that can trade, in price-time priority.  `greedy env n b q L`: the
offers taken from `L` by a taker who wants `b` base lots, can spend `q` quote lots and fills at most `n` orders.
-/
namespace OB
open Spec

section
variable {env : Env} {book book' : Book} {g g' : Ledger} {r : OrderResult}

/-- Every book has exactly one list of offers. -/
theorem C56_ladder (h : EngineState book g) (s : Side) (now : Nat) (oracle : Option Int) :
    ∃ L, Ladder book s now oracle L ∧ ∀ L', Ladder book s now oracle L' → L' = L := by
  obtain ⟨L, hL⟩ := ladder_exists h s now oracle
  exact ⟨L, hL, fun L' h' => h'.unique hL⟩

/-- The fills are those of the greedy match, as long as no opposing pegged order has a price out of range. -/
theorem C56_fills_are_greedy (h : EngineCall env book g r book' g') (hpo : ¬ PostsOnly env.order)
    (hns : NoSkipped book env.order.side.invert env.oracle) {L : List Offer}
    (hL : Ladder book env.order.side.invert env.nowTs env.oracle L) :
    FillsAre env book (greedy env env.limit env.order.maxBaseLots (spendable env.order g.market.takerFee) L) r.fills := by
  obtain ⟨C⟩ := callRun h
  exact C.greedy h.state hpo hns hL

/-- Nothing else matters: not how the trees have grown, nor the accounts, nor what else is in the book.  Two calls with the same
order, the same opposing orders and the same taker fee trade the same; only the sequence number of the market may differ. -/
theorem C56_only_offers_matter {book1 book1' : Book} {g1 g1' : Ledger} {r1 : OrderResult} (h : EngineCall env book g r book' g')
    (h1 : EngineCall env book1 g1 r1 book1' g1') (hns : NoSkipped book env.order.side.invert env.oracle)
    (hsame : ∀ c l, (env.order.side.invert, c, l) ∈ book.resting ↔ (env.order.side.invert, c, l) ∈ book1.resting)
    (hfee : g.market.takerFee = g1.market.takerFee) :
    r.fills.map (fun f => { f with marketSeqNum := 0 }) = r1.fills.map (fun f => { f with marketSeqNum := 0 }) := by
  by_cases hpo : PostsOnly env.order
  · obtain ⟨C⟩ := callRun h
    obtain ⟨C1⟩ := callRun h1
    rw [C.postOnly_fills (postsOnly_iff.mp hpo), C1.postOnly_fills (postsOnly_iff.mp hpo)]
  · obtain ⟨L, hL⟩ := ladder_exists h.state env.order.side.invert env.nowTs env.oracle
    have hL1 : Ladder book1 env.order.side.invert env.nowTs env.oracle L :=
      ⟨fun o => (hL.mem o).trans (and_congr_left' (hsame o.comp o.order)), hL.sorted⟩
    have hns1 : NoSkipped book1 env.order.side.invert env.oracle := fun l p hl hp => hns l p ((hsame _ _).mpr hl) hp
    have k := C56_fills_are_greedy h hpo hns hL
    have k1 := C56_fills_are_greedy h1 hpo hns1 hL1
    rw [hfee] at k
    generalize greedy env env.limit env.order.maxBaseLots (spendable env.order g1.market.takerFee) L = xs at k k1
    generalize r.fills = fs at k
    generalize r1.fills = fs1 at k1
    unfold FillsAre at k k1
    induction k generalizing fs1 with
    | nil => cases k1; rfl
    | cons hx _ ih =>
      cases k1 with
      | cons hy k1 =>
        rw [List.map_cons, List.map_cons, ih _ k1]
        congr 1
        obtain ⟨hx, e1, e2⟩ := hx
        obtain ⟨hy, e3, e4⟩ := hy
        rename_i a b c d _ b' _
        have ho : b.makerOut = b'.makerOut := by
          rw [Bool.eq_iff_iff, hx.out, hy.out, e2, e4]
        obtain ⟨m1, m2, m3, m4, m5⟩ := hx.maker
        obtain ⟨n1, n2, n3, n4, n5⟩ := hy.maker
        obtain ⟨t1, t2, t3, t4⟩ := hx.taker
        obtain ⟨u1, u2, u3, u4⟩ := hy.taker
        cases b
        cases b'
        simp only at *
        subst_vars
        simp_all

/-- The order left on the book has exactly the size that was not traded, as far as the rest of the budget pays for it. -/
theorem C57_posted_size (h : EngineCall env book g r book' g') {c : Comp} {l : LeafNode} {p : Int} (hp : PostedAt env book r book' c l p) :
    l.quantity = restSize g.market env.order r p ∧ 1 ≤ l.quantity := by
  obtain ⟨C⟩ := callRun h
  exact C.posted_rest hp

/-- If nothing is posted then an opposing order that could be matched is left, or there is no size left to post, or the price is
beyond the peg limit of the order.  The price is the limit of the order, except for sliding orders. -/
theorem C57_why_not_posted (h : EngineCall env book g r book' g') (hid : r.orderId = none) {t : PostOrderType}
    (ht : postType env.order = some t) {lim : Int} (hl : limitOf env.order env.oracle = some lim) :
    ∃ p, within env.order.side p lim ∧ (t ≠ .postOnlySlide → p = lim) ∧
      ((∃ c l q, (env.order.side.invert, c, l) ∈ book'.resting ∧ TradableAt env.nowTs env.oracle env.order.side.invert c l q ∧
        within env.order.side q p) ∨ restSize g.market env.order r p ≤ 0 ∨ beyondOwnLimit env.order p) := by
  obtain ⟨C⟩ := callRun h
  refine ⟨C.R.priceLots, C.limit hl, ?_, C.not_posted hid ht⟩
  intro hne
  cases t with
  | limit =>
    refine C.price_limit ?_ hl
    rintro (hx | hx) <;> rw [ht] at hx <;> cases hx
  | postOnly => exact priceLots_postOnly C ht hl
  | postOnlySlide => exact absurd rfl hne

/-- A limit or post-only order that finds nothing to trade with any more is posted, with all that is left. -/
theorem C57_rest_is_posted (h : EngineCall env book g r book' g') {t : PostOrderType} (ht : postType env.order = some t)
    (hne : t ≠ .postOnlySlide) {lim : Int} (hl : limitOf env.order env.oracle = some lim)
    (hfree : ∀ c l q, (env.order.side.invert, c, l) ∈ book'.resting → TradableAt env.nowTs env.oracle env.order.side.invert c l q →
      ¬ within env.order.side q lim)
    (hpeg : ¬ beyondOwnLimit env.order lim) (hsize : 1 ≤ restSize g.market env.order r lim) :
    ∃ c l, PostedAt env book r book' c l lim ∧ l.quantity = restSize g.market env.order r lim := by
  cases hid : r.orderId with
  | none =>
    exfalso
    obtain ⟨p, _, hp, hc⟩ := C57_why_not_posted h hid ht hl
    rw [hp hne] at hc
    rcases hc with ⟨c, l, q, h1, h2, h3⟩ | hc | hc
    · exact hfree c l q h1 h2 h3
    · omega
    · exact hpeg hc
  | some id =>
    obtain ⟨C⟩ := callRun h
    obtain ⟨c, l, _, hp⟩ := C.posted_exists hid
    have hlim : C.R.priceLots = lim := by
      cases t with
      | limit =>
        refine C.price_limit ?_ hl
        rintro (hx | hx) <;> rw [ht] at hx <;> cases hx
      | postOnly => exact priceLots_postOnly C ht hl
      | postOnlySlide => exact absurd rfl hne
    rw [hlim] at hp
    exact ⟨c, l, hp, (C.posted_rest hp).1⟩

end

/-- No pegged order of the book has a price out of range, checked by running through the book. -/
def noSkippedB (book : Book) (s : Side) (oracle : Option Int) : Bool :=
  book.resting.all (fun x => !decide (x.1 = s ∧ x.2.1 = .pegged) || (match priceOf oracle .pegged x.2.2 with
    | some p => decide (1 ≤ p ∧ p < i64Max)
    | none => true))

theorem noSkippedB_spec {book : Book} {s : Side} {oracle : Option Int} (h : noSkippedB book s oracle = true) : NoSkipped book s oracle := by
  intro l p hl hp
  have := List.all_eq_true.mp h _ hl
  rw [hp] at this
  simpa using this

/-! A bid with limit 1030 for 12 lots and 20 000 quote lots: the greedy match takes three offers, among them a pegged one, and the
rest of two lots is posted. -/
open Scenario in
example : ∃ (s : State) (r : OrderResult) (book' : Book) (g' : Ledger),
    EngineCall (taker 2 .bid (.fixed 1030 .limit) 12 20000) s.book s.g r book' g' ∧ NoSkipped s.book .ask (some 1000) ∧
    (r.fills.map (fun f => (f.price, f.quantity)) = [(1007, 2), (1010, 5), (1020, 3)] ∧ r.orderId.isSome = true ∧
      restSize s.g.market (taker 2 .bid (.fixed 1030 .limit) 12 20000).order r 1030 = 2) := by
  obtain ⟨s, r, book', g', h1, h2⟩ := call_spec (a := args) (ops := ops0) (env := taker 2 .bid (.fixed 1030 .limit) 12 20000)
    (p := fun s r _ _ => noSkippedB s.book .ask (some 1000) && decide (r.fills.map (fun f => (f.price, f.quantity)) =
      [(1007, 2), (1010, 5), (1020, 3)] ∧ r.orderId.isSome = true ∧
      restSize s.g.market (taker 2 .bid (.fixed 1030 .limit) 12 20000).order r 1030 = 2)) (by decide +kernel)
  rw [Bool.and_eq_true, decide_eq_true_eq] at h2
  exact ⟨s, r, book', g', h1, noSkippedB_spec h2.1, h2.2⟩

/-! A post-only bid that would cross is not posted: the best ask is left and it is within the limit. -/
open Scenario in
example : ∃ (s : State) (r : OrderResult) (book' : Book) (g' : Ledger),
    EngineCall (taker 2 .bid (.fixed 1030 .postOnly) 12 20000) s.book s.g r book' g' ∧ r.orderId = none ∧
      restSize s.g.market (taker 2 .bid (.fixed 1030 .postOnly) 12 20000).order r 1030 = 12 := by
  obtain ⟨s, r, book', g', h1, h2⟩ := call_spec (a := args) (ops := ops0) (env := taker 2 .bid (.fixed 1030 .postOnly) 12 20000)
    (p := fun s r _ _ => decide (r.orderId = none ∧
      restSize s.g.market (taker 2 .bid (.fixed 1030 .postOnly) 12 20000).order r 1030 = 12)) (by decide +kernel)
  exact ⟨s, r, book', g', h1, of_decide_eq_true h2⟩

end OB
