import Verif.Proofs.Posted
import Verif.Props.Scenario
/-!
C07  Post-only orders never take.
C08  PostOnlySlide never crosses.
C12  Posting never leaves the book crossed.

`EngineCall env book g r book' g'`: a successful call of the matching engine.  `TradableAt now oracle s c l p`: the resting order
`l` can trade at price `p` now.  `within s p lim`: a taker of side `s` with limit `lim` accepts price `p`.
-/
namespace OB
open Spec

section
variable {env : Env} {book book' : Book} {g g' : Ledger} {r : OrderResult}

/-- No fill, nothing taken, no taker fee; and every opposing order that can trade, the trader's own ones included, is still there
with its full quantity. -/
theorem C07_post_only_never_takes (h : EngineCall env book g r book' g') (hpo : PostsOnly env.order) :
    r.fills = [] ∧ r.totalBaseTakenNative = 0 ∧ r.totalQuoteTakenNative = 0 ∧ r.takerFees = 0 ∧
    ∀ c l p, (env.order.side.invert, c, l) ∈ book.resting → TradableAt env.nowTs env.oracle env.order.side.invert c l p →
      (env.order.side.invert, c, l) ∈ book'.resting := by
  obtain ⟨C⟩ := callRun h
  rw [postsOnly_iff] at hpo
  have hf := C.postOnly_fills hpo
  obtain ⟨h1, h2, h3, _⟩ := C.noFills hf
  refine ⟨hf, h2, h3, h1, ?_⟩
  intro c l p hm ht
  have key : ∀ v, ¬ Visited C.tr c l v ∨ v.fate = .ignore := by
    intro v
    by_cases hv : Visited C.tr c l v
    · exfalso
      obtain ⟨hne, _⟩ := C.postOnly_visit hpo hv.1
      have hs := item_spec C.core C.P.opp (C.T.mem hv.1)
      obtain ⟨hv1, rfl, rfl⟩ := hv
      have hp : v.item.priceLots = p := by
        have := hs.price; rw [ht.price] at this; injection this with this; exact this.symm
      rcases hs.invalid hne with e | ⟨e1, e2⟩
      · exact ht.live e
      · rw [hp] at e2; exact ht.peg e1 e2
    · exact .inl hv
  obtain ⟨l', hl', hcase⟩ := C.T.stays C.P.opp (mem_resting.mp hm) (fun v hv => by
    rcases key v with hk | hk
    · exact absurd hv hk
    · unfold Visit.removes; rw [hk]; simp)
  rw [C.mem_after]
  rcases hcase with ⟨rfl, _⟩ | ⟨v, hv, q, sf, hfl, _⟩
  · exact hl'
  · exfalso
    rcases key v with hk | hk
    · exact hk hv
    · rw [hk] at hfl; cases hfl

/-- The full claim: a PostOnly order that would cross is not posted and leaves its own side of the book alone. -/
def CrossingPostOnlyIsDropped : Prop :=
  ∀ (env : Env) (book book' : Book) (g g' : Ledger) (r : OrderResult), EngineCall env book g r book' g' →
  ∀ lim c l p, postType env.order = some .postOnly → limitOf env.order env.oracle = some lim →
    (env.order.side.invert, c, l) ∈ book.resting → TradableAt env.nowTs env.oracle env.order.side.invert c l p →
    within env.order.side p lim → r.orderId = none ∧ book'.side env.order.side = book.side env.order.side

/-- Missing from the full claim: a pegged order lost behind a pegged order whose price has left the range [1, 2^63 - 1) is not
seen. -/
theorem C07_crossing_is_dropped_partial (h : EngineCall env book g r book' g') {lim : Int} {c : Comp} {l : LeafNode} {p : Int}
    (ht : postType env.order = some .postOnly) (hl : limitOf env.order env.oracle = some lim)
    (hm : (env.order.side.invert, c, l) ∈ book.resting) (htr : TradableAt env.nowTs env.oracle env.order.side.invert c l p)
    (hw : within env.order.side p lim) (hs : c = .fixed ∨ NoSkipped book env.order.side.invert env.oracle) :
    r.orderId = none ∧ book'.side env.order.side = book.side env.order.side := by
  obtain ⟨C⟩ := callRun h
  have hno : r.orderId = none := by
    cases hid : r.orderId with
    | none => rfl
    | some id =>
      exfalso
      obtain ⟨c', hc, _⟩ := C.target_some hid
      obtain ⟨j, hj, rfl, rfl, rfl, hjv⟩ := item_complete C.core C.P.opp hm htr hs
      refine C.postOnly_crossing (postsOnly_iff.mp (.inl ht)) hc hj hjv ?_
      rw [priceLots_postOnly C ht hl]; exact hw
  exact ⟨hno, C.ownSide_none hno⟩

/-! ### sliding -/

/-- The posted price of a PostOnlySlide order is its limit, or one lot behind an opposing order that can trade; it is never more
aggressive than the limit. -/
theorem C08_slide_price (h : EngineCall env book g r book' g') (ht : postType env.order = some .postOnlySlide) {lim : Int}
    (hl : limitOf env.order env.oracle = some lim) {c : Comp} {l : LeafNode} {p : Int} (hp : PostedAt env book r book' c l p) :
    within env.order.side p lim ∧ (p = lim ∨
      ∃ c' l' q, (env.order.side.invert, c', l') ∈ book.resting ∧ TradableAt env.nowTs env.oracle env.order.side.invert c' l' q ∧
        p = behind env.order.side q) := by
  obtain ⟨C⟩ := callRun h
  obtain ⟨_, rfl⟩ := C.postedAt hp
  exact ⟨C.limit hl, priceLots_slide C ht hl⟩

/-- The full claim: the posted price of a PostOnlySlide order crosses no opposing order that can trade. -/
def SlideNeverCrosses : Prop :=
  ∀ (env : Env) (book book' : Book) (g g' : Ledger) (r : OrderResult), EngineCall env book g r book' g' →
  ∀ c l p, postType env.order = some .postOnlySlide → PostedAt env book r book' c l p →
  ∀ c' l' q, (env.order.side.invert, c', l') ∈ book.resting → TradableAt env.nowTs env.oracle env.order.side.invert c' l' q →
    ¬ within env.order.side q p

/-- Missing from the full claim: pegged orders lost behind a skipped one. -/
theorem C08_slide_never_crosses_partial (h : EngineCall env book g r book' g') (ht : postType env.order = some .postOnlySlide)
    {c : Comp} {l : LeafNode} {p : Int} (hp : PostedAt env book r book' c l p) {c' : Comp} {l' : LeafNode} {q : Int}
    (hm : (env.order.side.invert, c', l') ∈ book.resting) (htr : TradableAt env.nowTs env.oracle env.order.side.invert c' l' q)
    (hs : c' = .fixed ∨ NoSkipped book env.order.side.invert env.oracle) : ¬ within env.order.side q p := by
  obtain ⟨C⟩ := callRun h
  obtain ⟨⟨c0, hc⟩, rfl⟩ := C.postedAt hp
  obtain ⟨j, hj, rfl, rfl, rfl, hjv⟩ := item_complete C.core C.P.opp hm htr hs
  exact C.postOnly_crossing (postsOnly_iff.mp (.inr ht)) hc hj hjv

/-! ### crossed books -/

/-- The full claim: the price of the posted remainder crosses no opposing order that can trade after the call. -/
def PostingNeverCrosses : Prop :=
  ∀ (env : Env) (book book' : Book) (g g' : Ledger) (r : OrderResult), EngineCall env book g r book' g' →
  ∀ c l p, PostedAt env book r book' c l p →
  ∀ c' l' q, (env.order.side.invert, c', l') ∈ book'.resting → TradableAt env.nowTs env.oracle env.order.side.invert c' l' q →
    ¬ within env.order.side q p

/-- The quote budget pays for the fills and for one more lot at price `q`, taker fee included. -/
def CouldBuyMore (env : Env) (m : Market) (r : OrderResult) (q : Int) : Prop :=
  (sumQuote r.fills + q) * (1000000 + if env.order.side = .bid then m.takerFee else 0) ≤ env.order.maxQuoteLotsIncludingFees * 1000000

/-- Missing from the full claim: pegged orders lost behind a skipped one, and orders that take until their quote budget is too
small for another lot. -/
theorem C12_posting_never_crosses_partial (h : EngineCall env book g r book' g') {c : Comp} {l : LeafNode} {p : Int}
    (hp : PostedAt env book r book' c l p) {c' : Comp} {l' : LeafNode} {q : Int} (hm : (env.order.side.invert, c', l') ∈ book'.resting)
    (htr : TradableAt env.nowTs env.oracle env.order.side.invert c' l' q)
    (hs : c' = .fixed ∨ NoSkipped book env.order.side.invert env.oracle)
    (hq : PostsOnly env.order ∨ CouldBuyMore env g.market r q) : ¬ within env.order.side q p := by
  obtain ⟨C⟩ := callRun h
  obtain ⟨⟨c0, hc⟩, rfl⟩ := C.postedAt hp
  rcases C.left_over hc hm htr hs with hw | ⟨hpo, hlt⟩
  · exact hw
  · exfalso
    have hsum := C.sumQuote
    rcases hq with hq | hq
    · rw [postsOnly_iff, hpo] at hq; cases hq
    · unfold CouldBuyMore at hq
      cases hsd : env.order.side with
      | ask =>
        rw [hsd, if_neg (by decide)] at hq
        rw [C.maxQ_ask (.inl hsd)] at hsum
        omega
      | bid =>
        rw [hsd, if_pos rfl] at hq
        have t0 := C.core.fees.t0
        have := C.maxQ_bid hsd hpo
        have := (Int.le_ediv_iff_mul_le (show 0 < 1000000 + g.market.takerFee by omega)).mpr hq
        omega

/-- An order is posted at a price that crosses an opposing order. -/
def crossedBy (env : Env) (book bookAfter : Book) (r : OrderResult) (book' : Book) : Bool :=
  book'.resting.any (fun x => decide (x.1 = env.order.side ∧ r.orderId = some x.2.2.key ∧ x.2.2.owner = env.owner) &&
    book.resting.all (fun y => decide (y.2.2.key ≠ x.2.2.key)) &&
    bookAfter.resting.any (fun y => decide (y.1 = env.order.side.invert) &&
      match priceOf env.oracle x.2.1 x.2.2, priceOf env.oracle y.2.1 y.2.2 with
      | some p, some q => decide (TradableAt env.nowTs env.oracle env.order.side.invert y.2.1 y.2.2 q ∧ within env.order.side q p)
      | _, _ => false))

theorem crossedBy_spec {bookAfter : Book} (h : crossedBy env book bookAfter r book' = true) :
    ∃ c l p c' l' q, PostedAt env book r book' c l p ∧ (env.order.side.invert, c', l') ∈ bookAfter.resting ∧
      TradableAt env.nowTs env.oracle env.order.side.invert c' l' q ∧ within env.order.side q p := by
  unfold crossedBy at h
  obtain ⟨⟨s, c, l⟩, hm, h⟩ := List.any_eq_true.mp h
  simp only [Bool.and_eq_true, decide_eq_true_eq] at h
  obtain ⟨⟨⟨rfl, hid, hown⟩, hnew⟩, h⟩ := h
  obtain ⟨⟨s', c', l'⟩, hm', h⟩ := List.any_eq_true.mp h
  simp only [Bool.and_eq_true, decide_eq_true_eq] at h
  obtain ⟨rfl, h⟩ := h
  cases hp : priceOf env.oracle c l with
  | none => rw [hp] at h; cases h
  | some p =>
    cases hq : priceOf env.oracle c' l' with
    | none => rw [hp, hq] at h; cases h
    | some q =>
      rw [hp, hq] at h
      simp only [decide_eq_true_eq] at h
      refine ⟨c, l, p, c', l', q, ⟨hid, hm, ?_, hown, hp⟩, hm', h.1, h.2⟩
      intro c2 l2 h2
      have := List.all_eq_true.mp hnew _ h2
      simpa using this

end

/-! ### counterexamples to the full claims -/

namespace Scenario

/-- Pegged asks at 100 and 200 (oracle at 1000) and a fixed ask at 45 that expires. -/
def opsHidden : List Op :=
  [.createOO 41 31 0, .createOO 42 32 0, .createOO 43 33 0,
   placePegged 0 .ask (-900) 50 2 1, placePegged 0 .ask (-800) 50 2 2,
   .placeOrder (ctx 1 .ask []) { limitOrder .ask 45 1 3 with expiry := 1100 }]

/-- A market with a taker fee of 1 %. -/
def argsHigh : CreateArgs := { args with makerFee := 0, takerFee := 10000 }

def opsDear : List Op := [.createOO 41 31 0, .createOO 42 32 0, .createOO 43 33 0, place 0 .ask 6000 5 1]

end Scenario

/-- With the oracle at 850 the first pegged ask has price -50 and is skipped; the iterator then looks at the expired ask at 45 and
loses the second pegged ask, at price 50.  A post-only bid at 55 is posted. -/
theorem C07_crossing_is_dropped_false : ¬ CrossingPostOnlyIsDropped := by
  obtain ⟨s, r, book', g', h, hp⟩ := Scenario.call_spec (a := Scenario.args) (ops := Scenario.opsHidden)
    (env := Scenario.taker 2 .bid (.fixed 55 .postOnly) 2 1000 850)
    (p := fun s r book' _ => crossedBy (Scenario.taker 2 .bid (.fixed 55 .postOnly) 2 1000 850) s.book s.book r book')
    (by decide +kernel)
  obtain ⟨c, l, p, c', l', q, h1, h2, h3, h4⟩ := crossedBy_spec hp
  intro hall
  obtain ⟨C⟩ := callRun h
  have hp' := (C.postedAt h1).2
  rw [priceLots_postOnly C rfl rfl] at hp'
  have := (hall _ _ _ _ _ _ h 55 c' l' q rfl rfl h2 h3 (hp' ▸ h4)).1
  rw [h1.id] at this
  cases this

/-- The same book: a sliding bid at 55 stays at 55. -/
theorem C08_slide_never_crosses_false : ¬ SlideNeverCrosses := by
  obtain ⟨s, r, book', g', h, hp⟩ := Scenario.call_spec (a := Scenario.args) (ops := Scenario.opsHidden)
    (env := Scenario.taker 2 .bid (.fixed 55 .postOnlySlide) 2 1000 850)
    (p := fun s r book' _ => crossedBy (Scenario.taker 2 .bid (.fixed 55 .postOnlySlide) 2 1000 850) s.book s.book r book')
    (by decide +kernel)
  obtain ⟨c, l, p, c', l', q, h1, h2, h3, h4⟩ := crossedBy_spec hp
  exact fun hall => hall _ _ _ _ _ _ h c l p rfl h1 c' l' q h2 h3 h4

/-- Ask of five lots at 6000; a bid at 6000 with quote budget 12119 takes one lot (the budget without the fee, 11999, does not pay
two) and posts one lot at 6000 with what is left. -/
theorem C12_posting_never_crosses_false_bid : ¬ PostingNeverCrosses := by
  obtain ⟨s, r, book', g', h, hp⟩ := Scenario.call_spec (a := Scenario.argsHigh) (ops := Scenario.opsDear)
    (env := Scenario.taker 2 .bid (.fixed 6000 .limit) 10 12119)
    (p := fun s r book' _ => crossedBy (Scenario.taker 2 .bid (.fixed 6000 .limit) 10 12119) s.book book' r book') (by decide +kernel)
  obtain ⟨c, l, p, c', l', q, h1, h2, h3, h4⟩ := crossedBy_spec hp
  exact fun hall => hall _ _ _ _ _ _ h c l p h1 c' l' q h2 h3 h4

/-- Bid of ten lots at 10; an ask at 4 with quote budget 19 sells one lot there and posts another one at 4. -/
theorem C12_posting_never_crosses_false_ask : ¬ PostingNeverCrosses := by
  obtain ⟨s, r, book', g', h, hp⟩ := Scenario.call_spec (a := Scenario.args)
    (ops := [.createOO 41 31 0, .createOO 43 33 0, Scenario.place 0 .bid 10 10 1])
    (env := Scenario.taker 2 .ask (.fixed 4 .limit) 20 19)
    (p := fun s r book' _ => crossedBy (Scenario.taker 2 .ask (.fixed 4 .limit) 20 19) s.book book' r book') (by decide +kernel)
  obtain ⟨c, l, p, c', l', q, h1, h2, h3, h4⟩ := crossedBy_spec hp
  exact fun hall => hall _ _ _ _ _ _ h c l p h1 c' l' q h2 h3 h4

/-- And for the skipped peg. -/
theorem C12_posting_never_crosses_false_hidden : ¬ PostingNeverCrosses := by
  obtain ⟨s, r, book', g', h, hp⟩ := Scenario.call_spec (a := Scenario.args) (ops := Scenario.opsHidden)
    (env := Scenario.taker 2 .bid (.fixed 55 .postOnly) 2 1000 850)
    (p := fun s r book' _ => crossedBy (Scenario.taker 2 .bid (.fixed 55 .postOnly) 2 1000 850) s.book book' r book') (by decide +kernel)
  obtain ⟨c, l, p, c', l', q, h1, h2, h3, h4⟩ := crossedBy_spec hp
  exact fun hall => hall _ _ _ _ _ _ h c l p h1 c' l' q h2 h3 h4

/-! ### cases -/

/-- Prices and quantities of the orders of one side. -/
def Scenario.prices (oracle : Option Int) (sd : Side) (b : Book) : List (Option Int × Int) :=
  (b.resting.filter (fun x => decide (x.1 = sd))).map (fun x => (priceOf oracle x.2.1 x.2.2, x.2.2.quantity))

/-! A post-only bid at 1015 against asks at 1007 (pegged) and 1010: dropped, the asks unchanged. -/
open Scenario in
example : ∃ (s : State) (r : OrderResult) (book' : Book) (g' : Ledger), EngineCall (taker 2 .bid (.fixed 1015 .postOnly) 9 20000) s.book s.g r book' g' ∧
    decide (prices (some 1000) .ask s.book = [(some 1010, 5), (some 1020, 3), (some 1007, 2)] ∧ r.orderId = none ∧
      prices (some 1000) .ask book' = prices (some 1000) .ask s.book) = true :=
  call_spec (a := args) (ops := ops0) (p := fun s r book' _ =>
    decide (prices (some 1000) .ask s.book = [(some 1010, 5), (some 1020, 3), (some 1007, 2)] ∧ r.orderId = none ∧
      prices (some 1000) .ask book' = prices (some 1000) .ask s.book)) (by decide +kernel)

/-! A sliding one is posted at 1006. -/
open Scenario in
example : ∃ (s : State) (r : OrderResult) (book' : Book) (g' : Ledger), EngineCall (taker 2 .bid (.fixed 1015 .postOnlySlide) 9 20000) s.book s.g r book' g' ∧
    decide (r.orderId.isSome ∧ prices (some 1000) .bid book' = [(some 990, 4), (some 1006, 9), (some 995, 2)]) = true :=
  call_spec (a := args) (ops := ops0) (p := fun _ r book' _ =>
    decide (r.orderId.isSome ∧ prices (some 1000) .bid book' = [(some 990, 4), (some 1006, 9), (some 995, 2)])) (by decide +kernel)

/-! A limit bid at 1015 takes 1007 and 1010 and rests at 1015, below the remaining ask at 1020. -/
open Scenario in
example : ∃ (s : State) (r : OrderResult) (book' : Book) (g' : Ledger), EngineCall (taker 2 .bid (.fixed 1015 .limit) 9 20000) s.book s.g r book' g' ∧
    decide (r.orderId.isSome ∧ prices (some 1000) .bid book' = [(some 990, 4), (some 1015, 2), (some 995, 2)] ∧
      prices (some 1000) .ask book' = [(some 1020, 3)] ∧
      (sumQuote r.fills + 1020) * (1000000 + 400) ≤ 20000 * 1000000) = true :=
  call_spec (a := args) (ops := ops0) (p := fun _ r book' _ =>
    decide (r.orderId.isSome ∧ prices (some 1000) .bid book' = [(some 990, 4), (some 1015, 2), (some 995, 2)] ∧
      prices (some 1000) .ask book' = [(some 1020, 3)] ∧
      (sumQuote r.fills + 1020) * (1000000 + 400) ≤ 20000 * 1000000)) (by decide +kernel)

end OB
