import Verif.Props.C34_Expiry
import Verif.Props.C04_Fills
import Verif.Spec.Deliver
import Verif.Spec.Settle
import Verif.Props.C33_Others
/-!
C27 — Self-trade handling follows the requested behaviour.

The third claim fails for the maker fee: see `C27_self_trade_loses_maker_fee`.
-/
namespace OB
open Spec

section
variable {env : Env} {book book' : Book} {g g' : Ledger} {r : OrderResult}

/-- An opposing order that no longer could trade and was dropped. -/
def Dropped (env : Env) (book' : Book) (c : Comp) (l : LeafNode) : Prop :=
  Gone book' env.order.side.invert c l ∧ (expired env.nowTs l ∨
    ∃ p, c = .pegged ∧ priceOf env.oracle c l = some p ∧ beyondPeg env.order.side.invert p l)

/-- What becomes of the taker's own orders on the other side. -/
theorem own_orders (h : EngineCall env book g r book' g') (hs : env.order.selfTradeBehavior ≠ .decrementTake) :
    (∀ f ∈ r.fills, f.taker = env.owner ∧ f.maker ≠ f.taker) ∧
    ∀ c l, (env.order.side.invert, c, l) ∈ book.resting → l.owner = env.owner →
      (env.order.side.invert, c, l) ∈ book'.resting ∨
      (env.order.selfTradeBehavior = .cancelProvide ∧ Gone book' env.order.side.invert c l ∧
        ∃ p, TradableAt env.nowTs env.oracle env.order.side.invert c l p) ∨ Dropped env book' c l := by
  obtain ⟨C⟩ := callRun h
  have key : ∀ f ∈ r.fills, f.taker = env.owner ∧ f.maker ≠ f.taker := by
    intro f hf
    obtain ⟨v, hv, he, hi⟩ := C.fill_visit hf
    obtain ⟨q, sf, h1, _⟩ := fill_some.mp he
    obtain ⟨_, _, _, _, _, _, _, _, _, k1, k2⟩ := (C.T.ok v hv).fill q sf h1
    refine ⟨hi.taker.2.1, ?_⟩
    rw [hi.maker.1, hi.taker.2.1]
    cases sf with
    | true => exact absurd (k1 rfl).2.2 hs
    | false => exact k2 rfl
  refine ⟨key, fun c l hm ho => ?_⟩
  have noFill : ∀ f ∈ r.fills, ¬ IsFillOf env book c l f := by
    intro f hf hi
    obtain ⟨h1, h2⟩ := key f hf
    rw [hi.maker.1, h1, ho] at h2
    exact h2 rfl
  cases (C.became' hm).1 with
  | stays h => exact .inl h
  | partly f hf fill _ _ => exact absurd fill (noFill f hf)
  | filled f hf fill _ _ => exact absurd fill (noFill f hf)
  | cancelled p own stb tr gone => exact .inr (.inl ⟨stb, gone, p, tr⟩)
  | dropped why gone =>
    refine .inr (.inr ⟨gone, ?_⟩)
    rcases why with h | ⟨p, h1, h2, h3⟩
    · exact .inl h
    · exact .inr ⟨p, h1, h2, h3⟩

/-- With AbortTransaction a successful call matches no own order: no fill is with oneself; the own orders of the other side stay as
they are, or are dropped because they can no longer trade; and no fill is of an order over which a tradable own order has priority.
(A pegged own order is only visible to the matching if no pegged price is out of range: `NoSkipped`, cf. C06.) -/
theorem C27_abort (h : EngineCall env book g r book' g') (hs : env.order.selfTradeBehavior = .abortTransaction) :
    (∀ f ∈ r.fills, f.taker = env.owner ∧ f.maker ≠ f.taker) ∧
    (∀ c l, (env.order.side.invert, c, l) ∈ book.resting → l.owner = env.owner →
      (env.order.side.invert, c, l) ∈ book'.resting ∨ Dropped env book' c l) ∧
    ∃ xs : List (Comp × LeafNode × FillEvent), r.fills = xs.map (fun x => x.2.2) ∧ (∀ x ∈ xs, IsFillOf env book x.1 x.2.1 x.2.2) ∧
      ∀ x ∈ xs, ∀ c l p, (env.order.side.invert, c, l) ∈ book.resting → l.owner = env.owner →
        TradableAt env.nowTs env.oracle env.order.side.invert c l p → (c = .fixed ∨ NoSkipped book env.order.side.invert env.oracle) →
        ¬ Before env.order.side.invert p l x.2.2.price x.2.1 := by
  obtain ⟨h1, h2⟩ := own_orders h (by rw [hs]; decide)
  refine ⟨h1, fun c l hm ho => ?_, ?_⟩
  · rcases h2 c l hm ho with h | ⟨h, _⟩ | h
    · exact .inl h
    · rw [hs] at h; cases h
    · exact .inr h
  · obtain ⟨xs, k1, k2, k3⟩ := C06_better_used_up_first_partial h
    refine ⟨xs, k1, k2, fun x hx c l p hm ho ht hsk hb => ?_⟩
    rcases k3 x hx c l p hm ht hb hsk with ⟨y, hy, e1, e2, _⟩ | ⟨_, h, _⟩
    · have hf : y.2.2 ∈ r.fills := by rw [k1]; exact List.mem_map.mpr ⟨y, hy, rfl⟩
      obtain ⟨t1, t2⟩ := h1 _ hf
      rw [(k2 y hy).maker.1, t1, e2, ho] at t2
      exact t2 rfl
    · rw [hs] at h; cases h

/-- With CancelProvide no fill is with oneself, so the amounts taken are those of fills with others; an own order of the other side
stays as it is, is cancelled although it could trade, or is dropped because it no longer can; and the own tradable orders with
priority over any order filled are cancelled. -/
theorem C27_cancel_provide (h : EngineCall env book g r book' g') (hs : env.order.selfTradeBehavior = .cancelProvide) :
    (∀ f ∈ r.fills, f.taker = env.owner ∧ f.maker ≠ f.taker) ∧
    r.totalBaseTakenNative = sumQty r.fills * g.market.baseLotSize ∧ r.totalQuoteTakenNative = sumQuote r.fills * g.market.quoteLotSize ∧
    (∀ c l, (env.order.side.invert, c, l) ∈ book.resting → l.owner = env.owner →
      (env.order.side.invert, c, l) ∈ book'.resting ∨
      (Gone book' env.order.side.invert c l ∧ ∃ p, TradableAt env.nowTs env.oracle env.order.side.invert c l p) ∨ Dropped env book' c l) ∧
    ∃ xs : List (Comp × LeafNode × FillEvent), r.fills = xs.map (fun x => x.2.2) ∧ (∀ x ∈ xs, IsFillOf env book x.1 x.2.1 x.2.2) ∧
      ∀ x ∈ xs, ∀ c l p, (env.order.side.invert, c, l) ∈ book.resting → l.owner = env.owner →
        TradableAt env.nowTs env.oracle env.order.side.invert c l p → (c = .fixed ∨ NoSkipped book env.order.side.invert env.oracle) →
        Before env.order.side.invert p l x.2.2.price x.2.1 → Gone book' env.order.side.invert c l := by
  obtain ⟨h1, h2⟩ := own_orders h (by rw [hs]; decide)
  obtain ⟨C⟩ := callRun h
  refine ⟨h1, C.takenBase, C.takenQuote, fun c l hm ho => ?_, ?_⟩
  · rcases h2 c l hm ho with h | ⟨_, h⟩ | h
    · exact .inl h
    · exact .inr (.inl h)
    · exact .inr (.inr h)
  · obtain ⟨xs, k1, k2, k3⟩ := C06_better_used_up_first_partial h
    refine ⟨xs, k1, k2, fun x hx c l p hm ho ht hsk hb => ?_⟩
    rcases k3 x hx c l p hm ht hb hsk with ⟨y, hy, e1, e2, _⟩ | ⟨_, _, h⟩
    · have hf : y.2.2 ∈ r.fills := by rw [k1]; exact List.mem_map.mpr ⟨y, hy, rfl⟩
      obtain ⟨t1, t2⟩ := h1 _ hf
      rw [(k2 y hy).maker.1, t1, e2, ho] at t2
      exact absurd rfl t2
    · exact fun l' hl' => h (_, _, l') hl' rfl rfl

/-- The taker fee is charged on the fills with others only; the maker fee and rebate booked when a self-trade is delivered
(`Delivered`, C22) are zero.  Missing from the full claim: the maker fee that a resting bid locked is not given back. -/
theorem C27_no_fee_on_self_trades_partial (h : EngineCall env book g r book' g') :
    IsCeilFee (othersQuote r.fills * g.market.quoteLotSize) g.market.takerFee r.takerFees ∧
    (∀ f ∈ r.fills, f.maker = f.taker → fillMakerFee g.market f = 0 ∧ fillRebate g.market f = 0 ∧
      (f.takerSide = .bid → ∀ a, creditQuote g.market a (.fill f) = fillQuote g.market f)) := by
  obtain ⟨C⟩ := callRun h
  refine ⟨?_, fun f hf he => ?_⟩
  · rw [C.fees_eq, CallRun.othersQuote_eq]
    unfold ceilTaker IsCeilFee
    constructor <;> intros <;> omega
  · have h1 : fillMakerFee g.market f = 0 := by unfold fillMakerFee; rw [if_pos he]
    have h2 : fillRebate g.market f = 0 := by unfold fillRebate; rw [if_pos he]
    refine ⟨h1, h2, fun ht a => ?_⟩
    simp only [creditQuote, ht, h1, h2]
    omega

end

/-- The behaviour is the one asked for in the instruction: none of the fills of an order asked for with AbortTransaction or
CancelProvide is with oneself. -/
theorem C27_as_asked {s s' : State} {op : Op} {p : Placer} (hr : Reachable s) (h : step s op = .ok s') (hp : placer op = some p) :
    ∃ s1 cs g1, Placement s s1 s' p cs g1 ∧ Serves op p.now cs ∧
      ∀ x ∈ cs, ∃ q ∈ asked op, x.1.order.selfTradeBehavior = q.selfTrade ∧
        (q.selfTrade ≠ .decrementTake → ∀ f ∈ x.2.fills, f.maker ≠ f.taker) := by
  obtain ⟨s1, cs, g1, P, hs⟩ := placement_serves hr h hp
  refine ⟨s1, cs, g1, P, hs, fun x hx => ?_⟩
  obtain ⟨q, hq, hf⟩ := Serves.mem hs x hx
  refine ⟨q, hq, hf.selfTrade, fun hne f hff => ?_⟩
  obtain ⟨_, _, _, _, _, _, _, _, hc, _⟩ := calls_split P.calls x hx
  exact ((own_orders hc (by rw [hf.selfTrade]; exact hne)).1 f hff).2

/-! The hypotheses are met. -/

namespace SelfTradeCase
open Scenario

/-- Trader 31, who has an ask of 5 at 1010 behind a pegged ask of trader 32 at 1007, buys at up to 1010 (1006 for the abort case,
where a higher price would meet the own order; at 1007 it takes the pegged order only). -/
def buy (stb : SelfTradeBehavior) (price qty : Int) : Env :=
  { taker 0 .bid (.fixed price .limit) qty 100000 with order := { (taker 0 .bid (.fixed price .limit) qty 100000).order with selfTradeBehavior := stb } }

example : ∃ (s : State) (r : OrderResult) (book' : Book) (g' : Ledger), EngineCall (buy .abortTransaction 1007 2) s.book s.g r book' g' ∧
    decide (r.fills.length = 1 ∧ book'.resting.any (fun x => x.1 = .ask ∧ x.2.2.owner = 41)) = true :=
  call_spec (a := args) (ops := ops0) (env := buy .abortTransaction 1007 2)
    (p := fun _ r book' _ => decide (r.fills.length = 1 ∧ book'.resting.any (fun x => x.1 = .ask ∧ x.2.2.owner = 41))) (by decide +kernel)

/-- One lot more and the transaction would fail. -/
theorem abort_aborts : okAnd (exec args ops0) (fun s => match newOrder (buy .abortTransaction 1010 3) s.book s.g with
    | .error e => decide (e = .wouldSelfTrade) | .ok _ => false) = true := by
  decide +kernel

/-- The pegged order is taken, the own ask cancelled, and one lot taken from the next ask at 1020. -/
example : ∃ (s : State) (r : OrderResult) (book' : Book) (g' : Ledger), EngineCall (buy .cancelProvide 1020 3) s.book s.g r book' g' ∧
    decide (r.fills.map (fun f => (f.price, f.quantity)) = [(1007, 2), (1020, 1)] ∧
      book'.resting.all (fun x => decide (x.1 = .ask → x.2.2.owner ≠ 41))) = true :=
  call_spec (a := args) (ops := ops0) (env := buy .cancelProvide 1020 3)
    (p := fun _ r book' _ => decide (r.fills.map (fun f => (f.price, f.quantity)) = [(1007, 2), (1020, 1)] ∧
      book'.resting.all (fun x => decide (x.1 = .ask → x.2.2.owner ≠ 41)))) (by decide +kernel)

/-- With DecrementTake the own ask is filled, and the fee is that of the pegged order alone: 2 * 1007 * 10 * 0.04 %, rounded up. -/
example : ∃ (s : State) (r : OrderResult) (book' : Book) (g' : Ledger), EngineCall (buy .decrementTake 1020 3) s.book s.g r book' g' ∧
    decide (r.fills.map (fun f => (f.price, f.quantity)) = [(1007, 2), (1010, 1)] ∧ r.takerFees = 9) = true :=
  call_spec (a := args) (ops := ops0) (env := buy .decrementTake 1020 3)
    (p := fun _ r _ _ => decide (r.fills.map (fun f => (f.price, f.quantity)) = [(1007, 2), (1010, 1)] ∧ r.takerFees = 9)) (by decide +kernel)

/-- Trader 31 buys 5 lots at 1000 from themselves, has the event delivered, and settles. -/
def opsS : List Op := [place 0 .bid 1000 5 1, place 0 .ask 1000 5 2, .consumeEvents 0 8 [41],
  .settleFunds { signer := 31, penaltyPayer := 31, ooKey := 41, userBase := 51, userQuote := 61, referrer := none }]

instance (a : OOA) : Decidable (HoldsNothing a) :=
  decidable_of_iff (a.position.baseFreeNative = 0 ∧ a.position.quoteFreeNative = 0 ∧
    (a.position.bidsBaseLots = 0 ∧ a.position.bidsQuoteLots = 0) ∧ a.position.asksBaseLots = 0 ∧ a.position.lockedMakerFees = 0 ∧
    a.position.referrerRebatesAvailable = 0 ∧ ∀ oo ∈ a.openOrders, oo.isFree = true)
    ⟨fun ⟨h1, h2, h3, h4, h5, h6, h7⟩ => ⟨h1, h2, h3, h4, h5, h6, h7⟩, fun ⟨h1, h2, h3, h4, h5, h6, h7⟩ => ⟨h1, h2, h3, h4, h5, h6, h7⟩⟩

theorem self_trade_run : okAnd (exec args [.createOO 41 31 0]) (fun s => okAnd (run s opsS) (fun s' => decide (
    (∀ x ∈ s.g.accts, x.1 = 41 ∧ x.2.owner = 31 ∧ HoldsNothing x.2) ∧ s.book.resting = [] ∧ s'.book.resting = [] ∧
    s.g.heap.events = [] ∧ s'.g.heap.events = [] ∧ (∀ x ∈ s'.g.accts, HoldsNothing x.2) ∧
    tokens s' 51 = tokens s 51 ∧ tokens s' 61 < tokens s 61 ∧
    s'.g.market.feesAvailable - s.g.market.feesAvailable = tokens s 61 - tokens s' 61))) = true := by
  decide +kernel

end SelfTradeCase

/-- The full claim on fees fails: a trader who only trades with themselves, with DecrementTake, ends up with the same base and less
quote, nothing left in the market, and the difference booked as market fees.  It is the maker fee that the bid had locked; the fill
does not release it, and settling sweeps it as a rounding difference. -/
theorem C27_self_trade_loses_maker_fee : ∃ (s s' : State) (ops : List Op), Reachable s ∧ Runs s ops s' ∧
    (∀ op ∈ ops, ∀ q ∈ asked op, q.selfTrade = .decrementTake) ∧ (∀ op ∈ ops, ∀ k ∈ signers op, k = 31) ∧
    (∀ x ∈ s.g.accts, x.1 = 41 ∧ x.2.owner = 31 ∧ HoldsNothing x.2) ∧ s.book.resting = [] ∧ s'.book.resting = [] ∧
    s.g.heap.events = [] ∧ s'.g.heap.events = [] ∧ (∀ x ∈ s'.g.accts, HoldsNothing x.2) ∧
    tokens s' 51 = tokens s 51 ∧ tokens s' 61 < tokens s 61 ∧
    s'.g.market.feesAvailable - s.g.market.feesAvailable = tokens s 61 - tokens s' 61 := by
  obtain ⟨s, h1, h2⟩ := Scenario.okAnd_spec SelfTradeCase.self_trade_run
  obtain ⟨s', h3, h4⟩ := Scenario.okAnd_spec h2
  rw [decide_eq_true_eq] at h4
  exact ⟨s, s', SelfTradeCase.opsS, Scenario.exec_reachable h1, OthersCase.run_runs h3, by decide, by decide, h4⟩

end OB
