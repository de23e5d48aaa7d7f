import Verif.Props.C34_Expiry
import Verif.Proofs.FeeFun
import Verif.Proofs.Facts
import Verif.Spec.Deliver
import Verif.Props.C04_Fills
/-!
C35 — Pegged orders never trade beyond their peg limit.

True of pegged orders that rest.  When it is placed, a pegged order first takes what it can at the oracle price plus its offset, and there the
program does not look at the peg limit (book.rs:126-343; order.rs:117-162; only posting does, book.rs:364-372): `C35_not_PegLimitKept`.
-/
namespace OB
open Spec

/-- Price `p` is acceptable to a resting order of side `s` with limit `lim`. -/
def okPrice (s : Side) (p lim : Int) : Prop :=
  match s with
  | .bid => p ≤ lim
  | .ask => lim ≤ p

/-- A pegged order is filled at the oracle price plus its offset, and only within its peg limit, whatever the oracle price. -/
theorem C35_within_peg_limit {s s' : State} {op : Op} {p : Placer} {side : Side} {l : LeafNode} {f : FillEvent}
    (h : Fills s s' op p side .pegged l f) :
    okPrice side f.price l.pegLimit ∧ ∃ oracle, p.oracle = some oracle ∧ f.price = oracle + ((l.key / 2 ^ 64 : Nat) : Int) - 2 ^ 63 := by
  obtain ⟨_, s1, pre, x, post, g1, book, g, book', g', P, _, h2, _, _, rfl, h6⟩ := h.full
  obtain ⟨C⟩ := callRun h2
  obtain ⟨oo, hok, _, _⟩ := resting_ok C.core h6.resting
  have h1 := (hok.pegged rfl).1
  have hb := h6.tradable.peg rfl
  have hp := h6.tradable.price
  unfold beyondPeg at hb
  refine ⟨?_, ?_⟩
  · unfold okPrice
    cases hs : x.1.order.side.invert <;> rw [hs] at hb <;> simp only at hb ⊢ <;> omega
  · have ho := (P.ctx x (by simp)).2.2.2
    unfold priceOf at hp
    rw [← ho]
    cases hx : x.1.oracle with
    | none => rw [hx] at hp; cases hp
    | some o => rw [hx] at hp; injection hp with hp; exact ⟨o, rfl, hp.symm⟩

/-- An order placed with a peg limit, once it rests, is never filled beyond that limit, by whatever instruction after whatever other instructions and
oracle prices. -/
theorem C35_placed_limit_kept_partial {s s1 : State} {op : Op} (hr : Reachable s) (h : step s op = .ok s1) {side : Side} {l : LeafNode}
    (hm : (side, .pegged, l) ∈ s1.book.resting) (hnew : ∀ l0, (side, .pegged, l0) ∈ s.book.resting → l0.key ≠ l.key) :
    ∃ p q lim, placer op = some p ∧ q ∈ asked op ∧ q.side = side ∧ q.client = l.clientOrderId ∧ q.pegLimit = some lim ∧
      ∀ (ops : List Op) (s2 s3 : State) (op' : Op) (p' : Placer) (l' : LeafNode) (f : FillEvent), Runs s1 ops s2 →
        Fills s2 s3 op' p' side .pegged l' f → l'.key = l.key → okPrice side f.price lim := by
  obtain ⟨p, q, h1, h2, h3⟩ := C34_posted hr h hm hnew
  have hpeg : q.pegLimit = some l.pegLimit := by
    rcases h3.peg with ⟨hc, _⟩ | ⟨_, hc⟩
    · cases hc
    · exact hc
  refine ⟨p, q, l.pegLimit, h1, h2, h3.side.symm, h3.client.symm, hpeg, fun ops s2 s3 op' p' l' f hR hF hk => ?_⟩
  obtain ⟨e, _⟩ := fills_later (.step _ _ _ hr h) hm hR hF hk
  have hw := (C35_within_peg_limit hF).1
  rw [e] at hw
  exact hw

/-- A pegged order rests only with a positive peg limit. -/
theorem C35_has_limit (s : State) (hr : Reachable s) (side : Side) (l : LeafNode) (hm : (side, .pegged, l) ∈ s.book.resting) :
    1 ≤ l.pegLimit := by
  obtain ⟨oo, hok, _, _⟩ := resting_ok (reachable_Inv hr).core hm
  exact (hok.pegged rfl).1

/-- What was locked for the quantity of fill `f` of a pegged bid: value and maker fee at the peg limit. -/
def pegLocked (m : Market) (f : FillEvent) : Int :=
  f.quantity * f.pegLimit * m.quoteLotSize + f.quantity * f.pegLimit * m.quoteLotSize * max m.makerFee 0 / 1000000

theorem peg_cost {m : Market} {f : FillEvent} (hm : 0 < m.quoteLotSize) (hq : 1 ≤ f.quantity) (hp : 1 ≤ f.price) (hle : f.price ≤ f.pegLimit) :
    fillQuote m f + fillMakerFee m f ≤ pegLocked m f := by
  have h1 : f.quantity * f.price * m.quoteLotSize ≤ f.quantity * f.pegLimit * m.quoteLotSize :=
    Int.mul_le_mul_of_nonneg_right (Int.mul_le_mul_of_nonneg_left hle (by omega)) (by omega)
  have h0 : 0 ≤ f.quantity * f.price * m.quoteLotSize := Int.mul_nonneg (Int.mul_nonneg (by omega) (by omega)) (by omega)
  have h2 := floorFee_mono (mf := m.makerFee) h1
  have h3 := floorFee_nonneg (mf := m.makerFee) h0
  have e : fillQuote m f = f.quantity * f.price * m.quoteLotSize := rfl
  unfold floorFee at h2 h3
  unfold fillMakerFee pegLocked
  rw [e]
  split <;> omega

/-- A fill of a pegged bid costs, with fee, at most what was locked for the filled quantity. -/
theorem C35_costs_at_most_locked {s s' : State} {op : Op} {p : Placer} {l : LeafNode} {f : FillEvent} (hr : Reachable s)
    (h : Fills s s' op p .bid .pegged l f) : f.pegLimit = l.pegLimit ∧ fillQuote s.g.market f + fillMakerFee s.g.market f ≤ pegLocked s.g.market f := by
  have hw := (C35_within_peg_limit h).1
  obtain ⟨_, s1, pre, x, post, g1, book, g, book', g', P, _, h2, _, _, _, h6⟩ := h.full
  have hl := h6.maker.2.2.2.2
  refine ⟨hl, peg_cost (reachable_Inv hr).core.qls h6.quantity.1 (h6.tradable.range rfl).1 ?_⟩
  rw [hl]
  exact hw

/-- The same for every fill waiting in the queue, whenever it is delivered: the delivery never takes quote from the free balance of
the maker of a pegged bid. -/
theorem C35_queued_costs_at_most_locked (s : State) (hr : Reachable s) (f : FillEvent) (hf : Event.fill f ∈ s.g.heap.events)
    (hb : f.takerSide = .ask) (hp : f.pegLimit ≠ -1) :
    f.price ≤ f.pegLimit ∧ fillQuote s.g.market f + fillMakerFee s.g.market f ≤ pegLocked s.g.market f ∧
      ∀ a, 0 ≤ creditQuote s.g.market a (.fill f) := by
  have hi := reachable_Inv hr
  obtain ⟨O, q, hl⟩ := hi.core.linv
  obtain ⟨o, ho, hk⟩ := hl.mem_ev hf
  have hok := hl.ginv.ok _ ho
  cases o with
  | rest => cases hk
  | out => cases hk
  | fill f' oo =>
    injection hk with hk; injection hk with hk; subst hk
    obtain ⟨p1, _, p3⟩ := hok.fill f' oo rfl
    have hq : 1 ≤ f'.quantity := hok.qty
    have hle : f'.price ≤ f'.pegLimit := by
      have := p3 hb
      unfold fillLockPrice at this
      rwa [if_pos ⟨hp, hb⟩] at this
    have hc := peg_cost hi.core.qls hq p1 hle
    refine ⟨hle, hc, fun a => ?_⟩
    have h0 : 0 ≤ f'.quantity * f'.price * s.g.market.quoteLotSize :=
      Int.mul_nonneg (Int.mul_nonneg (by omega) (by omega)) (by have := hi.core.qls; omega)
    have hreb : 0 ≤ fillRebate s.g.market f' := by
      unfold fillRebate
      have e : fillQuote s.g.market f' = f'.quantity * f'.price * s.g.market.quoteLotSize := rfl
      rw [e]
      have := Int.mul_nonneg h0 (show 0 ≤ max (-s.g.market.makerFee) 0 by omega)
      omega
    simp only [creditQuote, hb, fillLockedFee, fillLocked, if_neg hp]
    unfold pegLocked at hc
    omega

/-- The claim for the order that is being placed: none of the trades it makes is beyond its peg limit. -/
def PegLimitKept : Prop :=
  ∀ (s s' : State) (c : PlaceCtx) (a : PlaceOrderPeggedArgs) (f : FillEvent), Reachable s → step s (.placeOrderPegged c a) = .ok s' →
    Event.fill f ∈ s'.g.heap.events → Event.fill f ∉ s.g.heap.events → okPrice a.side f.price a.pegLimit

/-- What holds: the oracle price plus the offset bounds the trades of the order that is being placed.  What is missing is the peg limit. -/
theorem C35_taking_partial {s s' : State} {c : PlaceCtx} {a : PlaceOrderPeggedArgs} {f : FillEvent} (hr : Reachable s)
    (h : step s (.placeOrderPegged c a) = .ok s') (hf : Event.fill f ∈ s'.g.heap.events) (hn : Event.fill f ∉ s.g.heap.events) :
    ∃ o, c.oracle = some o ∧ okPrice a.side f.price (o + a.offset) := by
  obtain ⟨s1, cs, g1, P, hS⟩ := placement_serves hr h (p := { signer := c.signer, owner := c.ooKey, hasOO := true, admin := c.admin, now := c.now, oracle := c.oracle }) rfl
  obtain ⟨E, h1, h2⟩ := calls_new_fills P.calls
  have hh : s1.g.heap = s.g.heap := by
    rcases P.first hr with e | ⟨_, _, _, ls, hc⟩
    · rw [e]
    · exact hc.heap
  rw [P.heap, h1, hh] at hf
  rcases List.mem_append.mp hf with hf | hf
  · exact absurd hf hn
  obtain ⟨x, hx, hxf⟩ := h2 f hf
  obtain ⟨pre, post, b1, ga, b2, gb, _, _, hcall, _⟩ := calls_split P.calls x hx
  have hF : Follows ⟨a.side, a.offset, some a.pegLimit, a.orderType, a.clientOrderId, a.expiry, a.stb⟩ x.1 := by
    rcases hS with hE | ⟨he, _⟩
    · simp only [asked, List.filter_cons, List.filter_nil] at hE
      split at hE
      · cases hE with
        | cons q y qs xs h hs => cases hs; rw [List.mem_singleton] at hx; rw [hx]; exact h
      · cases hE; cases hx
    · cases he
  have ho := (P.ctx x hx).2.2.2
  simp only at ho
  have hpar := hF.params
  have key : ∀ t, x.1.order.params = .oraclePegged a.offset t a.pegLimit → ∃ o, c.oracle = some o ∧ okPrice a.side f.price (o + a.offset) := by
    intro t e
    cases hor : c.oracle with
    | none =>
      obtain ⟨C⟩ := callRun hcall
      have := C.R.price
      unfold Order.priceLots at this
      rw [e, ho, hor] at this
      cases this
    | some o =>
      have hl : limitOf x.1.order x.1.oracle = some (o + a.offset) := by unfold limitOf; rw [e, ho, hor]; rfl
      have hw := C04_limit_respected hcall f hxf _ hl
      rw [hF.side] at hw
      exact ⟨o, rfl, hw⟩
  simp only at hpar
  cases ht : a.orderType <;> rw [ht] at hpar <;> first | exact key _ hpar | exact hpar.elim

/-! The hypotheses are met. -/

namespace PegCase
open Scenario

/-- A pegged bid of trader 31 (offset -5, limit 1000; 995 at oracle price 1000), then the oracle price rises to 1004 and an ask at 990
fills it at 999; at oracle price 1006 it would trade at 1001 and does not. -/
def sellAt (oracle : Int) : Op := .placeOrder { ctx 1 .ask [] with oracle := some oracle } (limitOrder .ask 990 1 8)

def opsP : List Op := [.createOO 41 31 0, .createOO 42 32 0]

theorem peg_filled : okAnd (exec args opsP) (fun s => okAnd (step s (placePegged 0 .bid (-5) 1000 2 3)) (fun s1 =>
    decide (s.book.resting = [] ∧ s1.book.resting.map (fun x => (x.1, x.2.1)) = [(.bid, .pegged)]) &&
    okAnd (step s1 (sellAt 1004)) (fun s3 =>
      (s3.g.heap.events.any (fun e => match e with | .fill f => decide (f.maker = 41 ∧ f.price = 999 ∧ f.takerSide = .ask ∧ f.pegLimit = 1000) | .out _ => false)) &&
      decide (s1.g.heap.events = [])) &&
    okAnd (step s1 (sellAt 1006)) (fun s3 => s3.g.heap.events.all (fun e => match e with | .fill _ => false | .out _ => true)))) = true := by
  decide +kernel

example : ∃ (s s1 s3 : State) (l l' : LeafNode) (f : FillEvent) (p' : Placer), Reachable s ∧
    step s (placePegged 0 .bid (-5) 1000 2 3) = .ok s1 ∧
    (Side.bid, Comp.pegged, l) ∈ s1.book.resting ∧ (∀ l0, (Side.bid, Comp.pegged, l0) ∈ s.book.resting → l0.key ≠ l.key) ∧ Runs s1 [] s1 ∧
    step s1 (sellAt 1004) = .ok s3 ∧ Event.fill f ∈ s3.g.heap.events ∧ f.takerSide = .ask ∧ f.pegLimit ≠ -1 ∧
    Fills s1 s3 (sellAt 1004) p' .bid .pegged l' f ∧ l'.key = l.key := by
  obtain ⟨s, h1, h2⟩ := okAnd_spec peg_filled
  obtain ⟨s1, h3, h4⟩ := okAnd_spec h2
  rw [Bool.and_eq_true, Bool.and_eq_true, decide_eq_true_eq] at h4
  obtain ⟨⟨⟨e1, e2⟩, h4⟩, _⟩ := h4
  obtain ⟨s3, h5, h6⟩ := okAnd_spec h4
  rw [Bool.and_eq_true, decide_eq_true_eq, List.any_eq_true] at h6
  obtain ⟨⟨e, he, hf⟩, h7⟩ := h6
  have hr := exec_reachable h1
  have hr1 : Reachable s1 := .step _ _ _ hr h3
  cases e with
  | out o => cases hf
  | fill f =>
    rw [decide_eq_true_eq] at hf
    obtain ⟨p, side, c, l', hF⟩ := C34_all_fills hr1 h5 he (by rw [h7]; exact List.not_mem_nil)
    rcases fills_origin hr1 hF with ⟨l0, k1, k2, _⟩ | ⟨_, k2⟩
    · have hx : (side, c) ∈ s1.book.resting.map (fun x => (x.1, x.2.1)) := List.mem_map.mpr ⟨_, k1, rfl⟩
      rw [e2, List.mem_singleton] at hx
      injection hx with x1 x2
      subst x1 x2
      exact ⟨s, s1, s3, l0, l', f, p, hr, h3, k1, (by rw [e1]; intro _ h; cases h), .nil, h5, he, hf.2.2.1, (by rw [hf.2.2.2]; decide), hF,
        by rw [k2]⟩
    · exfalso
      obtain ⟨hp, _, _, x, _, _, _, _, _, _, _, _, _, _, _, _, q6⟩ := hF.full
      injection hp with hp
      have hm := q6.maker.1
      rw [k2, ← hp, hf.1] at hm
      exact absurd hm (by decide)

/-- A market with an ask of trader 32 at 1050; a pegged bid of trader 31 with offset 100 and peg limit 1000, at oracle price 1000, buys there. -/
theorem beyond : okAnd (exec args (opsP ++ [place 1 .ask 1050 3 5])) (fun s => okAnd (step s (placePegged 0 .bid 100 1000 2 3)) (fun s1 =>
    s1.g.heap.events.any (fun e => match e with | .fill f => decide (f.price = 1050 ∧ f.quantity = 2 ∧ f.takerSide = .bid) | .out _ => false) &&
      decide (s.g.heap.events = []))) = true := by
  decide +kernel

end PegCase

/-- A pegged bid with peg limit 1000 buys two lots for 1050 each. -/
theorem C35_not_PegLimitKept : ¬ PegLimitKept := by
  intro hall
  obtain ⟨s, h1, h2⟩ := Scenario.okAnd_spec PegCase.beyond
  obtain ⟨s1, h3, h4⟩ := Scenario.okAnd_spec h2
  rw [Bool.and_eq_true, decide_eq_true_eq, List.any_eq_true] at h4
  obtain ⟨⟨e, he, hf⟩, h0⟩ := h4
  cases e with
  | out o => cases hf
  | fill f =>
    rw [decide_eq_true_eq] at hf
    have h : f.price ≤ 1000 := hall s s1 _ _ f (Scenario.exec_reachable h1) h3 he (by rw [h0]; exact List.not_mem_nil)
    omega

end OB
