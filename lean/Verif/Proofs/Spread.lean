import Verif.Spec.Spread
import Verif.Props.C44_Orders
import Verif.Props.C31_Take
import Verif.Props.C69_Group
import Verif.Props.C42_Config
import Verif.Props.C04_Fills
import Verif.Proofs.Depth
import Mathlib.Tactic.Ring
/-! Trading against standing orders of others (C109). -/
namespace OB
open Spec

theorem tradable_less {now : Nat} {oracle : Option Int} {s : Side} {c : Comp} {l l' : LeafNode} {p : Int}
    (e : l' = { l with quantity := l'.quantity }) (h : TradableAt now oracle s c l' p) : TradableAt now oracle s c l p := by
  rw [e] at h
  exact ⟨h.price, h.live, h.peg, h.range⟩

/-- A spread stays while only the group places orders. -/
theorem spread_step {K : Pubkey → Bool} {s s' : State} {op : Op} {now : Int} {oracle : Option Int} {B A : Int} (hr : Reachable s)
    (h : step s op = .ok s') (hop : ∀ p, placer op = some p → p.hasOO = true → K p.owner = true) (S : Spread K s now oracle B A) :
    Spread K s' now oracle B A := by
  have key : ∀ side c l', (side, c, l') ∈ s'.book.resting → K l'.owner = false → ∃ l, (side, c, l) ∈ s.book.resting ∧
      l' = { l with quantity := l'.quantity } := by
    intro side c l' hm hK
    rcases C44_added hr h hm with ⟨l, h1, h2, _⟩ | ⟨p, hp, ho, e, _⟩
    · exact ⟨l, h1, h2⟩
    · rw [e, hop p hp ho] at hK; cases hK
  refine ⟨fun n c l' p hn hm hK ht => ?_, fun n c l' p hn hm hK ht => ?_⟩
  · obtain ⟨l, h1, e⟩ := key _ _ _ hm hK
    exact S.asks n c l p hn h1 (by rw [e] at hK; exact hK) (tradable_less e ht)
  · obtain ⟨l, h1, e⟩ := key _ _ _ hm hK
    exact S.bids n c l p hn h1 (by rw [e] at hK; exact hK) (tradable_less e ht)

/-- A trade with somebody else fills an order that rested before the instruction. -/
theorem fill_outside {K : Pubkey → Bool} {s s1 s' : State} {p : Placer} {cs : List (Env × OrderResult)} {g1 : Ledger} (hr : Reachable s)
    (P : Placement s s1 s' p cs g1) (hK : K p.owner = true) {f : FillEvent} (hf : f ∈ tradesOf cs) (hm : K f.maker = false) :
    1 ≤ f.quantity ∧ 1 ≤ f.price ∧ ∃ (n : Nat) (c : Comp) (l : LeafNode), (n : Int) = p.now ∧ (f.takerSide.invert, c, l) ∈ s.book.resting ∧
      K l.owner = false ∧ TradableAt n p.oracle f.takerSide.invert c l f.price := by
  obtain ⟨x, hx, hfx⟩ := List.mem_flatMap.mp hf
  obtain ⟨pre, post, b1, ga, b2, gb, e, hpre, hcall, _⟩ := calls_split P.calls x hx
  obtain ⟨c, l, hi⟩ := C05_fill_of_resting_order hcall f hfx
  obtain ⟨L, hL⟩ := ladder_exists hcall.state x.1.order.side.invert x.1.nowTs x.1.oracle
  have hpos := ladder_pos hcall.state hL ⟨c, l, f.price⟩ ((hL.mem _).mpr ⟨hi.resting, hi.tradable⟩)
  obtain ⟨_, _, hnow, horc⟩ := P.ctx x hx
  have hown : K l.owner = false := by rw [← hi.maker.1]; exact hm
  have htr := hi.tradable
  rw [← hi.taker.1, horc] at htr
  refine ⟨hi.quantity.1, hpos.2, x.1.nowTs, c, ?_⟩
  have hres := hi.resting
  rw [← hi.taker.1] at hres
  rcases (calls_origin hpre).2 _ _ _ hres with ⟨l1, k1, k2, _⟩ | ⟨⟨y, hy, _, _, k3⟩, _⟩
  · have hs : (f.takerSide.invert, c, l1) ∈ s.book.resting := by
      rcases P.first hr with e | ⟨_, _, _, ls, hc⟩
      · rw [← e]; exact k1
      · exact hc.sub k1
    exact ⟨l1, hnow, hs, by rw [k2] at hown; exact hown, tradable_less k2 htr⟩
  · have hy' : y ∈ cs := by rw [e]; exact List.mem_append_left _ hy
    rw [k3, (P.ctx y hy').1, hK] at hown
    cases hown

/-- What fills within the spread bring. -/
theorem fills_bound {m : Market} (hq : 0 < m.quoteLotSize) {B A : Int} {fs : List FillEvent}
    (h : ∀ f ∈ fs, 1 ≤ f.quantity ∧ 1 ≤ f.price ∧ (f.takerSide = .bid → A ≤ f.price) ∧ (f.takerSide = .ask → f.price ≤ B)) :
    ∃ bought sold : Int, 0 ≤ bought ∧ 0 ≤ sold ∧ sumFills fs (takerBase m) = (bought - sold) * m.baseLotSize ∧
      sumFills fs (fun f => takerQuote m f - fillRebate m f) ≤ (B * sold - A * bought) * m.quoteLotSize := by
  induction fs with
  | nil => exact ⟨0, 0, Int.le_refl _, Int.le_refl _, by simp [sumFills], by simp [sumFills]⟩
  | cons f fs ih =>
    obtain ⟨b, s, h1, h2, h3, h4⟩ := ih (fun x hx => h x (List.mem_cons_of_mem _ hx))
    obtain ⟨k1, k2, k3, k4⟩ := h f (by simp)
    unfold sumFills at *
    simp only [List.map_cons, List.sum_cons]
    have hfq : 0 ≤ fillQuote m f := Int.mul_nonneg (Int.mul_nonneg (by omega) (by omega)) (by omega)
    have hreb : 0 ≤ fillRebate m f := by
      unfold fillRebate
      split
      · exact Int.le_refl 0
      · exact floorRebate_nonneg hfq
    cases hs : f.takerSide with
    | bid =>
      refine ⟨b + f.quantity, s, by omega, h2, ?_, ?_⟩
      · rw [h3]; unfold takerBase; rw [hs, if_pos rfl]; ring
      · have et : takerQuote m f = -fillQuote m f := by unfold takerQuote; rw [hs, if_pos rfl]
        rw [et]
        have e1 : A * f.quantity * m.quoteLotSize ≤ fillQuote m f := by
          unfold fillQuote
          refine Int.mul_le_mul_of_nonneg_right ?_ (by omega)
          rw [Int.mul_comm A]
          exact Int.mul_le_mul_of_nonneg_left (k3 hs) (by omega)
        have e2 : (B * s - A * (b + f.quantity)) * m.quoteLotSize = (B * s - A * b) * m.quoteLotSize - A * f.quantity * m.quoteLotSize := by ring
        rw [e2]; omega
    | ask =>
      refine ⟨b, s + f.quantity, h1, by omega, ?_, ?_⟩
      · rw [h3]; unfold takerBase; rw [hs, if_neg (by decide)]; ring
      · have et : takerQuote m f = fillQuote m f := by unfold takerQuote; rw [hs, if_neg (by decide)]
        rw [et]
        have e1 : fillQuote m f ≤ B * f.quantity * m.quoteLotSize := by
          unfold fillQuote
          refine Int.mul_le_mul_of_nonneg_right ?_ (by omega)
          rw [Int.mul_comm B]
          exact Int.mul_le_mul_of_nonneg_left (k4 hs) (by omega)
        have e2 : (B * (s + f.quantity) - A * b) * m.quoteLotSize = (B * s - A * b) * m.quoteLotSize + B * f.quantity * m.quoteLotSize := by ring
        rw [e2]; omega

/-- What an instruction of a group that acts alone wins from others. -/
theorem won_bound {K : Pubkey → Bool} {s s' : State} {op : Op} {ts : List FillEvent} {now : Int} {oracle : Option Int} {B A : Int}
    (hr : Reachable s) (ht : TradesIn s op s' ts) (ha : ActsAlone K now oracle op) (S : Spread K s now oracle B A) :
    ∃ bought sold : Int, 0 ≤ bought ∧ 0 ≤ sold ∧ wonBase K ⟨s, op, s', ts⟩ = (bought - sold) * s.g.market.baseLotSize ∧
      wonQuote K ⟨s, op, s', ts⟩ ≤ (B * sold - A * bought) * s.g.market.quoteLotSize := by
  obtain ⟨_, _, hb, hq, _⟩ := C42_forever hr
  unfold TradesIn at ht
  cases hp : placer op with
  | none =>
    rw [hp] at ht
    simp only at ht
    subst ht
    exact ⟨0, 0, Int.le_refl _, Int.le_refl _, by simp [wonBase, sumFills], by simp [wonQuote, sumFills]⟩
  | some p =>
    rw [hp] at ht
    obtain ⟨s1, cs, g1, P, _, rfl⟩ := ht
    obtain ⟨h1, h2, h3, h4⟩ := ha p hp
    have hby : byGroup K op = true := by
      unfold byGroup actsFor
      rw [hp]
      simp only [h1, if_true]
      exact h2
    have := fills_bound (m := s.g.market) hq (B := B) (A := A) (fs := (tradesOf cs).filter (crosses K true)) (fun f hf => by
      obtain ⟨hf, hc⟩ := List.mem_filter.mp hf
      have hm : K f.maker = false := by
        unfold crosses at hc
        cases hk : K f.maker with
        | false => rfl
        | true => rw [hk] at hc; cases hc
      obtain ⟨k1, k2, n, c, l, k3, k4, k5, k6⟩ := fill_outside hr P h2 hf hm
      rw [h3] at k3
      rw [h4] at k6
      refine ⟨k1, k2, fun e => ?_, fun e => ?_⟩
      · rw [e] at k4 k6; exact S.asks n c l _ k3 k4 k5 k6
      · rw [e] at k4 k6; exact S.bids n c l _ k3 k4 k5 k6)
    unfold wonBase wonQuote
    simp only [hby, if_true]
    exact this

theorem sumQuote_bounds {fs : List FillEvent} {x : Int} :
    ((∀ f ∈ fs, 1 ≤ f.quantity ∧ x ≤ f.price) → x * sumQty fs ≤ sumQuote fs) ∧
    ((∀ f ∈ fs, 1 ≤ f.quantity ∧ f.price ≤ x) → sumQuote fs ≤ x * sumQty fs) := by
  unfold sumQty sumQuote
  induction fs with
  | nil => simp
  | cons f fs ih =>
    simp only [List.map_cons, List.sum_cons, Int.mul_add]
    refine ⟨fun h => ?_, fun h => ?_⟩
    · have h1 := ih.1 (fun y hy => h y (List.mem_cons_of_mem _ hy))
      obtain ⟨k1, k2⟩ := h f (by simp)
      have := Int.mul_le_mul_of_nonneg_left k2 (show 0 ≤ f.quantity by omega)
      rw [Int.mul_comm x f.quantity]; omega
    · have h1 := ih.2 (fun y hy => h y (List.mem_cons_of_mem _ hy))
      obtain ⟨k1, k2⟩ := h f (by simp)
      have := Int.mul_le_mul_of_nonneg_left k2 (show 0 ≤ f.quantity by omega)
      rw [Int.mul_comm x f.quantity]; omega

/-- What a take order does to the wallets of the taker. -/
theorem take_bound {s s' : State} {c : TakeCtx} {a : PlaceOrderArgs} {B A : Int} (hr : Reachable s) (h : step s (.placeTakeOrder c a) = .ok s')
    (W : Wallets s c.userBase c.userQuote) (S : Spread (fun _ => false) s c.now c.oracle B A) :
    ∃ bought sold : Int, 0 ≤ bought ∧ 0 ≤ sold ∧ tokens s' c.userBase = tokens s c.userBase + (bought - sold) * s.g.market.baseLotSize ∧
      tokens s' c.userQuote ≤ tokens s c.userQuote + (B * sold - A * bought) * s.g.market.quoteLotSize := by
  obtain ⟨_, _, hb, hq, _⟩ := C42_forever hr
  have fills : ∀ {env : Env} {r : OrderResult} {g1 : Ledger}, TakesAs c a env → EngineCall env s.book s.g r s'.book g1 → ∀ f ∈ r.fills,
      1 ≤ f.quantity ∧ (a.side = .bid → A ≤ f.price) ∧ (a.side = .ask → f.price ≤ B) := by
    intro env r g1 T hcall f hf
    obtain ⟨_, _, hi⟩ := C05_fill_of_resting_order hcall f hf
    have h1 := hi.resting
    have h2 := hi.tradable
    rw [T.side] at h1 h2
    rw [T.oracle] at h2
    refine ⟨hi.quantity.1, fun e => ?_, fun e => ?_⟩
    · rw [e] at h1 h2; exact S.asks _ _ _ _ T.now h1 rfl h2
    · rw [e] at h1 h2; exact S.bids _ _ _ _ T.now h1 rfl h2
  cases hs : a.side with
  | bid =>
    obtain ⟨env, r, g1, T, hcall, _, base, pay, fee, e1, e2, _, _, _, _, ht⟩ := C31_take_bid hr h hs
    have hf := fills T hcall
    have h0 : 0 ≤ sumQty r.fills := by
      obtain ⟨C⟩ := callRun hcall
      have := C.sumBase
      have := C.P.loop.baseLe
      omega
    have h1 := sumQuote_bounds.1 (fun f hx => ⟨(hf f hx).1, (hf f hx).2.1 hs⟩)
    have h2 := (C32_rebates_funded hcall).1
    have h3 := Int.mul_le_mul_of_nonneg_right h1 (show 0 ≤ s.g.market.quoteLotSize by omega)
    refine ⟨sumQty r.fills, 0, h0, Int.le_refl _, ?_, ?_⟩
    · rw [ht]
      simp only [moved, if_neg W.two, if_neg W.base.2, if_neg W.base.1, if_true]
      rw [e1]; ring
    · rw [ht]
      simp only [moved, if_neg W.two.symm, if_neg W.quote.2, if_neg W.quote.1, if_true]
      have e3 : (B * 0 - A * sumQty r.fills) * s.g.market.quoteLotSize = -(A * sumQty r.fills * s.g.market.quoteLotSize) := by ring
      rw [e3]
      omega
  | ask =>
    obtain ⟨env, r, g1, T, hcall, _, base, get, fee, e1, e2, _, _, _, _, ht⟩ := C31_take_ask hr h hs
    have hf := fills T hcall
    have h0 : 0 ≤ sumQty r.fills := by
      obtain ⟨C⟩ := callRun hcall
      have := C.sumBase
      have := C.P.loop.baseLe
      omega
    have h1 := sumQuote_bounds.2 (fun f hx => ⟨(hf f hx).1, (hf f hx).2.2 hs⟩)
    have h2 := (C32_rebates_funded hcall).1
    have h3 := Int.mul_le_mul_of_nonneg_right h1 (show 0 ≤ s.g.market.quoteLotSize by omega)
    refine ⟨0, sumQty r.fills, Int.le_refl _, h0, ?_, ?_⟩
    · rw [ht]
      simp only [moved, if_neg W.two, if_neg W.base.2, if_neg W.base.1, if_true]
      rw [e1]; ring
    · rw [ht]
      simp only [moved, if_neg W.two.symm, if_neg W.quote.2, if_neg W.quote.1, if_true]
      have e3 : (B * sumQty r.fills - A * 0) * s.g.market.quoteLotSize = B * sumQty r.fills * s.g.market.quoteLotSize := by ring
      rw [e3]
      omega

end OB
