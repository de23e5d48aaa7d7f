import Verif.Spec.Range
import Verif.Proofs.Spread
import Verif.Props.C07_PostOnly
import Mathlib.Tactic.Linarith
/-! Accounts that keep to prices of their own (C111). -/
namespace OB
open Spec

theorem range_trans {B A : Int} {s : Side} {p lim : Int} (h : within s p lim) (hl : inRange B A s lim) : inRange B A s p := by
  unfold within at h
  cases s <;> simp only [inRange] at * <;> omega

/-- The limit of an order that keeps to the range, if it is not pegged. -/
theorem keeps_limit {B A : Int} {q : Asked} {env : Env} (k : KeepsTo B A q) (f : Follows q env) :
    (∃ lim, limitOf env.order env.oracle = some lim ∧ inRange B A env.order.side lim ∧ env.order.postTarget ≠ some .pegged) ∨
    (PostsOnly env.order ∧ 1 ≤ env.order.pegLimit ∧ inRange B A env.order.side env.order.pegLimit ∧ env.order.postTarget ≠ some .fixed) := by
  obtain ⟨side, price, peg, type, client, expiry, st⟩ := q
  have hs := f.side
  have hp := f.params
  simp only at hs hp
  rw [hs]
  cases peg with
  | none =>
    left
    have h1 := k.fixed rfl
    cases type <;> simp only at hp <;> first
      | exact absurd rfl k.limit
      | exact ⟨price, by unfold limitOf; rw [hp], h1, by unfold Order.postTarget; rw [hp]; simp⟩
  | some lim =>
    right
    obtain ⟨h1, h2, h3⟩ := k.pegged lim rfl
    simp only at h3
    rcases h3 with rfl | rfl <;> simp only at hp
    · exact ⟨by unfold PostsOnly postType; rw [hp]; simp, by unfold Order.pegLimit; rw [hp]; exact h1, by unfold Order.pegLimit; rw [hp]; exact h2,
        by unfold Order.postTarget; rw [hp]; simp⟩
    · exact ⟨by unfold PostsOnly postType; rw [hp]; simp, by unfold Order.pegLimit; rw [hp]; exact h1, by unfold Order.pegLimit; rw [hp]; exact h2,
        by unfold Order.postTarget; rw [hp]; simp⟩

/-- One call of the matching engine. -/
theorem range_call {K : Pubkey → Bool} {B A : Int} {env : Env} {book book' : Book} {g g' : Ledger} {r : OrderResult}
    (h : EngineCall env book g r book' g') (hk : K env.owner = true → r.orderId ≠ none → ∃ q, KeepsTo B A q ∧ Follows q env)
    (O : OwnRange K B A book) : OwnRange K B A book' := by
  intro now oracle side c l p hm hK ht
  obtain ⟨C⟩ := callRun h
  rcases C.origin hm with ⟨l0, k1, k2, _⟩ | ⟨rfl, hid, ho, _⟩
  · exact O now oracle side c l0 p k1 (by rw [k2] at hK; exact hK) (tradable_less k2 ht)
  · obtain ⟨e1, e2, _, _, e5, _, e7⟩ := C.posted_at hm hid (fun l0 hl0 => C.fresh_id hid hl0)
    obtain ⟨q, kq, fq⟩ := hk (by rw [← ho]; exact hK) (by rw [hid]; simp)
    rcases keeps_limit kq fq with ⟨lim, h1, h2, h3⟩ | ⟨_, h1, h2, h3⟩
    · cases c with
      | pegged => exact absurd e1 h3
      | fixed =>
        have hp := ht.price
        unfold priceOf at hp e7
        rw [hp] at e7
        injection e7 with e7
        rw [e7]
        exact range_trans (C.limit h1) h2
    · cases c with
      | fixed => exact absurd e1 h3
      | pegged =>
        have hb := ht.peg rfl
        unfold beyondPeg at hb
        rw [e5] at hb
        cases hs : env.order.side with
        | bid => rw [hs] at hb h2; simp only [inRange] at *; omega
        | ask => rw [hs] at hb h2; simp only [inRange] at *; omega

/-- A series of calls: the orders of the group stay in range, and so do all trades with others. -/
theorem range_calls {K : Pubkey → Bool} {B A : Int} {book book' : Book} {g g' : Ledger} {cs : List (Env × OrderResult)} (T : Bool)
    (h : Calls book g cs book' g') (hT : ∀ x ∈ cs, x.1.hasOO = true → K x.1.owner = T) (hO : ∀ x ∈ cs, x.1.hasOO = false → T = false)
    (hk : T = true → ∀ x ∈ cs, ∃ q, KeepsTo B A q ∧ Follows q x.1) (O : OwnRange K B A book) :
    OwnRange K B A book' ∧ ∀ f ∈ tradesOf cs, crosses K T f = true →
      1 ≤ f.quantity ∧ 1 ≤ f.price ∧ inRange B A (if T then f.takerSide else f.takerSide.invert) f.price := by
  induction h with
  | nil => exact ⟨O, fun f hf => by simp [tradesOf] at hf⟩
  | cons env r cs book book1 book' g g1 g' h hs ih =>
    have hxT := hT (env, r) (by simp)
    have hxO := hO (env, r) (by simp)
    simp only at hxT hxO
    obtain ⟨C⟩ := callRun h
    have O1 : OwnRange K B A book1 := range_call h (fun hK hid => by
      have hoo : env.hasOO = true := by
        cases hi : r.orderId with
        | none => exact absurd hi hid
        | some id => exact calls_hasOO (.cons _ _ _ _ _ _ _ _ _ h hs) (x := (env, r)) (by simp) hi
      exact hk (by rw [← hxT hoo]; exact hK) (env, r) (by simp)) O
    obtain ⟨i1, i2⟩ := ih (fun x hx => hT x (List.mem_cons_of_mem _ hx)) (fun x hx => hO x (List.mem_cons_of_mem _ hx))
      (fun e x hx => hk e x (List.mem_cons_of_mem _ hx)) O1
    refine ⟨i1, fun f hf hc => ?_⟩
    rcases List.mem_append.mp (show f ∈ r.fills ++ tradesOf cs by simpa [tradesOf] using hf) with hf | hf
    · obtain ⟨c, l, hi⟩ := C05_fill_of_resting_order h f hf
      obtain ⟨L, hL⟩ := ladder_exists h.state env.order.side.invert env.nowTs env.oracle
      have hpos := ladder_pos h.state hL ⟨c, l, f.price⟩ ((hL.mem _).mpr ⟨hi.resting, hi.tradable⟩)
      refine ⟨hi.quantity.1, hpos.2, ?_⟩
      cases T with
      | true =>
        obtain ⟨q, kq, fq⟩ := hk rfl (env, r) (by simp)
        rcases keeps_limit kq fq with ⟨lim, h1, h2, _⟩ | ⟨h1, _⟩
        · rw [if_pos rfl, hi.taker.1]
          exact range_trans (C04_limit_respected h f hf _ h1) h2
        · rw [(C07_post_only_never_takes h h1).1] at hf
          cases hf
      | false =>
        have hm : K l.owner = true := by
          rw [← hi.maker.1]
          unfold crosses at hc
          cases hk : K f.maker with
          | true => rfl
          | false => rw [hk] at hc; cases hc
        have := O _ _ _ _ _ _ hi.resting hm hi.tradable
        rw [if_neg (by decide), hi.taker.1]
        exact this
    · exact i2 f hf hc

/-- What trades within the range are worth to the group. -/
theorem range_fills {m : Market} (hq : 0 < m.quoteLotSize) {B A : Int} (T : Bool) {fs : List FillEvent}
    (h : ∀ f ∈ fs, 1 ≤ f.quantity ∧ 1 ≤ f.price ∧ inRange B A (if T then f.takerSide else f.takerSide.invert) f.price) :
    ∃ bought sold : Int, 0 ≤ bought ∧ 0 ≤ sold ∧
      sumFills fs (fun f => if T then takerBase m f else makerBase m f) = (bought - sold) * m.baseLotSize ∧
      (A * sold - B * bought) * m.quoteLotSize - (if T then sumFills fs (fillRebate m) else 0) ≤
        sumFills fs (fun f => if T then takerQuote m f - fillRebate m f else makerWorth m f) := by
  induction fs with
  | nil => exact ⟨0, 0, Int.le_refl _, Int.le_refl _, by simp [sumFills], by cases T <;> simp [sumFills]⟩
  | cons f fs ih =>
    obtain ⟨b, s, h1, h2, h3, h4⟩ := ih (fun x hx => h x (List.mem_cons_of_mem _ hx))
    obtain ⟨k1, k2, k3⟩ := h f (by simp)
    have hfq : 0 ≤ fillQuote m f := Int.mul_nonneg (Int.mul_nonneg (by omega) (by omega)) (by omega)
    have hreb : 0 ≤ fillRebate m f := by
      unfold fillRebate
      split
      · exact Int.le_refl 0
      · exact floorRebate_nonneg hfq
    have hqq : 0 ≤ f.quantity * m.quoteLotSize := Int.mul_nonneg (by omega) (by omega)
    unfold sumFills at *
    simp only [List.map_cons, List.sum_cons]
    have buy : inRange B A .bid f.price → fillQuote m f ≤ B * f.quantity * m.quoteLotSize := by
      intro hx
      have := Int.mul_le_mul_of_nonneg_right (show f.price ≤ B from hx) hqq
      unfold fillQuote
      nlinarith
    have sell : inRange B A .ask f.price → A * f.quantity * m.quoteLotSize ≤ fillQuote m f := by
      intro hx
      have := Int.mul_le_mul_of_nonneg_right (show A ≤ f.price from hx) hqq
      unfold fillQuote
      nlinarith
    have eb : (A * s - B * (b + f.quantity)) * m.quoteLotSize = (A * s - B * b) * m.quoteLotSize - B * f.quantity * m.quoteLotSize := by ring
    have es : (A * (s + f.quantity) - B * b) * m.quoteLotSize = (A * s - B * b) * m.quoteLotSize + A * f.quantity * m.quoteLotSize := by ring
    cases T with
    | true =>
      simp only [if_true] at h3 h4 k3 ⊢
      cases hs : f.takerSide with
      | bid =>
        rw [hs] at k3
        have hx := buy k3
        have et : takerQuote m f = -fillQuote m f := by unfold takerQuote; rw [hs, if_pos rfl]
        refine ⟨b + f.quantity, s, by omega, h2, ?_, ?_⟩
        · rw [h3]; unfold takerBase; rw [hs, if_pos rfl]; ring
        · rw [eb, et]; omega
      | ask =>
        rw [hs] at k3
        have hx := sell k3
        have et : takerQuote m f = fillQuote m f := by unfold takerQuote; rw [hs, if_neg (by decide)]
        refine ⟨b, s + f.quantity, h1, by omega, ?_, ?_⟩
        · rw [h3]; unfold takerBase; rw [hs, if_neg (by decide)]; ring
        · rw [es, et]; omega
    | false =>
      simp only [if_false, Bool.false_eq_true, Int.sub_zero] at h3 h4 k3 ⊢
      cases hs : f.takerSide with
      | bid =>
        rw [hs] at k3
        have hx := sell k3
        have et : makerWorth m f = fillQuote m f + fillRebate m f := by unfold makerWorth; rw [hs, if_neg (by decide)]
        refine ⟨b, s + f.quantity, h1, by omega, ?_, ?_⟩
        · rw [h3]; unfold makerBase; rw [hs, if_neg (by decide)]; ring
        · rw [es, et]; omega
      | ask =>
        rw [hs] at k3
        have hx := buy k3
        have et : makerWorth m f = -fillQuote m f + fillRebate m f := by unfold makerWorth; rw [hs, if_pos rfl]
        refine ⟨b + f.quantity, s, by omega, h2, ?_, ?_⟩
        · rw [h3]; unfold makerBase; rw [hs, if_pos rfl]; ring
        · rw [eb, et]; omega

theorem Each.mem {qs : List Asked} {xs : List (Env × OrderResult)} (h : Each qs xs) {x : Env × OrderResult} (hx : x ∈ xs) :
    ∃ q ∈ qs, Follows q x.1 := by
  induction h with
  | nil => cases hx
  | cons q y qs xs h hs ih =>
    rcases List.mem_cons.mp hx with rfl | hx
    · exact ⟨q, by simp, h⟩
    · obtain ⟨q', h1, h2⟩ := ih hx
      exact ⟨q', List.mem_cons_of_mem _ h1, h2⟩

/-- One instruction. -/
theorem range_step {K : Pubkey → Bool} {B A : Int} {s s' : State} {op : Op} {ts : List FillEvent} (hr : Reachable s) (h : step s op = .ok s')
    (ht : TradesIn s op s' ts) (hk : byGroup K op = true → ∀ q ∈ asked op, KeepsTo B A q) (O : OwnRange K B A s.book) :
    OwnRange K B A s'.book ∧
    (∀ f ∈ ts, crosses K (byGroup K op) f = true → inRange B A (if byGroup K op then f.takerSide else f.takerSide.invert) f.price) ∧
    ∃ bought sold : Int, 0 ≤ bought ∧ 0 ≤ sold ∧
      wonBase K ⟨s, op, s', ts⟩ = (bought - sold) * s.g.market.baseLotSize ∧
      (A * sold - B * bought) * s.g.market.quoteLotSize - rebatesPaid K ⟨s, op, s', ts⟩ ≤ wonQuote K ⟨s, op, s', ts⟩ := by
  obtain ⟨_, _, hb, hq, _⟩ := C42_forever hr
  unfold TradesIn at ht
  cases hp : placer op with
  | none =>
    rw [hp] at ht
    simp only at ht
    subst ht
    refine ⟨fun now oracle side c l p hm hK htr => ?_, fun f hf => by simp at hf, 0, 0, Int.le_refl _, Int.le_refl _, by simp [wonBase, sumFills], by
      simp [wonQuote, rebatesPaid, sumFills]⟩
    rcases C44_added hr h hm with ⟨l0, h1, h2, _⟩ | ⟨p, hp', _⟩
    · exact O now oracle side c l0 p h1 (by rw [h2] at hK; exact hK) (tradable_less h2 htr)
    · rw [hp] at hp'; cases hp'
  | some p =>
    rw [hp] at ht
    obtain ⟨s1, cs, g1, P, hS, rfl⟩ := ht
    have hby : byGroup K op = (p.hasOO && K p.owner) := by
      unfold byGroup actsFor
      rw [hp]
      cases hx : p.hasOO <;> simp [hx]
    have O1 : OwnRange K B A s1.book := by
      rcases P.first hr with e | ⟨_, _, _, ls, hc⟩
      · rw [e]; exact O
      · exact fun now oracle side c l q hm => O now oracle side c l q (hc.sub hm)
    obtain ⟨O2, hf⟩ := range_calls (byGroup K op) P.calls
      (fun x hx hoo => by
        obtain ⟨c1, c2, _⟩ := P.ctx x hx
        rw [hby, ← c2, hoo, c1]; rfl)
      (fun x hx hoo => by
        obtain ⟨_, c2, _⟩ := P.ctx x hx
        rw [hby, ← c2, hoo]; rfl)
      (fun e x hx => by
        rcases hS with hE | ⟨_, rfl⟩
        · obtain ⟨q, h1, h2⟩ := Each.mem hE hx
          exact ⟨q, hk e q (List.mem_filter.mp h1).1, h2⟩
        · cases hx) O1
    refine ⟨O2, fun f h1 h2 => (hf f h1 h2).2.2, ?_⟩
    obtain ⟨b, q, h1, h2, h3, h4⟩ := range_fills (m := s.g.market) hq (B := B) (A := A) (byGroup K op)
      (fs := (tradesOf cs).filter (crosses K (byGroup K op))) (fun f hf' => by
        obtain ⟨h1, h2⟩ := List.mem_filter.mp hf'
        exact hf f h1 h2)
    refine ⟨b, q, h1, h2, h3, ?_⟩
    have er : rebatesPaid K ⟨s, op, s', tradesOf cs⟩ =
        if byGroup K op then sumFills ((tradesOf cs).filter (crosses K (byGroup K op))) (fillRebate s.g.market) else 0 := by
      unfold rebatesPaid
      cases hx : byGroup K op <;> simp
    rw [er]
    exact h4

end OB
