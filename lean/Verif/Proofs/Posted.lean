import Verif.Proofs.Amounts
/-! The posted order and the opposing orders that are left. -/
namespace OB
open Spec

/-- The best price is that of the first valid item. -/
theorem bestPrice_eq {env : Env} {book : Book} {g : Ledger} {dB dQ : Int} {ot : Comp → Option T} (hc : Core g book dB dQ)
    (hb : (book.side env.order.side.invert).side = env.order.side.invert) (ho : BSOk (book.side env.order.side.invert) ot) :
    (book.side env.order.side.invert).bestPrice env.nowTs env.oracle =
      .ok (((callItems env ot).find? (fun i => i.state = .valid)).map (·.priceLots)) := by
  obtain ⟨it, hit, hi1, hi2⟩ := bs_iter ho
  have hF : ∀ f ∈ OT.ord env.order.side.invert (ot .fixed), FixedOk f.2 := by
    intro f hf
    have hm : (env.order.side.invert, Comp.fixed, f.2) ∈ book.resting := by
      rw [mem_resting, mem_oppL ho]; exact ⟨f, mem_ord.mp hf, rfl⟩
    obtain ⟨oo, a, hok, _⟩ := hc.linv.restOk hm
    have hr := hok.rest _ _ _ _ rfl
    obtain ⟨k1, k2, _⟩ := hr.fixed rfl
    exact ⟨hr.key, k1, k2⟩
  have hlen := ho.lengths
  have lF := (OT.ord_perm env.order.side.invert (ot .fixed)).length_eq
  have lP := (OT.ord_perm env.order.side.invert (ot .pegged)).length_eq
  rw [hb] at hi1 hi2
  have hns : (book.side env.order.side.invert).nodes.side = env.order.side.invert := hb
  unfold BookSide.bestPrice
  rw [hit, ok_bind, firstValid_eq (2 * Nodes.fuel) ⟨hi1, hi2⟩ hF (by omega) (by unfold Nodes.fuel; omega), hns, ok_bind]
  show _ = Except.ok (Option.map _ ((items _ _ _ _ _).find? _))
  cases (items env.order.side.invert env.nowTs env.oracle (OT.ord env.order.side.invert (ot .fixed))
    (OT.ord env.order.side.invert (ot .pegged))).find? (fun i => decide (i.state = .valid)) <;> rfl

namespace CallRun
variable {env : Env} {book book' : Book} {g g' : Ledger} {r : OrderResult}

theorem priceLe (C : CallRun env book g r book' g') : C.R.priceLots ≤ i64Max := C.P.priceLe

/-- The posted order. -/
theorem posted (C : CallRun env book g r book' g') {id : Nat} (hid : r.orderId = some id) :
    ∃ c l, C.R.target = some c ∧ env.order.postTarget = some c ∧ (env.order.side, c, l) ∈ book'.resting ∧ l.key = id ∧
      l.owner = env.owner ∧ l.quantity = C.R.qty ∧ l.timestamp = env.nowTs ∧ l.timeInForce = env.order.timeInForce ∧
      l.pegLimit = env.order.pegLimit ∧ l.clientOrderId = env.order.clientOrderId ∧ priceOf env.oracle c l = some C.R.priceLots := by
  obtain ⟨c, hc, rfl⟩ := C.target_some hid
  obtain ⟨own, outs, hpt, hq, hbk, _, hP⟩ := C.P.posted c hc
  obtain ⟨leaf, l1, l2, l3, l4, l5, l6, l7, hm, _⟩ := hP.new
  refine ⟨c, leaf, hc, hpt, ?_, l1, l2, l3, l4, l5, l6, l7, ?_⟩
  · rw [mem_resting, congrArg (fun b => (Book.side b env.order.side).orders c) hbk]
    cases env.order.side <;> exact hm
  · have hs := C.R.seq
    obtain ⟨hd1, hd2⟩ := priceData_facts C.R.pricePos C.priceLe C.R.data
    have hk : leaf.key / 2 ^ 64 = C.R.priceData := by
      rw [l1, newNodeKey_eq (by unfold two64; omega)]
      have := @seqPart_lt env.order.side (g.market.seqNum + 1) (by unfold two64; omega)
      unfold two64 at *
      omega
    unfold priceOf
    rw [hk]
    cases c with
    | fixed => rw [hd2 hpt]
    | pegged =>
      have hdat := C.R.data
      unfold Order.priceData at hdat
      unfold Order.postTarget at hpt
      split at hdat
      · simp only [bind_ok, pure_ok, ckI64_ok] at hdat
        obtain ⟨op, hop, x, ⟨hx, rfl⟩, hdat⟩ := hdat
        rw [unwrapR_ok] at hop
        rw [hop, hdat.symm, oraclePeggedPriceData_eq hx]
        simp only [Option.map_some, Option.some.injEq]
        omega
      · rename_i hne
        split at hpt <;> first | cases hpt; done | skip
        rename_i a b c' hq
        exact absurd hq (hne a b c')

/-- When the order is posted, the loop did not stop in front of an order it could have matched. -/
theorem ending_posted (C : CallRun env book g r book' g') {c : Comp} (hc : C.R.target = some c) :
    C.todo = [] ∨ C.R.s.remQuote = 0 ∨ ∃ i rest, C.todo = i :: rest ∧ i.state = .valid ∧ ¬ within env.order.side i.priceLots C.R.priceLots := by
  obtain ⟨hq1, hq2, _⟩ := C.posted_qty hc
  obtain ⟨_, h1, _⟩ := postDecision_inv C.R.decision
  cases C.T.ending with
  | all h _ => exact .inl h
  | spent h _ => right; left; omega
  | price i rest h hv hw _ =>
    right; right
    refine ⟨i, rest, h, hv, ?_⟩
    rw [← within_iff, hw]; simp
  | block i rest h hv hw rb rq ht _ =>
    exfalso
    rw [hc] at h1
    rcases h1 with h1 | ⟨h1, _⟩
    · cases h1
    · rw [ht] at h1; cases h1

/-- A valid item that was not reached does not cross the price, unless the quote budget was used up. -/
theorem unreached (C : CallRun env book g r book' g') {c : Comp} (hc : C.R.target = some c) {j : IterItem}
    (hj : j ∈ C.todo) : C.R.s.remQuote = 0 ∨ ¬ within env.order.side j.priceLots C.R.priceLots := by
  rcases C.ending_posted hc with h | h | ⟨i, rest, h, hv, hw⟩
  · rw [h] at hj; cases hj
  · exact .inl h
  · right
    rw [h] at hj
    rcases List.mem_cons.mp hj with rfl | hj
    · exact hw
    · have hp := items_priority C.core C.side C.P.opp
      have hsplit := C.T.split
      rw [h] at hsplit
      rw [← hsplit] at hp
      have h1 := (List.pairwise_cons.mp (List.pairwise_append.mp hp).2.1).1 j hj
      have mi : i ∈ callItems env C.ot := by rw [← hsplit]; simp
      have mj : j ∈ callItems env C.ot := by rw [← hsplit]; simp [hj]
      have p1 := (item_spec C.core C.P.opp mi).pos
      have p2 := (item_spec C.core C.P.opp mj).pos
      have h2 := ekey_before (by omega) (by omega) h1
      intro hx
      apply hw
      unfold Before betterPrice at h2
      unfold within at hx ⊢
      cases hs : env.order.side <;> rw [hs] at hx h2 <;> simp only [Side.invert] at hx h2 ⊢ <;> omega

/-- Post-only: a valid item is never visited. -/
theorem postOnly_visit (C : CallRun env book g r book' g') (hpo : env.order.isPostOnly = true) {v : Visit} (hv : v ∈ C.tr) :
    v.item.state ≠ .valid ∧ (v.fate = .drop ∨ v.fate = .ignore) := by
  have hok := C.T.ok v hv
  cases hf : v.fate with
  | fill q sf => have := (hok.fill q sf hf).2.2.1; rw [hpo] at this; cases this
  | cancel => have := (hok.cancel hf).2.2.1; rw [hpo] at this; cases this
  | drop => exact ⟨hok.drop hf, .inl rfl⟩
  | ignore => exact ⟨hok.ignore hf, .inr rfl⟩

theorem postOnly_fills (C : CallRun env book g r book' g') (hpo : env.order.isPostOnly = true) : r.fills = [] := by
  rw [C.R.fills]; exact C.P.loop.post hpo

theorem noFills (C : CallRun env book g r book' g') (hf : r.fills = []) : r.takerFees = 0 ∧ r.totalBaseTakenNative = 0 ∧
    r.totalQuoteTakenNative = 0 ∧ r.referrerAmount = 0 := by
  have h1 := C.fees_le
  have h2 := C.takenBase
  have h3 := C.takenQuote
  have h4 := C.P.taker.href
  have h5 := C.P.taker.ref0
  have h6 := C.P.loop.reb0
  have e1 : Spec.sumQuote r.fills = 0 := by rw [hf]; rfl
  have e2 : Spec.sumQty r.fills = 0 := by rw [hf]; rfl
  rw [e1, Int.zero_mul, ceilTaker_zero] at h1
  rw [e2, Int.zero_mul] at h2
  rw [e1, Int.zero_mul] at h3
  omega

theorem postOnly_crossing (C : CallRun env book g r book' g') (hpo : env.order.isPostOnly = true) {c : Comp} (hc : C.R.target = some c)
    {j : IterItem} (hj : j ∈ callItems env C.ot) (hjv : j.state = .valid) : ¬ within env.order.side j.priceLots C.R.priceLots := by
  rw [← C.T.split] at hj
  rcases List.mem_append.mp hj with hj | hj
  · obtain ⟨v, hv, rfl⟩ := List.mem_map.mp hj
    exact absurd hjv (C.postOnly_visit hpo hv).1
  · rcases C.unreached hc hj with h | h
    · exfalso
      have hf := C.postOnly_fills hpo
      have h1 := C.sumQuote
      have e1 : Spec.sumQuote r.fills = 0 := by rw [hf]; rfl
      rw [C.maxQ_ask (.inr hpo)] at h1
      obtain ⟨fl, h2, _, h3, _⟩ := C.remQuote
      obtain ⟨_, _, h4, _⟩ := C.posted_qty hc
      omega
    · exact h

/-- A tradable order left on the opposing side. -/
theorem left_over (C : CallRun env book g r book' g') {c : Comp} (hc : C.R.target = some c) {c' : Comp} {l' : LeafNode} {p : Int}
    (hm : (env.order.side.invert, c', l') ∈ book'.resting) (ht : TradableAt env.nowTs env.oracle env.order.side.invert c' l' p)
    (hs : c' = .fixed ∨ NoSkipped book env.order.side.invert env.oracle) :
    ¬ within env.order.side p C.R.priceLots ∨ (env.order.isPostOnly = false ∧ C.R.s.remQuote < p) := by
  obtain ⟨l, hl, hcase⟩ := C.T.after C.P.opp (C.mem_after.mp hm)
  have hml : (env.order.side.invert, c', l) ∈ book.resting := mem_resting.mpr hl
  have hsame : TradableAt env.nowTs env.oracle env.order.side.invert c' l p := by
    rcases hcase with ⟨rfl, _⟩ | ⟨_, _, _, _, _, _, rfl⟩
    · exact ht
    · exact ⟨ht.price, ht.live, ht.peg, ht.range⟩
  obtain ⟨j, hj, rfl, rfl, rfl, hjv⟩ := item_complete C.core C.P.opp hml hsame hs
  have hpos := (item_spec C.core C.P.opp hj).pos
  cases hpo : env.order.isPostOnly with
  | true => exact .inl (C.postOnly_crossing hpo hc hj hjv)
  | false =>
    rw [← C.T.split] at hj
    rcases List.mem_append.mp hj with hj | hj
    · obtain ⟨v, hv, rfl⟩ := List.mem_map.mp hj
      obtain ⟨hq1, hq2, _⟩ := C.posted_qty hc
      rcases hcase with ⟨_, hig⟩ | ⟨w, hw, q, sf, hf, hne, _⟩
      · exact absurd hjv ((C.T.ok v hv).ignore (hig v ⟨hv, rfl, rfl⟩))
      · obtain ⟨_, _, _, _, h5, _, _, _, h9, _⟩ := (C.T.ok w hw.1).fill q sf hf
        have hr := C.T.rem w hw.1
        have hqq : w.qty = q := by unfold Visit.qty; rw [hf]
        rw [hqq] at hr
        have e : w = v := C.T.inj C.P.opp hw.1 hv hw.2.1 (by rw [hw.2.2])
        subst e
        rcases h9 with h9 | h9 | h9
        · omega
        · exact absurd h9 hne
        · right; exact ⟨rfl, by omega⟩
    · rcases C.unreached hc hj with h | h
      · right; exact ⟨rfl, by omega⟩
      · exact .inl h

end CallRun

section
variable {env : Env} {book book' : Book} {g g' : Ledger} {r : OrderResult}

theorem postsOnly_iff {o : Order} : PostsOnly o ↔ o.isPostOnly = true := by
  unfold PostsOnly postType Order.isPostOnly
  cases o.params <;> simp

theorem priceLots_postOnly (C : CallRun env book g r book' g') (ht : postType env.order = some .postOnly) {lim : Int}
    (hl : limitOf env.order env.oracle = some lim) : C.R.priceLots = lim := by
  have key : ∀ p, priceForOrderType env.order.side env.nowTs env.oracle p .postOnly book = .ok C.R.priceLots → C.R.priceLots = p := by
    intro p hp
    unfold priceForOrderType at hp
    rw [if_neg (by decide)] at hp
    injection hp with hp; exact hp.symm
  have hp := C.R.price
  unfold Order.priceLots at hp
  unfold postType at ht
  unfold limitOf at hl
  cases hpar : env.order.params with
  | market => rw [hpar] at ht; cases ht
  | immediateOrCancel p => rw [hpar] at ht; cases ht
  | fillOrKill p => rw [hpar] at ht; cases ht
  | fixed p t =>
    rw [hpar] at hp ht hl
    injection ht with ht; injection hl with hl
    subst ht; subst hl
    exact key _ hp
  | oraclePegged off t pl =>
    rw [hpar] at hp ht hl
    injection ht with ht
    subst ht
    cases hor : env.oracle with
    | none => rw [hor] at hl; cases hl
    | some o =>
      rw [hor] at hp hl
      simp only [Option.map_some, Option.some.injEq] at hl
      subst hl
      simp only [bind_ok, req_ok] at hp
      obtain ⟨_, _, hp⟩ := hp
      exact key _ (hor.symm ▸ hp)

theorem postOnlySlideLimit_cases {s : Side} {best lim p : Int} (h : postOnlySlideLimit s best lim = .ok p) : p = lim ∨ p = behind s best := by
  unfold postOnlySlideLimit at h
  unfold behind
  cases s <;> simp only [bind_ok, pure_ok, ckI64_ok] at h <;> obtain ⟨x, ⟨_, rfl⟩, h⟩ := h <;> cases h <;> simp only <;> omega

theorem priceLots_slide (C : CallRun env book g r book' g') (ht : postType env.order = some .postOnlySlide) {lim : Int}
    (hl : limitOf env.order env.oracle = some lim) : C.R.priceLots = lim ∨
      ∃ c l q, (env.order.side.invert, c, l) ∈ book.resting ∧ TradableAt env.nowTs env.oracle env.order.side.invert c l q ∧
        C.R.priceLots = behind env.order.side q := by
  have key : ∀ p, priceForOrderType env.order.side env.nowTs env.oracle p .postOnlySlide book = .ok C.R.priceLots →
      C.R.priceLots = p ∨ ∃ c l q, (env.order.side.invert, c, l) ∈ book.resting ∧
        TradableAt env.nowTs env.oracle env.order.side.invert c l q ∧ C.R.priceLots = behind env.order.side q := by
    intro p hp
    unfold priceForOrderType at hp
    rw [if_pos rfl, bestPrice_eq C.core C.side C.P.opp, ok_bind] at hp
    cases hf : (callItems env C.ot).find? (fun i => decide (i.state = .valid)) with
    | none => rw [hf] at hp; injection hp with hp; exact .inl hp.symm
    | some i =>
      rw [hf] at hp
      rcases postOnlySlideLimit_cases hp with e | e
      · exact .inl e
      · right
        have hm := List.mem_of_find?_eq_some hf
        have hv := List.find?_some hf
        have hs := item_spec C.core C.P.opp hm
        exact ⟨_, _, _, hs.mem, hs.valid (by simpa using hv), e⟩
  have hp := C.R.price
  unfold Order.priceLots at hp
  unfold postType at ht
  unfold limitOf at hl
  cases hpar : env.order.params with
  | market => rw [hpar] at ht; cases ht
  | immediateOrCancel p => rw [hpar] at ht; cases ht
  | fillOrKill p => rw [hpar] at ht; cases ht
  | fixed p t =>
    rw [hpar] at hp ht hl
    injection ht with ht; injection hl with hl
    subst ht; subst hl
    exact key _ hp
  | oraclePegged off t pl =>
    rw [hpar] at hp ht hl
    injection ht with ht
    subst ht
    cases hor : env.oracle with
    | none => rw [hor] at hl; cases hl
    | some o =>
      rw [hor] at hp hl
      simp only [Option.map_some, Option.some.injEq] at hl
      subst hl
      simp only [bind_ok, req_ok] at hp
      obtain ⟨_, _, hp⟩ := hp
      exact hor ▸ key _ (hor.symm ▸ hp)

theorem CallRun.postedAt (C : CallRun env book g r book' g') {c : Comp} {l : LeafNode} {p : Int}
    (hp : PostedAt env book r book' c l p) : (∃ c, C.R.target = some c) ∧ p = C.R.priceLots := by
  obtain ⟨c0, l0, h1, h2, h3, h4, _, _, _, _, _, _, h5⟩ := C.posted hp.id
  refine ⟨⟨c0, h1⟩, ?_⟩
  obtain ⟨own, outs, _, _, hbk, _, hP⟩ := C.P.posted c0 h1
  obtain ⟨leaf, k1, _, _, _, _, _, _, hm, hall⟩ := hP.new
  have e : (book'.side env.order.side) = own := by
    refine (congrArg (fun b => Book.side b env.order.side) hbk).trans ?_
    cases env.order.side <;> rfl
  have inOwn : ∀ c l, (env.order.side, c, l) ∈ book'.resting → (c = c0 ∧ l = leaf) ∨ l ∈ (book.side env.order.side).orders c := by
    intro c l hl
    rw [mem_resting, e] at hl
    exact hall c l hl
  rcases inOwn c l hp.mem with ⟨rfl, rfl⟩ | ho
  · rcases inOwn c l0 h3 with ⟨_, rfl⟩ | ho0
    · have := hp.price; rw [h5] at this; injection this with this; exact this.symm
    · exact absurd h4 (hp.new _ _ (mem_resting.mpr ho0))
  · exact absurd rfl (hp.new _ _ (mem_resting.mpr ho))

end
end OB
