import Verif.Proofs.SplitBatch
import Verif.Proofs.Asked
import Verif.Props.C16_Cancel
import Verif.Spec.Requote
/-! The orders of a batch and what is left of them in the book (C107). -/
namespace OB
open Spec

/-- The engine was called for an entry of the batch. -/
structure FromEntry (t : PlaceOrderType) (now : Nat) (e : Side × Nat × MultiArgs) (env : Env) : Prop where
  side : env.order.side = e.1
  client : env.order.clientOrderId = e.2.1
  quote : env.order.maxQuoteLotsIncludingFees ≤ e.2.2.maxQuoteLots
  params : orderParams t e.2.2.priceLots = .ok env.order.params
  tif : tifFromExpiry now e.2.2.expiry = some env.order.timeInForce
  now : env.nowTs = now

theorem MultiTrace.entries {c : MultiCtx} {now limit : Nat} {t : PlaceOrderType} {os : List Order} {cs : List (Env × OrderResult)}
    {es : List (Side × Nat × MultiArgs)} (hb : Built t now es os) (h : MultiTrace c now limit os cs) :
    (∀ x ∈ cs, ∃ e ∈ es, FromEntry t now e x.1) ∧ (cs.map (fun x => x.1.order.clientOrderId)).Sublist (es.map (fun e => e.2.1)) := by
  induction hb generalizing cs with
  | nil => cases h; exact ⟨fun x hx => (by cases hx), List.Sublist.slnil⟩
  | skip e es os h1 h2 h3 _ ih =>
    obtain ⟨i1, i2⟩ := ih h
    refine ⟨fun x hx => ?_, i2.cons _⟩
    obtain ⟨e', he', hf⟩ := i1 x hx
    exact ⟨e', by simp [he'], hf⟩
  | cons e es os tif p h1 h2 h3 h4 _ ih =>
    cases h with
    | cons o o' r os cs side params quote rest h =>
      obtain ⟨i1, i2⟩ := ih h
      refine ⟨fun x hx => ?_, ?_⟩
      · rcases List.mem_cons.mp hx with rfl | hx
        · refine ⟨e, by simp, ⟨side, rest.2.1, quote, ?_, ?_, rfl⟩⟩
          · show orderParams t e.2.2.priceLots = .ok o'.params
            rw [params]; exact h4
          · show tifFromExpiry now e.2.2.expiry = some o'.timeInForce
            rw [rest.2.2]; exact h3
        · obtain ⟨e', he', hf⟩ := i1 x hx
          exact ⟨e', by simp [he'], hf⟩
      · simp only [List.map_cons]
        rw [show (multiEnv c o' now limit).order.clientOrderId = e.2.1 from rest.2.1]
        exact i2.cons_cons _

theorem entries_nodup (bids asks : List MultiArgs) : ((entries bids asks).map (fun e => e.2.1)).Nodup := by
  have : (entries bids asks).map (fun e => e.2.1) = List.range' 0 bids.length ++ List.range' bids.length asks.length := by
    unfold entries
    rw [List.map_append, List.map_map, List.map_map]
    congr 1
    · rw [← List.zipIdx_map_snd 0 bids]; rfl
    · rw [← List.zipIdx_map_snd bids.length asks]; rfl
  rw [this, List.nodup_append]
  refine ⟨List.nodup_range', List.nodup_range', fun a ha b hb => ?_⟩
  rw [List.mem_range'_1] at ha hb
  omega

section
variable {env : Env} {book book' : Book} {g g' : Ledger} {r : OrderResult}

/-- What a posted order of a fixed price can cost. -/
theorem CallRun.posted_fixed (C : CallRun env book g r book' g') {p : Int} {ty : PostOrderType} (hp : env.order.params = .fixed p ty)
    {c : Comp} {l : LeafNode} (hm : (env.order.side, c, l) ∈ book'.resting) (hid : r.orderId = some l.key) :
    c = .fixed ∧ l.quantity = C.R.qty ∧ ((l.key / 2 ^ 64 : Nat) : Int) = C.R.priceLots ∧ 1 ≤ C.R.priceLots ∧
      within env.order.side C.R.priceLots p ∧ (ty ≠ .postOnlySlide → C.R.priceLots = p) ∧
      l.quantity * C.R.priceLots ≤ env.order.maxQuoteLotsIncludingFees := by
  have hn : ∀ l0, (env.order.side, c, l0) ∈ book.resting → l0.key ≠ l.key := fun l0 hl0 => C.fresh_id hid hl0
  obtain ⟨a1, _, _, _, _, _, a7⟩ := C.posted_at hm hid hn
  have hc : c = .fixed := by
    unfold Order.postTarget at a1; rw [hp] at a1; injection a1 with a1; exact a1.symm
  subst hc
  obtain ⟨c0, l0, h1, h2, h3, h4, h6, h11, _⟩ := C.posted hid
  have e0 : c0 = .fixed := by rw [a1] at h2; injection h2 with h2; exact h2.symm
  subst e0
  obtain ⟨own, outs, _, _, hbk, _, hP⟩ := C.P.posted .fixed h1
  obtain ⟨leaf, k1, _, k3, _, _, _, _, hm', hall⟩ := hP.new
  have e : (book'.side env.order.side) = own := by
    refine (congrArg (fun b => Book.side b env.order.side) hbk).trans ?_
    cases env.order.side <;> rfl
  have hl : l = leaf := by
    have := hm
    rw [mem_resting, e] at this
    rcases hall _ _ this with ⟨_, h⟩ | ho
    · exact h
    · exact absurd rfl (hn _ (mem_resting.mpr ho))
  have hq : l.quantity = C.R.qty := by rw [hl]; exact k3
  have hpr : ((l.key / 2 ^ 64 : Nat) : Int) = C.R.priceLots := by
    unfold priceOf at a7; injection a7
  refine ⟨rfl, hq, hpr, C.R.pricePos, C.limit (by unfold limitOf; rw [hp]), fun ht => ?_, ?_⟩
  · have h := C.R.price
    unfold Order.priceLots at h
    rw [hp] at h
    simp only at h
    unfold priceForOrderType at h
    rw [if_neg ht] at h
    injection h with h; exact h.symm
  · obtain ⟨q1, q2, q3, q4⟩ := C.posted_qty h1
    obtain ⟨fl, e1, e2, e3, _⟩ := C.remQuote
    have hlp : lockPrice env.order C.R.priceLots = C.R.priceLots := by
      unfold lockPrice Order.pegLimit; rw [hp]; simp
    have hcf0 : 0 ≤ ceilFee g.market.makerFee C.R.remQuote := ceilFee_nonneg (by omega)
    have hs := C.sumQuote0
    rw [hlp] at q4
    rw [hq]
    omega

/-- An order found in the book after several calls, at the call that posted it. -/
theorem calls_posted_by {cs : List (Env × OrderResult)} (h : Calls book g cs book' g') {s : Side} {c : Comp} {l' : LeafNode}
    (hm : (s, c, l') ∈ book'.resting) :
    (∃ l, (s, c, l) ∈ book.resting ∧ l' = { l with quantity := l'.quantity } ∧ l'.quantity ≤ l.quantity) ∨
    (g.market.seqNum < seqOf s l'.key ∧ ∃ x ∈ cs, ∃ b1 g1 b2 g2 l, EngineCall x.1 b1 g1 x.2 b2 g2 ∧ s = x.1.order.side ∧
      x.2.orderId = some l'.key ∧ (s, c, l) ∈ b2.resting ∧ l' = { l with quantity := l'.quantity } ∧ l'.quantity ≤ l.quantity) := by
  rcases calls_posted h hm with h1 | ⟨x, hx, h1, h2, h3, h4, h5, h6, h7, h8, h9⟩
  · exact .inl h1
  · refine .inr ⟨h9, x, hx, ?_⟩
    obtain ⟨pre, post, b1, g1, b2, g2, _, k1, k2, k3⟩ := calls_split h x hx
    obtain ⟨C⟩ := callRun k2
    rcases (calls_origin k3).2 s c l' hm with ⟨l, m1, m2, m3⟩ | ⟨_, m2, _⟩
    · exact ⟨b1, g1, b2, g2, l, k2, h1, h2, m1, m2, m3⟩
    · exfalso
      obtain ⟨_, _, ek⟩ := C.target_some h2
      have := C.seq_next
      rw [h1, ek, seqOf_newKey (by have := C.R.seq; unfold two64; omega)] at m2
      omega
end

theorem batch_rest {s s' : State} (hr : Reachable s) {c : MultiCtx} {t : PlaceOrderType} {bids asks : List MultiArgs}
    {limit : Nat} (h : step s (.placeOrders c true t bids asks limit) = .ok s') :
    (∀ side comp l, (side, comp, l) ∈ s'.book.resting → l.owner = c.ooKey →
      s.g.market.seqNum < seqOf side l.key ∧ ∃ e ∈ entries bids asks, QuoteOf t c.now e side comp l) ∧
    ∀ x ∈ s'.book.resting, ∀ y ∈ s'.book.resting, x.2.2.owner = c.ooKey → y.2.2.owner = c.ooKey →
      x.2.2.clientOrderId = y.2.2.clientOrderId → x = y := by
  have hr' : Reachable s' := .step _ _ _ hr h
  cases step_run h with
  | idle _ _ h => cases h
  | place _ _ _ _ _ h => cases h
  | edit _ _ _ _ _ _ _ h => cases h
  | consume _ _ _ _ _ h => rcases h with ⟨h, _⟩ | ⟨h, _⟩ <;> cases h
  | cancel _ _ _ _ _ _ _ _ h => rcases h with ⟨h, _⟩ | ⟨h, _⟩ <;> cases h
  | deposit _ _ _ _ _ _ _ _ _ _ h => rcases h with h | h <;> cases h
  | multi _ _ _ _ _ _ now bs as rs hn hb has P =>
    have ho : ∀ o ∈ bs ++ as, OrderTyped o := fun o ho => by
      rcases List.mem_append.mp ho with h | h
      · exact (multiOrders_typed hb o h).1
      · exact (multiOrders_typed has o h).1
    obtain ⟨cs, k1, _, k3⟩ := multiLoop_calls (nowU64_eq P.now).2 (oracleOk_range P.oracle) (.reachable _ (P.reach hr)) ho P.loop
    have e : P.nowTs = now := by
      have h1 := P.now
      rw [hn] at h1
      injection h1 with h1
      exact h1.symm
    rw [e] at k3
    have e2 : ((now : Nat) : Int) = c.now := (nowU64_eq hn).1
    obtain ⟨hen, hsub⟩ := MultiTrace.entries ((multiOrders_built hb).append (multiOrders_built has)) k3
    have hbk : s'.book = P.book' := congrArg State.book P.res
    have hcan : step s (.cancelAll c.signer c.ooKey none 255) = .ok P.s1 := by
      rcases P.start_step with ⟨h, _⟩ | ⟨_, h⟩
      · cases h
      · exact h
    obtain ⟨_, ls, C, _, _, hall⟩ := C16_cancel_all s P.s1 hr _ _ _ _ hcan
    have none_left : ∀ x ∈ P.s1.book.resting, x.2.2.owner ≠ c.ooKey := by
      intro x hx hk
      obtain ⟨t, ht, _⟩ := hall (by decide) x hx hk
      cases ht
    have hby : ∀ side comp l, (side, comp, l) ∈ s'.book.resting → l.owner = c.ooKey →
        s.g.market.seqNum < seqOf side l.key ∧ ∃ x ∈ cs, ∃ b1 g1 b2 g2 l0, EngineCall x.1 b1 g1 x.2 b2 g2 ∧ side = x.1.order.side ∧
          x.2.orderId = some l.key ∧ (side, comp, l0) ∈ b2.resting ∧ l = { l0 with quantity := l.quantity } ∧ l.quantity ≤ l0.quantity := by
      intro side comp l hm hk
      rw [hbk] at hm
      rcases calls_posted_by k1 hm with ⟨l0, m1, m2, _⟩ | ⟨m1, m2⟩
      · exact absurd (by rw [← hk, m2]) (none_left _ m1)
      · rw [C.market] at m1
        exact ⟨m1, m2⟩
    have hquote : ∀ side comp l, (side, comp, l) ∈ s'.book.resting → l.owner = c.ooKey → ∃ x ∈ cs, ∃ e ∈ entries bids asks,
        FromEntry t now e x.1 ∧ side = x.1.order.side ∧ x.2.orderId = some l.key ∧ QuoteOf t c.now e side comp l := by
      intro side comp l hm hk
      obtain ⟨_, x, hx, b1, g1, b2, g2, l0, n1, n2, n3, n4, n5, n6⟩ := hby side comp l hm hk
      obtain ⟨en, he, hf⟩ := hen x hx
      obtain ⟨D⟩ := callRun n1
      obtain ⟨_, _, hq1, _⟩ := resting_ok (reachable_Inv hr').core hm
      have hkey : l0.key = l.key := by rw [n5]
      subst n2
      have hid : x.2.orderId = some l0.key := by rw [hkey]; exact n3
      obtain ⟨a1, a2, a3, a4, a5, a6, a7⟩ := D.posted_at n4 hid (fun l0 hl0 => D.fresh_id hid hl0)
      have hpar := hf.params
      have hty : (t = .limit ∨ t = .postOnly ∨ t = .postOnlySlide) ∧
          ∃ ty, x.1.order.params = .fixed en.2.2.priceLots ty ∧ (t ≠ .postOnlySlide → ty ≠ .postOnlySlide) := by
        unfold Order.postTarget at a1
        unfold orderParams at hpar
        cases t <;> simp only [PlaceOrderType.toPost, bind_ok, pure_ok, Except.ok.injEq] at hpar
        all_goals first
          | (obtain ⟨ty, rfl, hpar⟩ := hpar; exact ⟨by simp, _, hpar.symm, by simp⟩)
          | (rw [← hpar] at a1; cases a1)
      obtain ⟨ht, ty, hp, hslide⟩ := hty
      obtain ⟨b1', b2', b3, b4, b5, b6, b7⟩ := D.posted_fixed hp n4 hid
      rw [hkey] at b3
      refine ⟨x, hx, en, he, hf, rfl, n3, ⟨ht, hf.side, b1', ?_, ?_, ?_, hq1, ?_, ?_, ?_⟩⟩
      · rw [n5]; exact a6.trans hf.client
      · rw [n5]
        show ((l0.timestamp : Nat) : Int) = c.now
        rw [a3, hf.now]; exact e2
      · rw [n5]
        show (_ ∧ l0.timeInForce = 0) ∨ (_ ∧ ((l0.timeInForce : Nat) : Int) = _)
        rw [a4, ← e2]
        rcases tif_cases hf.tif with ⟨q1, q2⟩ | ⟨q1, q2⟩
        · exact .inl ⟨q1, q2⟩
        · right; rw [q2]; omega
      · rw [b3]; exact b5
      · intro hns; rw [b3]; exact b6 (hslide hns)
      · rw [b3]
        have := Int.mul_le_mul_of_nonneg_right n6 (show 0 ≤ D.R.priceLots by omega)
        have := hf.quote
        omega
    refine ⟨fun side comp l hm hk => ?_, fun x hx y hy hxo hyo hxy => ?_⟩
    · obtain ⟨_, _, en, he, _, _, _, hq⟩ := hquote side comp l hm hk
      exact ⟨(hby side comp l hm hk).1, en, he, hq⟩
    · obtain ⟨s1, c1, l1⟩ := x
      obtain ⟨s2, c2, l2⟩ := y
      obtain ⟨x, hx1, e1, _, f1, d1, i1, Q1⟩ := hquote s1 c1 l1 hx hxo
      obtain ⟨y, hy1, e2, _, f2, d2, i2, Q2⟩ := hquote s2 c2 l2 hy hyo
      have hcl : x.1.order.clientOrderId = y.1.order.clientOrderId := by
        rw [f1.client, f2.client, ← Q1.client, ← Q2.client]; exact hxy
      have hnd : (cs.map (fun x => x.1.order.clientOrderId)).Nodup := hsub.nodup (entries_nodup bids asks)
      have hxy' : x = y := List.inj_on_of_nodup_map hnd hx1 hy1 hcl
      subst hxy'
      have hk : l1.key = l2.key := by rw [i1] at i2; injection i2
      have hids := resting_ids (reachable_Inv hr').core.bookOk
      refine List.inj_on_of_nodup_map hids hx hy ?_
      unfold restId
      rw [d1, d2, Q1.comp, Q2.comp]
      simp only [hk]

theorem sum_matched {α β : Type} [DecidableEq β] {L : List α} {E : List β} {f : α → Nat} {k : β → Nat} {v : α → Int} {w : β → Int}
    (hL : L.Nodup) (hf : ∀ x ∈ L, ∀ y ∈ L, f x = f y → x = y) (hm : ∀ x ∈ L, ∃ e ∈ E, k e = f x ∧ v x ≤ w e) (hw : ∀ e ∈ E, 0 ≤ w e) :
    (L.map v).sum ≤ (E.map w).sum := by
  induction L generalizing E with
  | nil =>
    clear hL hf hm
    induction E with
    | nil => simp
    | cons e E ih =>
      have h1 := hw e (by simp)
      have h2 := ih (fun e he => hw e (by simp [he]))
      simp only [List.map_nil, List.sum_nil, List.map_cons, List.sum_cons] at h2 ⊢
      omega
  | cons x L ih =>
    obtain ⟨e, he, hk, hv⟩ := hm x (by simp)
    have hp := List.perm_cons_erase he
    have hs : (E.map w).sum = w e + ((E.erase e).map w).sum := by
      rw [(hp.map w).sum_eq]; simp
    have hnd := List.nodup_cons.mp hL
    have := ih (E := E.erase e) hnd.2 (fun a ha b hb => hf a (by simp [ha]) b (by simp [hb])) (fun y hy => by
      obtain ⟨e', he', hk', hv'⟩ := hm y (by simp [hy])
      refine ⟨e', ?_, hk', hv'⟩
      have hne : e' ≠ e := fun h => hnd.1 (by
        have : x = y := hf x (by simp) y (by simp [hy]) (by rw [← hk, ← hk', h])
        rw [this]; exact hy)
      exact (List.mem_erase_of_ne hne).mpr he') (fun e' he' => hw e' (List.mem_of_mem_erase he'))
    simp only [List.map_cons, List.sum_cons]
    omega

theorem quotes_nodup {s : State} (hr : Reachable s) (k : Pubkey) (side : Side) : (quotes s k side).Nodup :=
  ((resting_ids (reachable_Inv hr).core.bookOk).of_map _).filter _

/-- The entries of one side. -/
theorem quotes_matched {s s' : State} (hr : Reachable s) {c : MultiCtx} {t : PlaceOrderType} {bids asks : List MultiArgs} {limit : Nat}
    (h : step s (.placeOrders c true t bids asks limit) = .ok s') (side : Side) :
    (∀ x ∈ quotes s' c.ooKey side, ∃ e ∈ (entries bids asks).filter (fun e => decide (e.1 = side)),
      e.2.1 = x.2.2.clientOrderId ∧ QuoteOf t c.now e x.1 x.2.1 x.2.2) ∧
    ∀ x ∈ quotes s' c.ooKey side, ∀ y ∈ quotes s' c.ooKey side, x.2.2.clientOrderId = y.2.2.clientOrderId → x = y := by
  obtain ⟨h1, h2⟩ := batch_rest hr h
  have key : ∀ x ∈ quotes s' c.ooKey side, x ∈ s'.book.resting ∧ x.2.2.owner = c.ooKey ∧ x.1 = side := fun x hx => by
    have := List.mem_filter.mp hx
    exact ⟨this.1, of_decide_eq_true this.2⟩
  refine ⟨fun x hx => ?_, fun x hx y hy he => h2 x (key x hx).1 y (key y hy).1 (key x hx).2.1 (key y hy).2.1 he⟩
  obtain ⟨k1, k2, k3⟩ := key x hx
  obtain ⟨_, e, he, hq⟩ := h1 x.1 x.2.1 x.2.2 k1 k2
  exact ⟨e, List.mem_filter.mpr ⟨he, by rw [decide_eq_true_eq, ← hq.side]; exact k3⟩, hq.client.symm, hq⟩

theorem entries_side (bids asks : List MultiArgs) :
    ((entries bids asks).filter (fun e => decide (e.1 = .bid))).map (fun e => e.2.2) = bids ∧
    ((entries bids asks).filter (fun e => decide (e.1 = .ask))).map (fun e => e.2.2) = asks := by
  have hk : ∀ (L : List MultiArgs) (n : Nat) (s s' : Side),
      (((L.zipIdx n).map (fun x => ((s, x.2, x.1) : Side × Nat × MultiArgs))).filter (fun e => decide (e.1 = s'))).map (fun e => e.2.2) =
        if s = s' then L else [] := by
    intro L
    induction L with
    | nil => intros; simp
    | cons a L ih =>
      intro n s s'
      have := ih (n + 1) s s'
      by_cases hs : s = s'
      · simp only [if_pos hs] at this ⊢
        simp only [List.zipIdx_cons, List.map_cons]
        rw [List.filter_cons_of_pos (by simp [hs]), List.map_cons, this]
      · simp only [if_neg hs] at this ⊢
        simp only [List.zipIdx_cons, List.map_cons]
        rw [List.filter_cons_of_neg (by simp [hs]), this]
  unfold entries
  rw [List.filter_append, List.filter_append, List.map_append, List.map_append, hk, hk, hk, hk]
  simp

end OB
