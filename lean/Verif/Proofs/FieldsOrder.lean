import Verif.Proofs.FieldsAcct
/-! The matching engine writes only numbers that fit. -/
namespace OB
open Spec

def FParams : OrderParams → Prop
  | .market => True
  | .immediateOrCancel p => inI64 p
  | .fillOrKill p => inI64 p
  | .fixed p _ => inI64 p
  | .oraclePegged off _ lim => inI64 off ∧ inI64 lim

structure FOrder (o : Order) : Prop where
  base : inI64 o.maxBaseLots
  quote : inI64 o.maxQuoteLotsIncludingFees
  client : o.clientOrderId < 2 ^ 64
  tif : o.timeInForce < 2 ^ 16
  params : FParams o.params

structure FEnv (env : Env) : Prop where
  order : FOrder env.order
  now : env.nowTs < 2 ^ 63
  owner : FitsKey env.owner
  oracle : ∀ p, env.oracle = some p → inI64 p

structure FBook (b : Book) : Prop where
  bids : FSide b.bids
  asks : FSide b.asks

theorem FBook.side {b : Book} (h : FBook b) (sd : Side) : FSide (b.side sd) := by
  cases sd
  · exact h.bids
  · exact h.asks

theorem FBook.setSide {b : Book} (h : FBook b) (sd : Side) {x : BookSide} (hx : FSide x) : FBook (b.setSide sd x) := by
  cases sd
  · exact ⟨hx, h.asks⟩
  · exact ⟨h.bids, hx⟩

theorem FOrder.pegLimit {o : Order} (h : FOrder o) : inI64 o.pegLimit := by
  have h1 := h.params
  unfold Order.pegLimit
  split <;> rename_i hp
  · rw [hp] at h1; exact h1.2
  · decide

theorem FTree.firstValid {t : Nodes} (h : FTree t) {now : Nat} {o : Option Int} : ∀ {n : Nat} {it : SideIter} (_ : FIter it.fixedIter)
    (_ : FIter it.peggedIter) {i : IterItem} (_ : BookSide.firstValid t now o n it = .ok (some i)), FItem i := by
  intro n
  induction n with
  | zero => intro it _ _ i hk; cases hk
  | succ n ih =>
    intro it h1 h2 i hk
    simp only [BookSide.firstValid, bind_ok] at hk
    obtain ⟨x, h3, hk⟩ := hk
    cases x with
    | none => simp [pure_ok] at hk
    | some x =>
      obtain ⟨j, it'⟩ := x
      obtain ⟨a1, a2, a3⟩ := h.sideNext h1 h2 h3
      dsimp only at hk
      split at hk
      · simp only [pure_ok, Option.some.injEq] at hk
        subst hk; exact a1
      · exact ih a2 a3 hk

theorem FSide.bestPrice {b : BookSide} (h : FSide b) {now : Nat} {o : Option Int} {p : Int} (hk : b.bestPrice now o = .ok (some p)) : inI64 p := by
  unfold BookSide.bestPrice at hk
  simp only [bind_ok] at hk
  obtain ⟨it, h1, x, h2, hk⟩ := hk
  cases x with
  | none => simp [pure_ok] at hk
  | some i =>
    simp only [pure_ok, Option.some.injEq] at hk
    subst hk
    exact (h.tree.firstValid (h.iter h1).1 (h.iter h1).2 h2).2

theorem priceForOrderType_fits {sd : Side} {now : Nat} {o : Option Int} {pl p : Int} {t : PostOrderType} {b : Book} (hpl : inI64 pl)
    (hk : priceForOrderType sd now o pl t b = .ok p) : inI64 p := by
  unfold priceForOrderType at hk
  split at hk
  · simp only [bind_ok] at hk
    obtain ⟨x, -, hk⟩ := hk
    cases x with
    | none => simp only [pure_ok] at hk; subst hk; exact hpl
    | some best =>
      unfold inI64 at hpl ⊢
      cases sd <;> simp only [postOnlySlideLimit, bind_ok, ckI64_ok, pure_ok] at hk
      · obtain ⟨_, ⟨r, rfl⟩, rfl⟩ := hk; omega
      · obtain ⟨_, ⟨r, rfl⟩, rfl⟩ := hk; omega
  · simp only [ok_ok] at hk; subst hk; exact hpl

theorem FOrder.price {o : Order} (h : FOrder o) {now : Nat} {oracle : Option Int} {b : Book} {p : Int} {d : Nat}
    (hk : o.price now oracle b = .ok (p, d)) : inI64 p ∧ d < two64 := by
  unfold Order.price at hk
  simp only [bind_ok, req_ok, pure_ok, Prod.mk.injEq] at hk
  obtain ⟨p', h1, _, h2, d', h3, rfl, rfl⟩ := hk
  constructor
  · have hp := h.params
    unfold Order.priceLots at h1
    split at h1 <;> rename_i hx <;> rw [hx] at hp
    · simp only [ok_ok] at h1; subst h1
      unfold marketOrderLimitForSide
      split <;> decide
    · simp only [ok_ok] at h1; subst h1; exact hp
    · simp only [ok_ok] at h1; subst h1; exact hp
    · exact priceForOrderType_fits hp h1
    · cases oracle with
      | none => cases h1
      | some op =>
        simp only [bind_ok, req_ok] at h1
        obtain ⟨_, r, h1⟩ := h1
        exact priceForOrderType_fits r h1
  · unfold Order.priceData at h3
    split at h3
    · simp only [bind_ok, pure_ok] at h3
      obtain ⟨_, -, _, -, rfl⟩ := h3
      unfold oraclePeggedPriceData two64
      omega
    · unfold fixedPriceData at h3
      simp only [bind_ok, req_ok, pure_ok] at h3
      obtain ⟨_, -, rfl⟩ := h3
      have := asU64_in p'
      unfold inU64 u64Max at this
      unfold two64
      omega

theorem FLedger.out {g g' : Ledger} (h : FLedger g) {ev : OutEvent} (he : eventFits (.out ev)) {b : Bool} {k : Pubkey} {rem : List Pubkey}
    (hk : processOutEvent ev b k rem g = .ok g') : FLedger g' := by
  unfold processOutEvent at hk
  split at hk
  · simp only [bind_ok, pure_ok] at hk
    obtain ⟨a, h1, a', h2, rfl⟩ := hk
    exact h.setAcct _ ((h.accts.get h1).2.cancelOrder h2)
  · split at hk
    · simp only [bind_ok, pure_ok] at hk
      obtain ⟨a, h1, a', h2, rfl⟩ := hk
      exact h.setAcct _ ((h.accts.get h1).2.cancelOrder h2)
    · simp only [bind_ok, pure_ok] at hk
      obtain ⟨hp, h1, rfl⟩ := hk
      exact ⟨h.market, h.heap.pushBack he h1, h.accts⟩

theorem FLedger.fill {g g' : Ledger} (h : FLedger g) {ev : FillEvent} (he : eventFits (.fill ev)) {b : Bool} {k : Pubkey} {rem : List Pubkey}
    {n n' : Nat} (hk : processFillEvent ev b k rem g n = .ok (g', n')) : FLedger g' := by
  unfold processFillEvent at hk
  split at hk
  · split at hk
    · cases hk
    · simp only [bind_ok, pure_ok, Prod.mk.injEq] at hk
      obtain ⟨a, h1, ⟨a', m'⟩, h2, rfl, -⟩ := hk
      obtain ⟨q1, q2⟩ := (h.accts.get h1).2.executeMaker h.market h2
      exact ⟨q2, h.heap, h.accts.set _ q1⟩
  · simp only [bind_ok, pure_ok, Prod.mk.injEq] at hk
    obtain ⟨hp, h1, rfl, -⟩ := hk
    exact ⟨h.market, h.heap.pushBack he h1, h.accts⟩

structure FMatch (s : MatchSt) : Prop where
  base : inI64 s.remBase
  quote : inI64 s.remQuote
  changes : ∀ x ∈ s.changes, inI64 x.2
  g : FLedger s.g

theorem outEv_fits {l : LeafNode} (h : FLeaf l) {sd : Side} {now seq : Nat} (hn : now < 2 ^ 63) (hs : seq < 2 ^ 64) :
    eventFits (.out { side := sd, ownerSlot := l.ownerSlot, timestamp := now, seqNum := seq, owner := l.owner, quantity := l.quantity }) := by
  obtain ⟨⟨a1, a2, a3, a4, a5, a6, a7, a8⟩, a9⟩ := h
  exact ⟨a1, by show now < _; omega, hs, a4, a5⟩

theorem FMatch.fill {env : Env} (he : FEnv env) {item : IterItem} (hi : FItem item) {mb mq : Int} (hmb : inI64 mb) {s s' : MatchSt}
    (h : FMatch s) (hk : matchFill env item mb mq s = .ok s') : FMatch s' := by
  unfold matchFill at hk
  simp only [bind_ok, assertR, req_ok, ckI64_ok, pure_ok] at hk
  obtain ⟨_, ⟨r1, rfl⟩, _, ⟨r2, rfl⟩, _, -, _, ⟨r3, rfl⟩, ⟨g, n⟩, h1, _, -, rfl⟩ := hk
  obtain ⟨⟨⟨a1, a2, a3, a4, a5, a6, a7, a8⟩, a9⟩, hp⟩ := hi
  have hnow := he.now
  refine ⟨r1, r2, ?_, h.g.fill ?_ h1⟩
  · intro x hx
    dsimp only at hx
    split at hx
    · exact h.changes x hx
    · rcases List.mem_append.mp hx with hx | hx
      · exact h.changes x hx
      · rw [List.mem_singleton] at hx; subst hx; exact r3
  · exact ⟨a1, by show env.nowTs < _; omega, h.g.market.seq, a4, a6, he.owner, he.order.client, hp, a7, hmb, a8⟩

theorem tdiv_ge {a : Int} (h : inI64 a) (b : Int) : i64Min ≤ a.tdiv b := by
  have h1 := Int.natAbs_tdiv_le_natAbs a b
  unfold inI64 i64Min i64Max at h
  unfold i64Min
  omega

theorem FMatch.step {env : Env} (he : FEnv env) {pl : Int} {item : IterItem} (hi : FItem item) {s s' : MatchSt} {b : Bool} (h : FMatch s)
    (hk : matchStep env pl item s = .ok (b, s')) : FMatch s' := by
  unfold matchStep at hk
  dsimp only at hk
  split at hk
  · simp only [ok_ok, Prod.mk.injEq] at hk; obtain ⟨-, rfl⟩ := hk; exact h
  split at hk
  · split at hk
    · simp only [bind_ok, pure_ok, Prod.mk.injEq] at hk
      obtain ⟨g, h1, -, rfl⟩ := hk
      exact ⟨h.base, h.quote, h.changes, h.g.out (outEv_fits hi.1 he.now h.g.heap.heads.2.2.2) h1⟩
    · simp only [ok_ok, Prod.mk.injEq] at hk; obtain ⟨-, rfl⟩ := hk; exact h
  split at hk
  · simp only [ok_ok, Prod.mk.injEq] at hk; obtain ⟨-, rfl⟩ := hk; exact h
  split at hk
  · simp only [ok_ok, Prod.mk.injEq] at hk; obtain ⟨-, rfl⟩ := hk; exact ⟨h.base, h.quote, h.changes, h.g⟩
  split at hk
  · simp only [ok_ok, Prod.mk.injEq] at hk; obtain ⟨-, rfl⟩ := hk; exact ⟨h.base, h.quote, h.changes, h.g⟩
  simp only [bind_ok, assertR, req_ok] at hk
  obtain ⟨_, -, hk⟩ := hk
  split at hk
  · simp only [pure_ok, Prod.mk.injEq] at hk; obtain ⟨-, rfl⟩ := hk; exact ⟨h.base, h.quote, h.changes, h.g⟩
  have hq : inI64 (min (min s.remBase item.leaf.quantity) (s.remQuote.tdiv item.priceLots)) := by
    have h1 := tdiv_ge h.quote item.priceLots
    have h2 := h.base
    have h3 := hi.1.1.2.2.2.2.1
    unfold inI64 at h2 ⊢
    omega
  simp only [bind_ok] at hk
  obtain ⟨mq, h1, hk⟩ := hk
  split at hk
  · split at hk
    · simp only [bind_ok, pure_ok, Prod.mk.injEq] at hk
      obtain ⟨d, -, s1, h2, -, rfl⟩ := hk
      exact FMatch.fill he hi hq (s := { s with decr := d }) ⟨h.base, h.quote, h.changes, h.g⟩ h2
    · simp only [bind_ok, pure_ok, Prod.mk.injEq] at hk
      obtain ⟨a, h2, a', h3, -, rfl⟩ := hk
      exact ⟨h.base, h.quote, h.changes, h.g.setAcct _ ((h.g.accts.get h2).2.cancelOrder h3)⟩
    · cases hk
  · simp only [bind_ok, pure_ok, Prod.mk.injEq] at hk
    obtain ⟨_, -, _, -, rb, -, s1, h2, -, rfl⟩ := hk
    exact FMatch.fill he hi hq (s := { s with rebates := rb }) ⟨h.base, h.quote, h.changes, h.g⟩ h2

theorem FMatch.loop {env : Env} (he : FEnv env) {pl : Int} {t : Nodes} (ht : FTree t) : ∀ {n : Nat} {it : SideIter} (_ : FIter it.fixedIter)
    (_ : FIter it.peggedIter) {s s' : MatchSt} (_ : FMatch s) (_ : matchLoop env pl t n it s = .ok s'), FMatch s' := by
  intro n
  induction n with
  | zero => intro it _ _ s s' _ hk; cases hk
  | succ n ih =>
    intro it h1 h2 s s' h hk
    simp only [matchLoop, bind_ok] at hk
    obtain ⟨x, h3, hk⟩ := hk
    cases x with
    | none => simp only [pure_ok] at hk; subst hk; exact h
    | some x =>
      obtain ⟨i, it'⟩ := x
      obtain ⟨a1, a2, a3⟩ := ht.sideNext h1 h2 h3
      simp only [bind_ok] at hk
      obtain ⟨⟨go, s1⟩, h4, hk⟩ := hk
      have h5 := h.step he a1 h4
      dsimp only at hk
      split at hk
      · exact ih a2 a3 h5 hk
      · simp only [pure_ok] at hk; subst hk; exact h5

theorem FSide.changes {l : List (Nat × Int)} : ∀ {b b' : BookSide} (_ : FSide b) (_ : ∀ x ∈ l, inI64 x.2) (_ : applyChanges b l = .ok b'),
    FSide b' := by
  induction l with
  | nil => intro b b' h _ hk; simp only [applyChanges, ok_ok] at hk; subst hk; exact h
  | cons x l ih =>
    intro b b' h hl hk
    simp only [applyChanges, bind_ok] at hk
    obtain ⟨b1, h1, hk⟩ := hk
    exact ih (h.setQuantity (hl x List.mem_cons_self) h1) (fun y hy => hl y (List.mem_cons_of_mem _ hy)) hk

theorem FSide.deletes {l : List (Comp × Nat)} : ∀ {b b' : BookSide} (_ : FSide b) (_ : applyDeletes b l = .ok b'), FSide b' := by
  induction l with
  | nil => intro b b' h hk; simp only [applyDeletes, ok_ok] at hk; subst hk; exact h
  | cons x l ih =>
    intro b b' h hk
    simp only [applyDeletes, bind_ok, unwrapR_ok] at hk
    obtain ⟨_, h1, ⟨lf, b1⟩, rfl, hk⟩ := hk
    exact ih (h.removeByKey h1).2 hk

theorem FLedger.taker {env : Env} {mq : Int} {s : MatchSt} (h : FLedger s.g) {x1 x2 x3 x4 x5 : Int} {g : Ledger}
    (hk : takerAccounting env mq s = .ok (x1, x2, x3, x4, x5, g)) : FLedger g := by
  unfold takerAccounting at hk
  simp only [bind_ok, assertR, req_ok] at hk
  obtain ⟨_, -, _, -, _, -, _, -, _, -, _, -, hk⟩ := hk
  split at hk
  · simp only [bind_ok] at hk
    obtain ⟨_, -, _, -, ⟨f, r, m1⟩, h1, g1, h2, _, -, hk⟩ := hk
    simp only [pure_ok, Prod.mk.injEq] at hk
    obtain ⟨-, -, -, -, -, rfl⟩ := hk
    have hm := h.market
    have hm1 : FMarket m1 := by
      split at h1
      · simp only [bind_ok, ckU128_ok, pure_ok, Prod.mk.injEq] at h1
        obtain ⟨_, -, _, -, _, ⟨r1, rfl⟩, -, -, rfl⟩ := h1
        exact ⟨hm.keys, hm.i64s, hm.bls, hm.qls, hm.seq, hm.rra, hm.fav, hm.bdt, hm.qdt, r1, hm.ftr, hm.mv, hm.tv⟩
      · simp only [ok_ok, Prod.mk.injEq] at h1
        obtain ⟨-, -, rfl⟩ := h1
        exact hm
    split at h2
    · simp only [bind_ok, pure_ok] at h2
      obtain ⟨a, h3, ⟨a', m2⟩, h4, rfl⟩ := h2
      obtain ⟨q1, q2⟩ := (h.accts.get h3).2.executeTaker hm1 h4
      exact ⟨q2, h.heap, h.accts.set _ q1⟩
    · simp only [bind_ok, ckU128_ok, pure_ok] at h2
      obtain ⟨_, ⟨r1, rfl⟩, rfl⟩ := h2
      exact ⟨⟨hm1.keys, hm1.i64s, hm1.bls, hm1.qls, hm1.seq, hm1.rra, hm1.fav, hm1.bdt, hm1.qdt, hm1.facc, hm1.ftr, hm1.mv, r1⟩, h.heap, h.accts⟩
  · simp only [ok_ok, Prod.mk.injEq] at hk
    obtain ⟨-, -, -, -, -, rfl⟩ := hk
    exact h

theorem FLedger.room {env : Env} (he : FEnv env) {pl : Int} {c : Comp} {b b' : BookSide} {g g' : Ledger} {outs : List OutEvent} (hb : FSide b)
    (h : FLedger g) (hk : makeRoom env pl c b g = .ok (b', g', outs)) : FSide b' ∧ FLedger g' := by
  unfold makeRoom at hk
  simp only [bind_ok] at hk
  obtain ⟨o, h1, ⟨b1, g1, o1⟩, h2, hk⟩ := hk
  have q : FSide b1 ∧ FLedger g1 := by
    cases o with
    | none => simp only [ok_ok, Prod.mk.injEq] at h2; obtain ⟨rfl, rfl, -⟩ := h2; exact ⟨hb, h⟩
    | some x =>
      obtain ⟨l, b2⟩ := x
      simp only [bind_ok, pure_ok, Prod.mk.injEq] at h2
      obtain ⟨g2, h3, rfl, rfl, -⟩ := h2
      obtain ⟨a1, a2⟩ := hb.removeOneExpired h1
      exact ⟨a2, h.out (outEv_fits a1 he.now h.heap.heads.2.2.2) h3⟩
  dsimp only at hk
  split at hk
  · simp only [bind_ok, unwrapR_ok, req_ok, pure_ok, Prod.mk.injEq] at hk
    obtain ⟨_, h3, ⟨l, wp, b2⟩, rfl, _, -, g2, h4, rfl, rfl, -⟩ := hk
    obtain ⟨a1, a2⟩ := q.1.removeWorst h3
    exact ⟨a2, q.2.out (outEv_fits a1 he.now q.2.heap.heads.2.2.2) h4⟩
  · simp only [pure_ok, Prod.mk.injEq] at hk
    obtain ⟨rfl, rfl, -⟩ := hk
    exact q

theorem FLedger.post {env : Env} (he : FEnv env) {id : Nat} (hid : id < 2 ^ 128) {pl price qty : Int} (hp : inI64 price) (hq : inI64 qty)
    {c : Comp} {b b' : BookSide} {g g' : Ledger} {x1 x2 x3 : Int} {outs : List OutEvent} (hb : FSide b) (h : FLedger g)
    (hk : postOrder env id pl price qty c b g = .ok (b', g', x1, x2, x3, outs)) : FSide b' ∧ FLedger g' := by
  unfold postOrder at hk
  simp only [bind_ok, assertR, req_ok, pure_ok, Prod.mk.injEq] at hk
  obtain ⟨_, -, _, -, _, -, _, -, _, -, a, h1, ⟨mf, a1⟩, h2, ⟨b1, g2, o2⟩, h3, a2, h4, slot, h5, ⟨_, _, b2⟩, h6, a3, h7, rfl, rfl, -⟩ := hk
  obtain ⟨k1, k2⟩ := h.accts.get h1
  have hp1 := k2.pos
  have q1 : FAcct a1 := by
    split at h2
    · simp only [bind_ok, ckU64_ok, pure_ok, Prod.mk.injEq] at h2
      obtain ⟨_, -, _, -, _, ⟨r1, rfl⟩, -, rfl⟩ := h2
      exact k2.withPos ⟨hp1.bb, hp1.ab, hp1.bf, hp1.qf, r1, hp1.rr, hp1.pc, hp1.mv, hp1.tv, hp1.bq⟩
    · simp only [ok_ok, Prod.mk.injEq] at h2
      obtain ⟨-, rfl⟩ := h2
      exact k2
  obtain ⟨q2, q3⟩ := FLedger.room he hb (h.setAcct env.owner q1) h3
  have hn := he.now
  refine ⟨q2.insertLeaf ?_ h6, q3.setAcct _ ((q3.accts.get h4).2.addOrder hid he.order.client hp h7)⟩
  exact ⟨⟨by show slot % 256 < _; omega, he.order.tif, hid, he.owner, hq, by show env.nowTs < _; omega, he.order.pegLimit, he.order.client⟩, hn⟩

theorem newOrder_fits {env : Env} (he : FEnv env) {b b' : Book} {g g' : Ledger} {r : OrderResult} (hb : FBook b) (h : FLedger g)
    (hk : newOrder env b g = .ok (r, b', g')) : FBook b' ∧ FLedger g' := by
  unfold newOrder at hk
  simp only [bind_ok, assertR, req_ok, ite_bind] at hk
  obtain ⟨⟨p, d⟩, h1, _, h2, mq, h3, _, h4, _, h5, it, h6, s, h7, ⟨bn, qn, f, rf, qt, g1⟩, h8, _, h9, _, h10, _, h11, rq, h12, o1, h13, o2, h14, ⟨tg, qty⟩, h15, hk⟩ := hk
  obtain ⟨p1, p2⟩ := he.order.price h1
  have hm := h.market
  have hmq : inI64 mq := by
    split at h3
    · unfold Market.subtractTakerFees at h3
      rw [ckI64_ok] at h3
      obtain ⟨r1, rfl⟩ := h3
      exact r1
    · simp only [ok_ok] at h3; subst h3; exact he.order.quote
  have hseq : g.market.seqNum + 1 < 2 ^ 64 := by omega
  have hm0 : FMarket { g.market with seqNum := g.market.seqNum + 1 } :=
    ⟨hm.keys, hm.i64s, hm.bls, hm.qls, hseq, hm.rra, hm.fav, hm.bdt, hm.qdt, hm.facc, hm.ftr, hm.mv, hm.tv⟩
  have hopp := hb.side env.order.side.invert
  have hi := hopp.iter h6
  have hs : FMatch s := FMatch.loop he hopp.tree hi.1 hi.2 (by
    exact ⟨he.order.base, hmq, (fun x hx => by cases hx), hm0, h.heap, h.accts⟩) h7
  have hg1 := FLedger.taker hs.g h8
  have hb1 : FBook (b.setSide env.order.side.invert o2) := hb.setSide _ ((hopp.changes hs.changes h13).deletes h14)
  cases tg with
  | none =>
    simp only [pure_ok, Prod.mk.injEq] at hk
    obtain ⟨-, rfl, rfl⟩ := hk
    exact ⟨hb1, hg1⟩
  | some c =>
    simp only [bind_ok, pure_ok, Prod.mk.injEq] at hk
    obtain ⟨⟨own, g2, pb, pq, mf, outs⟩, h16, -, rfl, rfl⟩ := hk
    have hlp : inI64 (lockPrice env.order p) := by
      unfold lockPrice
      split
      · exact he.order.pegLimit
      · exact p1
    have hqty : inI64 qty := by
      unfold postDecision at h15
      simp only [bind_ok, assertR, req_ok, ckI64_ok, pure_ok, Prod.mk.injEq] at h15
      obtain ⟨_, -, _, ⟨r1, rfl⟩, _, -, _, -, -, rfl⟩ := h15
      have h17 := tdiv_ge r1 (lockPrice env.order p)
      have h18 := hs.base
      unfold inI64 at h18 ⊢
      omega
    have hid : newNodeKey env.order.side d (g.market.seqNum + 1) < 2 ^ 128 := by
      have := newNodeKey_lt (side := env.order.side) p2 (show g.market.seqNum + 1 < two64 by unfold two64; omega)
      omega
    obtain ⟨q1, q2⟩ := FLedger.post he hid hlp hqty (hb1.side _) hg1 h16
    exact ⟨hb1.setSide _ q1, q2⟩

theorem cancelOnBook_fits {b b' : Book} {a a' : OOA} {m : Market} {id : Nat} {sd : Side} {c : Comp} {o : Option Pubkey} {l : LeafNode}
    (hb : FBook b) (ha : FAcct a) (hk : cancelOrderOnBook b a m id sd c o = .ok (l, b', a')) : FBook b' ∧ FAcct a' := by
  unfold cancelOrderOnBook at hk
  simp only [bind_ok] at hk
  obtain ⟨x, h1, hk⟩ := hk
  cases x with
  | none => cases hk
  | some x =>
    obtain ⟨lf, b1⟩ := x
    cases o <;>
    · simp only [bind_ok, pure_ok, Prod.mk.injEq] at hk
      obtain ⟨_, -, a1, h2, -, rfl, rfl⟩ := hk
      exact ⟨hb.setSide _ ((hb.side sd).removeByKey h1).2, ha.cancelOrder h2⟩

theorem cancelAllLoop_fits {m : Market} {so : Option Side} {co : Option Nat} : ∀ {n i limit : Nat} {b b' : Book} {a a' : OOA} {t t' : Int}
    (_ : FBook b) (_ : FAcct a) (_ : cancelAllLoop m so co n i limit b a t = .ok (t', b', a')), FBook b' ∧ FAcct a' := by
  intro n
  induction n with
  | zero =>
    intro i limit b b' a a' t t' hb ha hk
    simp only [cancelAllLoop, ok_ok, Prod.mk.injEq] at hk
    obtain ⟨-, rfl, rfl⟩ := hk
    exact ⟨hb, ha⟩
  | succ n ih =>
    intro i limit b b' a a' t t' hb ha hk
    simp only [cancelAllLoop, bind_ok] at hk
    obtain ⟨oo, -, hk⟩ := hk
    split at hk
    · exact ih hb ha hk
    split at hk
    · exact ih hb ha hk
    split at hk
    · exact ih hb ha hk
    split at hk
    · simp only [pure_ok, Prod.mk.injEq] at hk
      obtain ⟨-, rfl, rfl⟩ := hk
      exact ⟨hb, ha⟩
    split at hk
    · exact ih hb ha hk
    · cases hk
    · rename_i h1
      simp only [bind_ok] at hk
      obtain ⟨_, -, hk⟩ := hk
      obtain ⟨q1, q2⟩ := cancelOnBook_fits hb ha h1
      exact ih q1 q2 hk

end OB
