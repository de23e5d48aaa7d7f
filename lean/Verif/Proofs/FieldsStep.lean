import Verif.Proofs.FieldsOrder
import Verif.Proofs.Again
/-! Every instruction writes only numbers that fit. -/
namespace OB
open Spec

def FTok (t : TokenAcct) : Prop := FitsKey t.owner ∧ FitsKey t.mint ∧ inU64 t.amount

structure FState (s : State) : Prop where
  key : FitsKey s.marketKey
  g : FLedger s.g
  book : FBook s.book
  tokens : ∀ k, FTok (s.tokens k)
  lamports : ∀ k, inU64 (s.lamports k)

theorem transfer_fits {t t' : Tokens} {x : Int} {a b c : Pubkey} (h : ∀ k, FTok (t k)) (hk : tokenTransfer t x a b c = .ok t') :
    ∀ k, FTok (t' k) := by
  unfold tokenTransfer at hk
  split at hk
  · rename_i hx
    simp only [bind_ok, req_ok] at hk
    obtain ⟨_, h1, _, -, _, -, hk⟩ := hk
    split at hk
    · simp only [pure_ok] at hk; subst hk; exact h
    · simp only [bind_ok, ckU64_ok, pure_ok] at hk
      obtain ⟨_, ⟨r1, rfl⟩, rfl⟩ := hk
      have h2 : ∀ k, FTok (t.setAmount a ((t a).amount - x) k) := by
        intro k
        unfold Tokens.setAmount
        split
        · obtain ⟨q1, q2, q3⟩ := h a
          refine ⟨q1, q2, ?_⟩
          unfold inU64 at q3 ⊢
          dsimp only
          omega
        · exact h k
      intro k
      unfold Tokens.setAmount
      split
      · obtain ⟨q1, q2, q3⟩ := h2 b
        exact ⟨q1, q2, r1⟩
      · exact h2 k
  · simp only [ok_ok] at hk; subst hk; exact h

theorem systemTransfer_fits {l l' : Lamports} {x : Int} {a b : Pubkey} (h : ∀ k, inU64 (l k)) (hk : systemTransfer l x a b = .ok l') :
    ∀ k, inU64 (l' k) := by
  unfold systemTransfer at hk
  split at hk
  · rename_i hx
    simp only [bind_ok, req_ok] at hk
    obtain ⟨_, h1, hk⟩ := hk
    split at hk
    · simp only [pure_ok] at hk; subst hk; exact h
    · simp only [bind_ok, ckU64_ok, pure_ok] at hk
      obtain ⟨_, ⟨r1, rfl⟩, rfl⟩ := hk
      intro k
      dsimp only
      split
      · exact r1
      · split
        · have := h a
          unfold inU64 at this ⊢
          omega
        · exact h k
  · simp only [ok_ok] at hk; subst hk; exact h

theorem FLedger.lockBid {g g' : Ledger} (h : FLedger g) {k : Pubkey} {x d : Int} (hk : lockBid g k x = .ok (g', d)) : FLedger g' := by
  unfold OB.lockBid at hk
  simp only [bind_ok, ckU64_ok, pure_ok, Prod.mk.injEq] at hk
  obtain ⟨a, h1, _, ⟨-, rfl⟩, _, ⟨r1, rfl⟩, _, ⟨r2, rfl⟩, rfl, -⟩ := hk
  have ha := (h.accts.get h1).2
  have hp := ha.pos
  have hm := h.market
  exact ⟨⟨hm.keys, hm.i64s, hm.bls, hm.qls, hm.seq, hm.rra, hm.fav, hm.bdt, r2, hm.facc, hm.ftr, hm.mv, hm.tv⟩, h.heap,
    h.accts.set _ (ha.withPos ⟨hp.bb, hp.ab, hp.bf, r1, hp.lf, hp.rr, hp.pc, hp.mv, hp.tv, hp.bq⟩)⟩

theorem FLedger.lockAsk {g g' : Ledger} (h : FLedger g) {k : Pubkey} {x d : Int} (hk : lockAsk g k x = .ok (g', d)) : FLedger g' := by
  unfold OB.lockAsk at hk
  simp only [bind_ok, ckU64_ok, pure_ok, Prod.mk.injEq] at hk
  obtain ⟨a, h1, _, ⟨-, rfl⟩, _, ⟨r1, rfl⟩, _, ⟨r2, rfl⟩, rfl, -⟩ := hk
  have ha := (h.accts.get h1).2
  have hp := ha.pos
  have hm := h.market
  exact ⟨⟨hm.keys, hm.i64s, hm.bls, hm.qls, hm.seq, hm.rra, hm.fav, r2, hm.qdt, hm.facc, hm.ftr, hm.mv, hm.tv⟩, h.heap,
    h.accts.set _ (ha.withPos ⟨hp.bb, hp.ab, r1, hp.qf, hp.lf, hp.rr, hp.pc, hp.mv, hp.tv, hp.bq⟩)⟩

theorem FLedger.penalty {g g' : Ledger} (h : FLedger g) {k : Pubkey} {n : Nat} (hk : addPenalty g k n = .ok g') : FLedger g' := by
  unfold addPenalty at hk
  split at hk
  · simp only [bind_ok, ckU64_ok, pure_ok] at hk
    obtain ⟨a, h1, _, ⟨r1, rfl⟩, rfl⟩ := hk
    have ha := (h.accts.get h1).2
    have hp := ha.pos
    exact h.setAcct _ (ha.withPos ⟨hp.bb, hp.ab, hp.bf, hp.qf, hp.lf, hp.rr, r1, hp.mv, hp.tv, hp.bq⟩)
  · simp only [ok_ok] at hk; subst hk; exact h

theorem nowU64_fits {now : Int} {n : Nat} (hk : nowU64 now = .ok n) : n < 2 ^ 63 := by
  unfold nowU64 i64Max at hk
  simp only [bind_ok, assertR, req_ok, pure_ok] at hk
  obtain ⟨_, h1, rfl⟩ := hk
  omega

theorem oracleOk_fits {s : State} {o : Option Int} {u : Unit} (hk : oracleOk s o = .ok u) : ∀ p, o = some p → inI64 p := by
  rintro p rfl
  simp only [oracleOk, req_ok] at hk
  exact hk.2

theorem placeOrder_fits {s s' : State} {c : PlaceCtx} {o : Order} {limit : Nat} {r : OrderResult} (h : FState s) (ho : FOrder o)
    (hk : placeOrder s c o limit = .ok (r, s')) : FState s' := by
  unfold placeOrder at hk
  simp only [bind_ok, req_ok, pure_ok, Prod.mk.injEq] at hk
  obtain ⟨_, h0, _, -, _, -, _, -, _, -, nowTs, h1, _, h2, ⟨r', b', g1⟩, h3, cost, -, ⟨g2, dep⟩, h4, g3, h5, t, h6, -, rfl⟩ := hk
  unfold authPlace at h0
  simp only [bind_ok, req_ok] at h0
  obtain ⟨_, -, _, -, a, h7, -⟩ := h0
  obtain ⟨q1, q2⟩ := newOrder_fits (env := ⟨o, c.oracle, true, c.ooKey, nowTs, limit, c.rem⟩)
    ⟨ho, nowU64_fits h1, (h.g.accts.get h7).1, oracleOk_fits h2⟩ h.book h.g h3
  have q3 : FLedger g2 := by
    split at h4
    · exact q2.lockBid h4
    · exact q2.lockAsk h4
  exact ⟨h.key, q3.penalty h5, q1, transfer_fits h.tokens h6, h.lamports⟩

theorem tif_fits {now e tif : Nat} (h : tifFromExpiry now e = some tif) : tif < 2 ^ 16 := by
  unfold tifFromExpiry at h
  split at h
  · dsimp only at h
    split at h
    · cases h
    · cases h; omega
  · cases h; decide

theorem orderParams_fits {t : PlaceOrderType} {p : Int} (hp : inI64 p) {x : OrderParams} (hk : orderParams t p = .ok x) :
    FParams x := by
  unfold orderParams at hk
  split at hk
  · cases hk; trivial
  · cases hk; exact hp
  · cases hk; exact hp
  · simp only [bind_ok, pure_ok] at hk
    obtain ⟨y, -, rfl⟩ := hk
    exact hp

theorem order_fits {a : PlaceOrderArgs} {now : Nat} {o : Order} (hk : a.order now = .ok (some o)) : FOrder o := by
  unfold PlaceOrderArgs.order at hk
  simp only [bind_ok, req_ok] at hk
  obtain ⟨_, ⟨t1, t2, t3, t4, t5, t6⟩, _, -, hk⟩ := hk
  split at hk
  · simp [pure_ok] at hk
  · rename_i tif ht
    simp only [bind_ok, pure_ok, Option.some.injEq] at hk
    obtain ⟨p, h1, rfl⟩ := hk
    exact ⟨t2, t3, by unfold two64 at t4; exact t4, tif_fits ht, orderParams_fits t1 h1⟩

theorem orderPegged_fits {a : PlaceOrderPeggedArgs} {m : Market} {now : Nat} {o : Order} (hk : a.order m now = .ok (some o)) : FOrder o := by
  unfold PlaceOrderPeggedArgs.order at hk
  simp only [bind_ok, req_ok] at hk
  obtain ⟨_, ⟨t1, t2, t3, t4, t5, t6⟩, _, -, _, -, hk⟩ := hk
  split at hk
  · simp [pure_ok] at hk
  · rename_i tif ht
    simp only [bind_ok, pure_ok, Option.some.injEq] at hk
    obtain ⟨p, h1, rfl⟩ := hk
    exact ⟨t3, t4, by unfold two64 at t5; exact t5, tif_fits ht, t1, t2⟩

theorem placeOrderIx_fits {s s' : State} {c : PlaceCtx} {a : PlaceOrderArgs} {r : Option OrderResult} (h : FState s)
    (hk : placeOrderIx s c a = .ok (r, s')) : FState s' := by
  unfold placeOrderIx at hk
  simp only [bind_ok] at hk
  obtain ⟨n, h1, o, h2, hk⟩ := hk
  cases o with
  | none => simp only [bind_ok, pure_ok, Prod.mk.injEq] at hk; obtain ⟨_, -, -, rfl⟩ := hk; exact h
  | some o =>
    simp only [bind_ok, pure_ok, Prod.mk.injEq] at hk
    obtain ⟨⟨r', s1⟩, h3, -, rfl⟩ := hk
    exact placeOrder_fits h (order_fits h2) h3

theorem placeOrderPeggedIx_fits {s s' : State} {c : PlaceCtx} {a : PlaceOrderPeggedArgs} {r : Option OrderResult} (h : FState s)
    (hk : placeOrderPeggedIx s c a = .ok (r, s')) : FState s' := by
  unfold placeOrderPeggedIx at hk
  simp only [bind_ok] at hk
  obtain ⟨n, h1, o, h2, hk⟩ := hk
  cases o with
  | none => simp only [bind_ok, pure_ok, Prod.mk.injEq] at hk; obtain ⟨_, -, -, rfl⟩ := hk; exact h
  | some o =>
    simp only [bind_ok, pure_ok, Prod.mk.injEq] at hk
    obtain ⟨⟨r', s1⟩, h3, -, rfl⟩ := hk
    exact placeOrder_fits h (orderPegged_fits h2) h3

theorem cancelAllFor_fits {s s' : State} {k : Pubkey} {limit : Nat} {so : Option Side} {co : Option Nat} {q : Int} (h : FState s)
    (hk : cancelAllFor s k limit so co = .ok (q, s')) : FState s' := by
  unfold cancelAllFor cancelAllOrders at hk
  simp only [bind_ok, pure_ok, Prod.mk.injEq] at hk
  obtain ⟨a, h1, ⟨t, b, a'⟩, h2, -, rfl⟩ := hk
  obtain ⟨q1, q2⟩ := cancelAllLoop_fits h.book (h.g.accts.get h1).2 h2
  exact ⟨h.key, h.g.setAcct _ q2, q1, h.tokens, h.lamports⟩

theorem cancelByClientId_fits {s s' : State} {k1 k2 : Pubkey} {n : Nat} {q : Int} (h : FState s)
    (hk : cancelByClientId s k1 k2 n = .ok (q, s')) : FState s' := by
  unfold cancelByClientId at hk
  simp only [bind_ok] at hk
  obtain ⟨_, -, hk⟩ := hk
  exact cancelAllFor_fits h hk

theorem editOrder_fits {s s' : State} {c : PlaceCtx} {n : Nat} {e : Int} {o : Order} {limit : Nat} {r : Option OrderResult} (h : FState s)
    (ho : FOrder o) (hk : editOrder s c n e o limit = .ok (r, s')) : FState s' := by
  unfold editOrder at hk
  simp only [bind_ok, req_ok] at hk
  obtain ⟨_, -, _, -, _, -, ⟨q, s1⟩, h1, f, -, hk⟩ := hk
  have h2 := cancelByClientId_fits h h1
  dsimp only at hk
  split at hk
  · simp only [bind_ok, ckI64_ok, pure_ok, Prod.mk.injEq] at hk
    obtain ⟨_, ⟨r1, rfl⟩, ⟨r', s2⟩, h3, -, rfl⟩ := hk
    exact placeOrder_fits h2 (o := { o with maxBaseLots := _ }) ⟨r1, ho.quote, ho.client, ho.tif, ho.params⟩ h3
  · simp only [pure_ok, Prod.mk.injEq] at hk
    obtain ⟨-, rfl⟩ := hk
    exact h2

theorem editOrderIx_fits {s s' : State} {c : PlaceCtx} {n : Nat} {e : Int} {a : PlaceOrderArgs} {r : Option OrderResult} (h : FState s)
    (hk : editOrderIx s c n e a = .ok (r, s')) : FState s' := by
  unfold editOrderIx at hk
  simp only [bind_ok] at hk
  obtain ⟨_, -, o, h2, hk⟩ := hk
  cases o with
  | none => simp only [bind_ok, pure_ok, Prod.mk.injEq] at hk; obtain ⟨_, -, -, rfl⟩ := hk; exact h
  | some o => exact editOrder_fits h (order_fits h2) hk

theorem editOrderPeggedIx_fits {s s' : State} {c : PlaceCtx} {n : Nat} {e : Int} {a : PlaceOrderPeggedArgs} {r : Option OrderResult}
    (h : FState s) (hk : editOrderPeggedIx s c n e a = .ok (r, s')) : FState s' := by
  unfold editOrderPeggedIx at hk
  simp only [bind_ok] at hk
  obtain ⟨_, -, o, h2, hk⟩ := hk
  cases o with
  | none => simp only [bind_ok, pure_ok, Prod.mk.injEq] at hk; obtain ⟨_, -, -, rfl⟩ := hk; exact h
  | some o => exact editOrder_fits h (orderPegged_fits h2) hk

theorem multiOrders_fits {t : PlaceOrderType} {now : Nat} {sd : Side} : ∀ {l : List MultiArgs} {i : Nat} (_ : i + l.length ≤ 2 ^ 64)
    {os : List Order} (_ : multiOrders t now sd i l = .ok os), ∀ o ∈ os, FOrder o := by
  intro l
  induction l with
  | nil => intro i _ os hk; simp only [multiOrders, ok_ok] at hk; subst hk; intro o ho; cases ho
  | cons a l ih =>
    intro i hi os hk
    simp only [List.length_cons] at hi
    simp only [multiOrders, bind_ok, req_ok] at hk
    obtain ⟨_, ⟨t1, t2, t3⟩, _, -, hk⟩ := hk
    split at hk
    · exact ih (by omega) hk
    · rename_i tif ht
      simp only [bind_ok, pure_ok] at hk
      obtain ⟨p, h1, os', h2, rfl⟩ := hk
      intro o ho
      rcases List.mem_cons.mp ho with rfl | ho
      · exact ⟨zero_i64, t2, by show i < _; omega, tif_fits ht, orderParams_fits t1 h1⟩
      · exact ih (by omega) h2 o ho

theorem boundOrder_fits {g : Ledger} (h : FLedger g) {k : Pubkey} {ub uq b q : Int} {o o' : Order} (ho : FOrder o)
    (hk : boundOrder g k ub uq b q o = .ok o') : FOrder o' := by
  have hm := h.market
  unfold boundOrder at hk
  simp only [bind_ok, req_ok] at hk
  obtain ⟨a, -, _, h0, hk⟩ := hk
  have e1 : 0 ≤ g.market.maxBaseLots ∧ g.market.maxBaseLots ≤ i64Max := by
    unfold Market.maxBaseLots
    exact ⟨Int.ediv_nonneg (by decide) (by have := hm.bls; omega), Int.ediv_le_self _ (by decide)⟩
  have e2 : 0 ≤ g.market.maxQuoteLots ∧ g.market.maxQuoteLots ≤ i64Max := by
    unfold Market.maxQuoteLots
    exact ⟨Int.ediv_nonneg (by decide) (by have := hm.qls; omega), Int.ediv_le_self _ (by decide)⟩
  have e3 : i64Min ≤ 0 := by decide
  have hq := ho.quote
  unfold inI64 at hq
  split at hk
  · simp only [bind_ok, ckU64_ok, pure_ok] at hk
    obtain ⟨_, -, av, ⟨⟨r1, -⟩, rfl⟩, rfl⟩ := hk
    refine ⟨?_, ho.quote, ho.client, ho.tif, ho.params⟩
    have e4 := Int.ediv_nonneg r1 (by have := hm.bls; omega : 0 ≤ g.market.baseLotSize)
    unfold inI64 Market.maxBaseLotsFromLamports
    dsimp only
    omega
  · simp only [bind_ok, ckU64_ok, pure_ok] at hk
    obtain ⟨_, -, av, ⟨⟨r1, -⟩, rfl⟩, rfl⟩ := hk
    have e4 := Int.ediv_nonneg r1 (by have := hm.qls; omega : 0 ≤ g.market.quoteLotSize)
    refine ⟨?_, ?_, ho.client, ho.tif, ho.params⟩
    · unfold inI64; dsimp only; omega
    · unfold inI64 Market.maxQuoteLotsFromLamports; dsimp only; omega

theorem multiLoop_fits {c : MultiCtx} {now limit : Nat} {ub uq : Int} (hn : now < 2 ^ 63) (hkey : FitsKey c.ooKey)
    (hor : ∀ p, c.oracle = some p → inI64 p) : ∀ {os : List Order} (_ : ∀ o ∈ os, FOrder o) {bk bk' : Book} {g g' : Ledger} {b q b' q' : Int}
    {rs : List OrderResult} (_ : FBook bk) (_ : FLedger g) (_ : multiLoop c now limit ub uq os bk g b q = .ok (rs, bk', g', b', q')),
    FBook bk' ∧ FLedger g' := by
  intro os
  induction os with
  | nil =>
    intro _ bk bk' g g' b q b' q' rs h1 h2 hk
    simp only [multiLoop, ok_ok, Prod.mk.injEq] at hk
    obtain ⟨-, rfl, rfl, -⟩ := hk
    exact ⟨h1, h2⟩
  | cons o os ih =>
    intro ho bk bk' g g' b q b' q' rs h1 h2 hk
    simp only [multiLoop, bind_ok, pure_ok, Prod.mk.injEq] at hk
    obtain ⟨o', h3, ⟨r, b1, g1⟩, h4, cost, -, ⟨x, y⟩, -, ⟨rs', z⟩, h5, -, rfl⟩ := hk
    have h6 := boundOrder_fits h2 (ho o List.mem_cons_self) h3
    obtain ⟨q1, q2⟩ := newOrder_fits (env := ⟨o', c.oracle, true, c.ooKey, now, limit, c.rem⟩) ⟨h6, hn, hkey, hor⟩ h1 h2 h4
    exact ih (fun y hy => ho y (List.mem_cons_of_mem _ hy)) q1 q2 h5

theorem placeOrdersIx_fits {s s' : State} {c : MultiCtx} {cancel : Bool} {t : PlaceOrderType} {bids asks : List MultiArgs} {limit : Nat}
    {rs : List OrderResult} (h : FState s) (hl : bids.length + asks.length ≤ 2 ^ 64)
    (hk : placeOrdersIx s c cancel t bids asks limit = .ok (rs, s')) : FState s' := by
  unfold placeOrdersIx at hk
  simp only [bind_ok, req_ok] at hk
  obtain ⟨_, -, now, h1, bs, h2, as, h3, hk⟩ := hk
  have ho : ∀ o ∈ bs ++ as, FOrder o := by
    intro o hx
    rcases List.mem_append.mp hx with hx | hx
    · exact multiOrders_fits (by omega) h2 o hx
    · exact multiOrders_fits hl h3 o hx
  unfold cancelAllAndPlace at hk
  simp only [bind_ok, req_ok] at hk
  obtain ⟨_, h4, _, -, _, -, _, -, nowTs, h5, _, h6, s1, h7, ⟨rs', b', g1, b, q⟩, h8, ⟨g2, dB⟩, h9, ⟨g3, dQ⟩, h10, g4, h11, t1, h12, t2, h13, hk⟩ := hk
  simp only [pure_ok, Prod.mk.injEq] at hk
  obtain ⟨-, rfl⟩ := hk
  have hs1 : FState s1 := by
    split at h7
    · simp only [bind_ok, pure_ok] at h7
      obtain ⟨⟨x, s2⟩, h14, rfl⟩ := h7
      exact cancelAllFor_fits h h14
    · simp only [ok_ok] at h7; subst h7; exact h
  unfold authPlace at h4
  simp only [bind_ok, req_ok] at h4
  obtain ⟨_, -, _, -, a, h15, -⟩ := h4
  obtain ⟨q1, q2⟩ := multiLoop_fits (nowU64_fits h5) (h.g.accts.get h15).1 (oracleOk_fits h6) ho hs1.book hs1.g h8
  exact ⟨h.key, ((q2.lockAsk h9).lockBid h10).penalty h11, q1, transfer_fits (transfer_fits h.tokens h12) h13, h.lamports⟩

theorem placeTakeOrderIx_fits {s s' : State} {c : TakeCtx} {a : PlaceOrderArgs} {r : OrderResult} (h : FState s) (hc : FitsKey c.signer)
    (hk : placeTakeOrderIx s c a = .ok (r, s')) : FState s' := by
  unfold placeTakeOrderIx at hk
  simp only [bind_ok] at hk
  obtain ⟨o, h1, hk⟩ := hk
  have ho : FOrder o := by
    unfold takeOrder at h1
    simp only [bind_ok, req_ok, pure_ok] at h1
    obtain ⟨_, ⟨t1, t2, t3, t4, t5, t6⟩, _, -, p, h2, rfl⟩ := h1
    refine ⟨t2, t3, by show 0 < _; decide, by show 0 < _; decide, ?_⟩
    split at h2
    · cases h2; trivial
    · cases h2; exact t1
    · cases h2; exact t1
    · cases h2
  unfold placeTakeOrder at hk
  simp only [bind_ok, req_ok] at hk
  obtain ⟨_, -, _, -, _, -, _, -, _, -, _, -, _, -, _, -, _, -, _, -, nowTs, h5, _, h6, ⟨r', b', g1⟩, h7, ⟨g2, dep, wd⟩, h8, l, h9, t1, h10, t2, h11, hk⟩ := hk
  simp only [pure_ok, Prod.mk.injEq] at hk
  obtain ⟨-, rfl⟩ := hk
  obtain ⟨q1, q2⟩ := newOrder_fits (env := ⟨o, c.oracle, false, c.signer, nowTs, a.limit, c.rem⟩)
    ⟨ho, nowU64_fits h5, hc, oracleOk_fits h6⟩ h.book h.g h7
  have hm := q2.market
  have q3 : FLedger g2 := by
    unfold takeAmounts at h8
    simp only [bind_ok] at h8
    obtain ⟨_, -, h8⟩ := h8
    split at h8
    all_goals
      simp only [bind_ok, ckU64_ok, pure_ok, Prod.mk.injEq] at h8
      obtain ⟨_, ⟨-, rfl⟩, _, ⟨r1, rfl⟩, _, ⟨r2, rfl⟩, rfl, -⟩ := h8
      exact ⟨⟨hm.keys, hm.i64s, hm.bls, hm.qls, hm.seq, hm.rra, hm.fav, r1, r2, hm.facc, hm.ftr, hm.mv, hm.tv⟩, q2.heap, q2.accts⟩
  refine ⟨h.key, q3, q1, transfer_fits (transfer_fits h.tokens h10) h11, ?_⟩
  split at h9
  · exact systemTransfer_fits h.lamports h9
  · simp only [ok_ok] at h9; subst h9; exact h.lamports

theorem FLedger.applyEvent {g g' : Ledger} (h : FLedger g) {e : Event} (hk : applyEvent g e = .ok g') : FLedger g' := by
  cases e with
  | fill f =>
    simp only [OB.applyEvent, bind_ok, pure_ok] at hk
    obtain ⟨a, h1, ⟨a', m'⟩, h2, rfl⟩ := hk
    obtain ⟨q1, q2⟩ := (h.accts.get h1).2.executeMaker h.market h2
    exact ⟨q2, h.heap, h.accts.set _ q1⟩
  | out o =>
    simp only [OB.applyEvent, bind_ok, pure_ok] at hk
    obtain ⟨a, h1, a', h2, rfl⟩ := hk
    exact h.setAcct _ ((h.accts.get h1).2.cancelOrder h2)

theorem FLedger.consumeLoop {rem : List Pubkey} {l : List Nat} : ∀ {g g' : Ledger} (_ : FLedger g) (_ : consumeLoop rem l g = .ok g'),
    FLedger g' := by
  induction l with
  | nil => intro g g' h hk; simp only [OB.consumeLoop, ok_ok] at hk; subst hk; exact h
  | cons x l ih =>
    intro g g' h hk
    simp only [OB.consumeLoop, bind_ok] at hk
    obtain ⟨e, -, hk⟩ := hk
    split at hk
    · simp only [bind_ok] at hk
      obtain ⟨g1, h1, ⟨e', hp⟩, h2, hk⟩ := hk
      have h3 := h.applyEvent h1
      exact ih (g := { g1 with heap := hp }) ⟨h3.market, h3.heap.deleteSlot h2, h3.accts⟩ hk
    · exact ih h hk

theorem consumeEvents_fits {s s' : State} {k : Pubkey} {n : Nat} {l : List Nat} {rem : List Pubkey} (h : FState s)
    (hk : consumeEvents s k n l rem = .ok s') : FState s' := by
  unfold consumeEvents at hk
  simp only [bind_ok, pure_ok] at hk
  obtain ⟨_, -, _, -, _, -, g, h1, rfl⟩ := hk
  exact ⟨h.key, h.g.consumeLoop h1, h.book, h.tokens, h.lamports⟩

theorem deposit_fits {s s' : State} {k1 k2 k3 k4 : Pubkey} {now b q : Int} (h : FState s) (hk : deposit s k1 k2 k3 k4 now b q = .ok s') :
    FState s' := by
  unfold deposit at hk
  simp only [bind_ok, req_ok, ckU64_ok, pure_ok] at hk
  obtain ⟨_, -, _, -, _, -, _, -, _, -, a, h1, _, -, t1, h2, _, ⟨r1, rfl⟩, _, ⟨r2, rfl⟩, t2, h3, _, ⟨r3, rfl⟩, _, ⟨r4, rfl⟩, rfl⟩ := hk
  have ha := (h.g.accts.get h1).2
  have hp := ha.pos
  have hm := h.g.market
  exact ⟨h.key, ⟨⟨hm.keys, hm.i64s, hm.bls, hm.qls, hm.seq, hm.rra, hm.fav, r2, r4, hm.facc, hm.ftr, hm.mv, hm.tv⟩, h.g.heap,
    h.g.accts.set _ (ha.withPos ⟨hp.bb, hp.ab, r1, r3, hp.lf, hp.rr, hp.pc, hp.mv, hp.tv, hp.bq⟩)⟩, h.book,
    transfer_fits (transfer_fits h.tokens h2) h3, h.lamports⟩

theorem settleAccounting_fits {m m' : Market} {a a' : OOA} {b : Bool} {r : Int} (hm : FMarket m) (ha : FAcct a)
    (hk : settleAccounting m a b = .ok (r, m', a')) : FMarket m' ∧ FAcct a' := by
  unfold settleAccounting at hk
  simp only [bind_ok, ckU64_ok] at hk
  obtain ⟨rb, -, m1, h1, _, ⟨r1, rfl⟩, _, ⟨r2, rfl⟩, _, ⟨r3, rfl⟩, hk⟩ := hk
  simp only [pure_ok, Prod.mk.injEq] at hk
  obtain ⟨-, rfl, rfl⟩ := hk
  have hp := ha.pos
  have hm1 : FMarket m1 := by
    split at h1
    · simp only [bind_ok, ckU128_ok, ckU64_ok, pure_ok] at h1
      obtain ⟨_, ⟨s1, rfl⟩, _, ⟨s2, rfl⟩, rfl⟩ := h1
      exact ⟨hm.keys, hm.i64s, hm.bls, hm.qls, hm.seq, hm.rra, hm.fav, hm.bdt, s2, hm.facc, s1, hm.mv, hm.tv⟩
    · simp only [bind_ok, ckU64_ok, pure_ok] at h1
      obtain ⟨_, ⟨s1, rfl⟩, rfl⟩ := h1
      exact ⟨hm.keys, hm.i64s, hm.bls, hm.qls, hm.seq, hm.rra, s1, hm.bdt, hm.qdt, hm.facc, hm.ftr, hm.mv, hm.tv⟩
  refine ⟨⟨hm1.keys, hm1.i64s, hm1.bls, hm1.qls, hm1.seq, r3, hm1.fav, r1, r2, hm1.facc, hm1.ftr, hm1.mv, hm1.tv⟩, ha.withPos ?_⟩
  split
  · exact ⟨hp.bb, hp.ab, hp.bf, hp.qf, zero_u64, hp.rr, hp.pc, hp.mv, hp.tv, hp.bq⟩
  · exact hp

theorem settleCore_fits {s s' : State} {c : SettleCtx} (h : FState s) (hk : settleCore s c = .ok s') : FState s' := by
  unfold settleCore at hk
  simp only [bind_ok] at hk
  obtain ⟨a, h1, _, -, _, -, _, -, ⟨rb, m', a1⟩, h2, l, h3, t1, h4, t2, h5, t3, h6, hk⟩ := hk
  simp only [pure_ok] at hk
  subst hk
  have ha := (h.g.accts.get h1).2
  obtain ⟨q1, q2⟩ := settleAccounting_fits h.g.market ha h2
  have hp := q2.pos
  have ht1 : ∀ k, FTok (t1 k) := by
    cases hr : c.referrer with
    | none => rw [hr] at h4; simp only [ok_ok] at h4; subst h4; exact h.tokens
    | some k => rw [hr] at h4; exact transfer_fits h.tokens h4
  refine ⟨h.key, ⟨q1, h.g.heap, h.g.accts.set _ (q2.withPos
    ⟨hp.bb, hp.ab, zero_u64, zero_u64, hp.lf, zero_u64, zero_u64, hp.mv, hp.tv, hp.bq⟩)⟩, h.book, transfer_fits (transfer_fits ht1 h5) h6, ?_⟩
  split at h3
  · simp only [bind_ok] at h3
    obtain ⟨_, -, h3⟩ := h3
    exact systemTransfer_fits h.lamports h3
  · simp only [ok_ok] at h3; subst h3; exact h.lamports

theorem step_fits {s s' : State} {op : Op} (h : FState s) (ho : Sized op) (hk : step s op = .ok s') : FState s' := by
  cases op with
  | placeOrder c a =>
    simp only [step, bind_ok, pure_ok] at hk
    obtain ⟨⟨r, s1⟩, h1, rfl⟩ := hk
    exact placeOrderIx_fits h h1
  | placeOrderPegged c a =>
    simp only [step, bind_ok, pure_ok] at hk
    obtain ⟨⟨r, s1⟩, h1, rfl⟩ := hk
    exact placeOrderPeggedIx_fits h h1
  | editOrder c n e a =>
    simp only [step, bind_ok, pure_ok] at hk
    obtain ⟨⟨r, s1⟩, h1, rfl⟩ := hk
    exact editOrderIx_fits h h1
  | editOrderPegged c n e a =>
    simp only [step, bind_ok, pure_ok] at hk
    obtain ⟨⟨r, s1⟩, h1, rfl⟩ := hk
    exact editOrderPeggedIx_fits h h1
  | placeOrders c cancel t bids asks limit =>
    simp only [step, bind_ok, pure_ok] at hk
    obtain ⟨⟨r, s1⟩, h1, rfl⟩ := hk
    exact placeOrdersIx_fits h ho h1
  | placeTakeOrder c a =>
    simp only [step, bind_ok, pure_ok] at hk
    obtain ⟨⟨r, s1⟩, h1, rfl⟩ := hk
    exact placeTakeOrderIx_fits h ho h1
  | consumeEvents admin limit rem => exact consumeEvents_fits h hk
  | consumeGivenEvents admin slots rem =>
    simp only [step, consumeGivenEvents, bind_ok] at hk
    obtain ⟨_, -, hk⟩ := hk
    exact consumeEvents_fits h hk
  | cancelOrder signer k id =>
    simp only [step, cancelOrderIx, authCancel, bind_ok, pure_ok, okOr_ok] at hk
    obtain ⟨_, ⟨_, -, _, -, a, h1, _, -, rfl⟩, _, -, oo, -, ⟨l, b, a'⟩, h2, rfl⟩ := hk
    obtain ⟨q1, q2⟩ := cancelOnBook_fits h.book (h.g.accts.get h1).2 h2
    exact ⟨h.key, h.g.setAcct _ q2, q1, h.tokens, h.lamports⟩
  | cancelByClientId signer k n =>
    simp only [step, bind_ok, pure_ok] at hk
    obtain ⟨⟨r, s1⟩, h1, rfl⟩ := hk
    exact cancelByClientId_fits h h1
  | cancelAll signer k sd limit =>
    simp only [step, cancelAll, bind_ok, pure_ok] at hk
    obtain ⟨_, -, ⟨q, s1⟩, h1, rfl⟩ := hk
    exact cancelAllFor_fits h h1
  | deposit k1 k2 k3 k4 now b q => exact deposit_fits h hk
  | refill k1 k2 k3 k4 now b q =>
    simp only [step, refill, bind_ok] at hk
    obtain ⟨_, -, _, -, hk⟩ := hk
    exact deposit_fits h hk
  | settleFunds c =>
    simp only [step, settleFunds, bind_ok] at hk
    obtain ⟨_, -, _, -, _, -, _, -, _, -, _, -, _, -, hk⟩ := hk
    exact settleCore_fits h hk
  | settleFundsExpired admin c now =>
    simp only [step, settleFundsExpired, bind_ok] at hk
    obtain ⟨_, -, _, -, _, -, _, -, _, -, _, -, _, -, _, -, hk⟩ := hk
    exact settleCore_fits h hk
  | sweepFees admin k =>
    simp only [step, sweepFees, bind_ok, ckU64_ok, pure_ok] at hk
    obtain ⟨_, -, _, -, _, -, _, ⟨r1, rfl⟩, t, h1, rfl⟩ := hk
    have hm := h.g.market
    exact ⟨h.key, ⟨⟨hm.keys, hm.i64s, hm.bls, hm.qls, hm.seq, hm.rra, zero_u64, hm.bdt, r1, hm.facc, hm.ftr, hm.mv, hm.tv⟩, h.g.heap, h.g.accts⟩,
      h.book, transfer_fits h.tokens h1, h.lamports⟩
  | pruneOrders admin k now limit =>
    simp only [step, pruneOrders, bind_ok, pure_ok] at hk
    obtain ⟨_, -, _, -, ⟨q, s1⟩, h1, rfl⟩ := hk
    exact cancelAllFor_fits h h1
  | setMarketExpired admin now =>
    simp only [step, setMarketExpired, bind_ok, pure_ok] at hk
    obtain ⟨_, -, _, -, rfl⟩ := hk
    have hm := h.g.market
    refine ⟨h.key, ⟨⟨hm.keys, ?_, hm.bls, hm.qls, hm.seq, hm.rra, hm.fav, hm.bdt, hm.qdt, hm.facc, hm.ftr, hm.mv, hm.tv⟩, h.g.heap, h.g.accts⟩,
      h.book, h.tokens, h.lamports⟩
    intro x hx
    rcases List.mem_cons.mp hx with rfl | hx
    · show inI64 (-1); decide
    · exact hm.i64s x (List.mem_cons_of_mem _ hx)
  | closeMarket admin now =>
    simp only [step, closeMarket, bind_ok, pure_ok] at hk
    obtain ⟨_, -, _, -, _, -, _, -, _, -, _, -, _, -, rfl⟩ := hk
    exact ⟨h.key, h.g, h.book, h.tokens, h.lamports⟩
  | createOO k owner delegate =>
    simp only [step, createOO, bind_ok, pure_ok] at hk
    obtain ⟨_, -, _, -, _, -, rfl⟩ := hk
    refine ⟨h.key, ⟨h.g.market, h.g.heap, ?_⟩, h.book, h.tokens, h.lamports⟩
    intro x hx
    rcases List.mem_append.mp hx with hx | hx
    · exact h.g.accts x hx
    · rw [List.mem_singleton] at hx
      subst hx
      exact ⟨ho.1, FAcct.fresh ho.2.1 ho.2.2⟩
  | closeOO k owner =>
    simp only [step, closeOO, bind_ok, pure_ok] at hk
    obtain ⟨_, -, _, -, _, -, rfl⟩ := hk
    exact ⟨h.key, ⟨h.g.market, h.g.heap, h.g.accts.del k⟩, h.book, h.tokens, h.lamports⟩
  | setDelegate k owner delegate =>
    simp only [step, setDelegate, bind_ok, pure_ok] at hk
    obtain ⟨a, h1, _, -, rfl⟩ := hk
    have ha := (h.g.accts.get h1).2
    exact ⟨h.key, h.g.setAcct _ ⟨ha.owner, ho, ha.pos, ha.slots, ha.len⟩, h.book, h.tokens, h.lamports⟩
  | externalToken k t =>
    simp only [step, externalToken, bind_ok, req_ok, pure_ok] at hk
    obtain ⟨_, h1, _, -, rfl⟩ := hk
    refine ⟨h.key, h.g, h.book, fun i => ?_, h.lamports⟩
    dsimp only
    split
    · exact ⟨ho.1, ho.2, h1⟩
    · exact h.tokens i
  | externalLamports k x =>
    simp only [step, externalLamports, bind_ok, req_ok, pure_ok] at hk
    obtain ⟨_, h1, rfl⟩ := hk
    refine ⟨h.key, h.g, h.book, h.tokens, fun i => ?_⟩
    dsimp only
    split
    · exact ⟨h1.1, h1.2.1⟩
    · exact h.lamports i

theorem createMarket_fits {a : CreateArgs} {now : Int} {t : Tokens} {l : Lamports} {s : State} (ha : SizedArgs a) (ht : ∀ k, FTok (t k))
    (hl : ∀ k, inU64 (l k)) (hk : createMarket a now t l = .ok s) : FState s := by
  unfold createMarket CreateArgs.check at hk
  simp only [bind_ok, req_ok, pure_ok] at hk
  obtain ⟨_, ⟨_, ⟨i1, i2, i3, i4, i5⟩, _, -, _, -, _, -, _, -, _, j1, _, j2, -⟩, rfl⟩ := hk
  simp only [SizedArgs, List.mem_cons, List.not_mem_nil, or_false, forall_eq_or_imp, forall_eq] at ha
  obtain ⟨k1, k2, k3, k4, k5, k6, k7, k8, k9, k10, k11, k12⟩ := ha
  refine ⟨k1, ⟨⟨?_, ?_, j2, j1, by show 0 < _; decide, zero_u64, zero_u64, zero_u64, zero_u64, zero_u128, zero_u128, zero_u128, zero_u128⟩,
    Spec.HeapFits.init, fun x hx => by cases hx⟩, ⟨FSide.empty _, FSide.empty _⟩, fun k => ?_, hl⟩
  · simp only [CreateArgs.market, List.mem_cons, List.not_mem_nil, or_false, forall_eq_or_imp, forall_eq]
    exact ⟨k2, k3, k4, k5, k6, k7, k8, k9, k10, k11, k12⟩
  · simp only [CreateArgs.market, List.mem_cons, List.not_mem_nil, or_false, forall_eq_or_imp, forall_eq]
    exact ⟨i5, i1, i2, i3, i4⟩
  · dsimp only
    split
    · exact ⟨k2, k9, zero_u64⟩
    · split
      · exact ⟨k2, k10, zero_u64⟩
      · exact ht k

theorem fitsU64_in {x : Int} : FitsU64 x ↔ inU64 x := by unfold FitsU64 inU64 u64Max; omega
theorem fitsU128_in {x : Int} : FitsU128 x ↔ inU128 x := by unfold FitsU128 inU128 u128Max; omega
theorem fitsI64_in {x : Int} : FitsI64 x ↔ inI64 x := by unfold FitsI64 inI64 i64Min i64Max; omega

theorem sized_FState {s : State} (h : SizedReachable s) : FState s := by
  induction h with
  | init a now t l s ha ht hl h => exact createMarket_fits ha (fun k => ⟨(ht k).owner, (ht k).mint, fitsU64_in.mp (ht k).amount⟩) (fun k => fitsU64_in.mp (hl k)) h
  | step s s' op hs ho h ih => exact step_fits ih ho h
  | again s s' a now hs ha h ih =>
    unfold recreateMarket at h
    simp only [bind_ok, req_ok, pure_ok] at h
    obtain ⟨_, -, _, -, n, h1, rfl⟩ := h
    have h2 := createMarket_fits ha ih.tokens ih.lamports h1
    exact ⟨h2.key, ⟨h2.g.market, h2.g.heap, ih.g.accts⟩, h2.book, h2.tokens, h2.lamports⟩

theorem sized_reachable {s : State} (h : SizedReachable s) : Reachable s := by
  induction h with
  | init a now t l s ha ht hl h => exact .init a now t l s h
  | step s s' op hs ho h ih => exact .step s s' op ih h
  | again s s' a now hs ha h ih => exact .again s s' a now ih h

end OB
