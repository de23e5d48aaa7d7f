import Verif.Proofs.Pieces
import Verif.Props.C88_More
import Verif.Props.C27_SelfTrade
/-!
C93  An order placed in pieces trades what it would trade as a whole.

`InPieces env m book cs`: the orders `cs` are like `env` but for size and budget and are placed one after the other, starting from the offers of
`book`.  `lotsTaken`: the fills lot by lot, with the order taken from and the price.
-/
namespace OB
open Spec

section
variable {env e : Env} {book book' book0 : Book} {g g' : Ledger} {m : Market} {r : OrderResult} {cs : List (Env × OrderResult)}

theorem piece_open (hp : PieceOf env e) (L : List Offer) : openTo e L = openTo env L := by
  unfold openTo
  congr 1
  funext o
  have : (acceptable e.order.side (limitOf e.order e.oracle) o.price ∧ ¬ cancelsOwn e o.order) ↔
      (acceptable env.order.side (limitOf env.order env.oracle) o.price ∧ ¬ cancelsOwn env o.order) := by
    unfold cancelsOwn
    rw [hp.side, hp.limitPrice, hp.self, hp.owner.1, hp.owner.2]
  exact decide_eq_decide.mpr this

/-- What one piece takes and leaves, of the lots `U` that it could take. -/
structure Took (env e : Env) (fee : Int) (r : OrderResult) (U U' : List (Pubkey × Nat × Int)) (k : Nat) : Prop where
  taken : lotsTaken r.fills = U.take k
  left : U' = U.drop k
  size : (k : Int) ≤ e.order.maxBaseLots
  len : k ≤ U.length
  cost : ((U.take k).map (·.2.2)).sum ≤ spendable e.order fee
  stop : r.fills.length < e.limit → (k : Int) = e.order.maxBaseLots ∨ k = U.length ∨
    (env.order.side = .bid ∧ spendable e.order fee < ((U.take (k + 1)).map (·.2.2)).sum)

theorem piece_took (h : EngineCall e book g r book' g') (hp : PieceOf env e) (hns : NoSkipped book env.order.side.invert env.oracle)
    (hroom : env.order.side = .bid ∨ CoversAll g.market.takerFee book e) {L : List Offer}
    (hL : Ladder book env.order.side.invert env.nowTs env.oracle L) :
    ∃ L' k, Ladder book' env.order.side.invert env.nowTs env.oracle L' ∧
      Took env e g.market.takerFee r (unitsOf (openTo env L)) (unitsOf (openTo env L')) k := by
  obtain ⟨C⟩ := callRun h
  obtain ⟨L', hL'⟩ := ladder_exists (.next e book book' g g' r h.state h.valid h.run) env.order.side.invert env.nowTs env.oracle
  have hLe : Ladder book e.order.side.invert e.nowTs e.oracle L := by rw [hp.side, hp.world.1, hp.world.2]; exact hL
  have hLe' : Ladder book' e.order.side.invert e.nowTs e.oracle L' := by rw [hp.side, hp.world.1, hp.world.2]; exact hL'
  have hg := C56_fills_are_greedy h hp.trades (by rw [hp.side, hp.world.2]; exact hns) hLe
  have hrest := C.rest hLe hLe' hg
  have hpos := ladder_pos h.state hL
  have hroom' : e.order.side = .bid ∨ ∀ o ∈ L, e.order.maxBaseLots * o.price ≤ spendable e.order g.market.takerFee := by
    rw [hp.side]
    refine hroom.imp_right (fun hr o ho => ?_)
    have := (hLe.mem o).mp ho
    exact hr _ _ _ this.1 this.2
  have hspend := spendable_nonneg h.valid.order (fee := g.market.takerFee) C.core.fees.t0
  obtain ⟨u1, u2⟩ := greedy_units (env := e) L hLe.sorted hpos e.limit e.order.maxBaseLots (spendable e.order g.market.takerFee)
    h.valid.order.base.1 hroom'
  obtain ⟨k, k1, k2, k3, k4, k5, k6⟩ := greedy_lots (env := e) L hLe.sorted hpos e.limit e.order.maxBaseLots
    (spendable e.order g.market.takerFee) h.valid.order.base.1 hspend hroom'
  rw [k1, Int.toNat_natCast] at u1 u2
  rw [piece_open hp L] at u1 u2
  rw [piece_open hp, piece_open hp] at hrest
  rw [piece_open hp, lots_units] at k3 k4 k6
  rw [List.length_map] at k3 k6
  simp only [← List.map_take] at k4 k6
  rw [k4] at k5
  rw [piece_open hp, ← hrest] at u2
  refine ⟨L', k, hL', ⟨(fillsAre_units hg).trans u1, u2, k2, k3, k5, fun hl => ?_⟩⟩
  rw [hp.side] at k6
  exact k6 (by rw [hg.length_eq]; exact hl)

theorem noSkipped_after (h : EngineCall e book g r book' g') (hp : PieceOf env e) (hns : NoSkipped book env.order.side.invert env.oracle) :
    NoSkipped book' env.order.side.invert env.oracle := by
  intro l p hl hpr
  rw [← hp.side] at hl
  obtain ⟨l0, h1, h2, _⟩ := (C44_opposing_orders h).2 _ l hl
  rw [hp.side] at h1
  rw [h2] at hpr
  exact hns l0 p h1 hpr

theorem covers_after {e1 : Env} {fee : Int} (h : EngineCall e book g r book' g') (hp : PieceOf env e) (hp1 : PieceOf env e1)
    (hc : CoversAll fee book e1) : CoversAll fee book' e1 := by
  intro c l p hl ht
  rw [hp1.side, ← hp.side] at hl
  obtain ⟨l0, h1, h2, _⟩ := (C44_opposing_orders h).2 _ l hl
  rw [hp.side, ← hp1.side] at h1
  rw [h2] at ht
  exact hc c l0 p h1 ⟨ht.price, ht.live, ht.peg, ht.range⟩

theorem same_noSkipped {s : Side} {oracle : Option Int} (hs : SameOffers s book0 book) (h : NoSkipped book0 s oracle) : NoSkipped book s oracle :=
  fun l p hl hp => h l p ((hs _ _).mpr hl) hp

theorem same_covers {fee : Int} (hp : PieceOf env e) (hs : SameOffers env.order.side.invert book0 book) (h : CoversAll fee book0 e) :
    CoversAll fee book e := by
  intro c l p hl ht
  refine h c l p ?_ ht
  rw [hp.side] at *
  exact (hs c l).mpr hl

theorem same_ladder {s : Side} {now : Nat} {oracle : Option Int} {L : List Offer} (hs : SameOffers s book0 book)
    (h : Ladder book0 s now oracle L) : Ladder book s now oracle L :=
  ⟨fun o => (h.mem o).trans (and_congr_left' (hs o.comp o.order)), h.sorted⟩

theorem pieces_all (h : InPieces env m book0 cs) : ∀ x ∈ cs, PieceOf env x.1 := by
  induction h with
  | nil => intro x hx; cases hx
  | cons e r cs book0 book book' g g' same piece call fee lot more ih =>
    intro x hx
    rcases List.mem_cons.mp hx with rfl | hx
    · exact piece
    · exact ih x hx

/-- What all pieces take. -/
theorem pieces_take (h : InPieces env m book0 cs) (hns : NoSkipped book0 env.order.side.invert env.oracle)
    (hroom : env.order.side = .bid ∨ ∀ x ∈ cs, CoversAll m.takerFee book0 x.1) {L : List Offer}
    (hL : Ladder book0 env.order.side.invert env.nowTs env.oracle L) :
    ∃ K : Nat, cs.flatMap (fun x => lotsTaken x.2.fills) = (unitsOf (openTo env L)).take K ∧
      (K : Int) ≤ (cs.map (·.1.order.maxBaseLots)).sum ∧ K ≤ (unitsOf (openTo env L)).length ∧
      (((unitsOf (openTo env L)).take K).map (·.2.2)).sum ≤ (cs.map (fun x => spendable x.1.order m.takerFee)).sum := by
  induction h generalizing L with
  | nil => exact ⟨0, by simp, by simp, by simp, by simp⟩
  | cons e r cs book0 book book' g g' same piece call fee lot more ih =>
    have hns1 := same_noSkipped same hns
    obtain ⟨L', k, hL', T⟩ := piece_took call piece hns1 (hroom.imp_right (fun h => by
      rw [fee]; exact same_covers piece same (h (e, r) (by simp)))) (same_ladder same hL)
    have hpieces := pieces_all more
    obtain ⟨K, e1, e2, e3, e4⟩ := ih (noSkipped_after call piece hns1) (hroom.imp_right (fun h x hx =>
      covers_after call piece (hpieces x hx) (same_covers (hpieces x hx) same (h x (List.mem_cons_of_mem _ hx))))) hL'
    rw [T.left] at e1 e3 e4
    have hsplit : (unitsOf (openTo env L)).take (k + K) = (unitsOf (openTo env L)).take k ++ ((unitsOf (openTo env L)).drop k).take K :=
      List.take_add
    refine ⟨k + K, ?_, ?_, ?_, ?_⟩
    · rw [List.flatMap_cons, e1, hsplit, T.taken]
    · rw [List.map_cons, List.sum_cons]
      have := T.size
      push_cast
      omega
    · have := T.len
      rw [List.length_drop] at e3
      omega
    · rw [hsplit, List.map_append, List.sum_append, List.map_cons, List.sum_cons]
      have := T.cost
      rw [fee] at this
      simp only
      omega

/-- What a piece takes whose budget covers its size and that does not use up the number of orders it may fill. -/
theorem took_all {fee : Int} {U U' : List (Pubkey × Nat × Int)} {k : Nat} (T : Took env e fee r U U' k) (hb : 0 ≤ e.order.maxBaseLots)
    (hs : 0 ≤ spendable e.order fee) (hc : ∀ p ∈ U, Covers fee e p.2.2) (hl : r.fills.length < e.limit) :
    (k : Int) = e.order.maxBaseLots ∨ k = U.length := by
  rcases T.stop hl with h | h | ⟨_, h⟩
  · exact .inl h
  · exact .inr h
  · by_cases hk : (k : Int) = e.order.maxBaseLots
    · exact .inl hk
    by_cases hk2 : k = U.length
    · exact .inr hk2
    exfalso
    have h1 := T.size
    have h2 := T.len
    have key : ∀ V : List (Pubkey × Nat × Int), (∀ p ∈ V, Covers fee e p.2.2) →
        e.order.maxBaseLots * (V.map (·.2.2)).sum ≤ V.length * spendable e.order fee := by
      intro V hV
      induction V with
      | nil => simp
      | cons a V ih =>
        have h3 := ih (fun p hp => hV p (List.mem_cons_of_mem _ hp))
        have h4 := hV a (by simp)
        unfold Covers at h4
        rw [List.map_cons, List.sum_cons, List.length_cons]
        push_cast
        nlinarith
    have h3 := key (U.take (k + 1)) (fun p hp => hc p (List.mem_of_mem_take hp))
    rw [List.length_take, Nat.min_eq_left (by omega)] at h3
    have h4 : ((k + 1 : Nat) : Int) * spendable e.order fee ≤ e.order.maxBaseLots * spendable e.order fee :=
      Int.mul_le_mul_of_nonneg_right (by omega) hs
    have h5 := Int.le_of_mul_le_mul_left (Int.le_trans h3 h4) (by omega)
    omega

theorem units_covered {fee : Int} {L : List Offer} (hL : Ladder book env.order.side.invert env.nowTs env.oracle L) (hp : PieceOf env e)
    (hc : CoversAll fee book e) : ∀ p ∈ unitsOf (openTo env L), Covers fee e p.2.2 := by
  intro p hp'
  unfold unitsOf at hp'
  obtain ⟨o, ho, h⟩ := List.mem_flatMap.mp hp'
  rw [(List.mem_replicate.mp h).2]
  have := (hL.mem o).mp (List.mem_of_mem_filter ho)
  refine hc o.comp o.order o.price ?_ ?_
  · rw [hp.side]; exact this.1
  · rw [hp.side, hp.world.1, hp.world.2]; exact this.2

/-- What all pieces take if nothing but their sizes and the offers limit them. -/
theorem pieces_take_all (h : InPieces env m book0 cs) (hns : NoSkipped book0 env.order.side.invert env.oracle)
    (hc : ∀ x ∈ cs, CoversAll m.takerFee book0 x.1) (hl : ∀ x ∈ cs, x.2.fills.length < x.1.limit) {L : List Offer}
    (hL : Ladder book0 env.order.side.invert env.nowTs env.oracle L) :
    0 ≤ (cs.map (·.1.order.maxBaseLots)).sum ∧
    cs.flatMap (fun x => lotsTaken x.2.fills) = (unitsOf (openTo env L)).take (cs.map (fun x : Env × OrderResult => x.1.order.maxBaseLots)).sum.toNat := by
  induction h generalizing L with
  | nil => exact ⟨by simp, by simp⟩
  | cons e r cs book0 book book' g g' same piece call fee lot more ih =>
    have hns1 := same_noSkipped same hns
    have hc1 := same_covers piece same (hc (e, r) (by simp))
    obtain ⟨L', k, hL', T⟩ := piece_took call piece hns1 (.inr (by rw [fee]; exact hc1)) (same_ladder same hL)
    have hpieces := pieces_all more
    obtain ⟨i1, i2⟩ := ih (noSkipped_after call piece hns1) (fun x hx =>
      covers_after call piece (hpieces x hx) (same_covers (hpieces x hx) same (hc x (List.mem_cons_of_mem _ hx))))
      (fun x hx => hl x (List.mem_cons_of_mem _ hx)) hL'
    obtain ⟨dB, dQ, hcore⟩ := call.state.core
    have hb := call.valid.order.base.1
    rw [fee] at T
    have hk := took_all T hb (spendable_nonneg call.valid.order (by rw [← fee]; exact hcore.fees.t0))
      (units_covered (same_ladder same hL) piece hc1) (hl (e, r) (by simp))
    rw [T.left] at i2
    rw [List.map_cons, List.sum_cons, List.flatMap_cons, i2]
    simp only
    refine ⟨by omega, ?_⟩
    rw [T.taken, ← List.take_add]
    rcases hk with hk | hk
    · congr 1
      omega
    · have hsz := T.size
      rw [List.take_of_length_le (by omega), List.take_of_length_le (by omega)]

theorem spend_sum (fee : Int) (hf : 0 ≤ fee) (hp : ∀ x ∈ cs, PieceOf env x.1) (hside : env.order.side = .bid)
    (hq : (cs.map (·.1.order.maxQuoteLotsIncludingFees)).sum ≤ env.order.maxQuoteLotsIncludingFees) :
    (cs.map (fun x => spendable x.1.order fee)).sum ≤ spendable env.order fee := by
  have e1 : ∀ o : Order, o.side = .bid → spendable o fee = o.maxQuoteLotsIncludingFees * 1000000 / (1000000 + fee) := by
    intro o ho; unfold spendable; rw [ho]
  rw [e1 _ hside]
  refine Int.le_trans ?_ (Int.ediv_le_ediv (by omega) (Int.mul_le_mul_of_nonneg_right hq (by omega)))
  rw [Int.le_ediv_iff_mul_le (by omega)]
  clear hq
  induction cs with
  | nil => simp
  | cons x cs ih =>
    have h1 := ih (fun y hy => hp y (List.mem_cons_of_mem _ hy))
    rw [List.map_cons, List.sum_cons, List.map_cons, List.sum_cons, e1 _ ((hp x (by simp)).side.trans hside), Int.add_mul, Int.add_mul]
    have h2 := Int.ediv_mul_le (x.1.order.maxQuoteLotsIncludingFees * 1000000) (show 1000000 + fee ≠ 0 by omega)
    omega

/-- In pieces an order takes no more than as a whole, and what it takes it takes at the same prices, from the same orders and in the same
order: lot by lot.  This holds for a bid in every case, for an ask if the quote limits cover the sizes at every price offered; the whole
order must not use up the number of orders it may fill. -/
theorem C93_gains_nothing (h : EngineCall env book g r book' g') (hpo : ¬ PostsOnly env.order) (hcs : InPieces env g.market book cs)
    (hns : NoSkipped book env.order.side.invert env.oracle) (hlim : r.fills.length < env.limit)
    (hb : (cs.map (·.1.order.maxBaseLots)).sum ≤ env.order.maxBaseLots)
    (hq : (cs.map (·.1.order.maxQuoteLotsIncludingFees)).sum ≤ env.order.maxQuoteLotsIncludingFees)
    (hroom : env.order.side = .bid ∨ (CoversAll g.market.takerFee book env ∧ ∀ x ∈ cs, CoversAll g.market.takerFee book x.1)) :
    cs.flatMap (fun x => lotsTaken x.2.fills) <+: lotsTaken r.fills := by
  obtain ⟨L, hL⟩ := ladder_exists h.state env.order.side.invert env.nowTs env.oracle
  obtain ⟨_, k, _, T⟩ := piece_took h ⟨rfl, rfl, rfl, ⟨rfl, rfl⟩, ⟨rfl, rfl⟩, hpo⟩ hns (hroom.imp_right (·.1)) hL
  obtain ⟨K, e1, e2, e3, e4⟩ := pieces_take hcs hns (hroom.imp_right (·.2)) hL
  obtain ⟨dB, dQ, hcore⟩ := h.state.core
  rw [e1, T.taken]
  refine List.take_prefix_take_left ?_
  by_contra hlt
  rcases T.stop hlim with hk | hk | ⟨hbid, hk⟩
  · omega
  · omega
  · have h1 := spend_sum g.market.takerFee hcore.fees.t0 (pieces_all hcs) hbid hq
    have hpos := ladder_pos h.state hL
    have hmono := take_sum_mono (U := (unitsOf (openTo env L)).map (·.2.2)) (by
      intro p hp
      rw [← lots_units] at hp
      obtain ⟨o, ho, rfl⟩ := mem_lots hp
      have := hpos o (List.mem_of_mem_filter ho)
      omega) (show k + 1 ≤ K by omega)
    rw [← List.map_take, ← List.map_take] at hmono
    omega

/-- And no less, if the budgets cover the sizes and no piece uses up the number of orders it may fill: together exactly the same lots. -/
theorem C93_loses_nothing (h : EngineCall env book g r book' g') (hpo : ¬ PostsOnly env.order) (hcs : InPieces env g.market book cs)
    (hns : NoSkipped book env.order.side.invert env.oracle) (hlim : r.fills.length < env.limit)
    (hlims : ∀ x ∈ cs, x.2.fills.length < x.1.limit) (hb : (cs.map (·.1.order.maxBaseLots)).sum = env.order.maxBaseLots)
    (hroom : CoversAll g.market.takerFee book env) (hrooms : ∀ x ∈ cs, CoversAll g.market.takerFee book x.1) :
    cs.flatMap (fun x => lotsTaken x.2.fills) = lotsTaken r.fills := by
  obtain ⟨L, hL⟩ := ladder_exists h.state env.order.side.invert env.nowTs env.oracle
  have hself : PieceOf env env := ⟨rfl, rfl, rfl, ⟨rfl, rfl⟩, ⟨rfl, rfl⟩, hpo⟩
  obtain ⟨_, e2⟩ := pieces_take_all hcs hns hrooms hlims hL
  obtain ⟨_, e1⟩ := pieces_take_all (m := g.market) (cs := [(env, r)])
    (.cons env r [] book book book' g g' (fun _ _ => .rfl) hself h rfl rfl (.nil _)) hns (by simpa using hroom) (by simpa using hlim) hL
  simp only [List.map_cons, List.map_nil, List.sum_cons, List.sum_nil, Int.add_zero, List.flatMap_cons, List.flatMap_nil,
    List.append_nil] at e1
  rw [e1, e2, hb]

theorem lots_weight (w : Pubkey × Nat × Int → Int) {fs : List FillEvent} (h : ∀ f ∈ fs, 0 ≤ f.quantity) :
    (fs.map (fun f => f.quantity * w (f.maker, f.makerSlot, f.price))).sum = ((lotsTaken fs).map w).sum := by
  induction fs with
  | nil => rfl
  | cons f fs ih =>
    have h1 := h f (by simp)
    unfold lotsTaken at *
    rw [List.map_cons, List.sum_cons, ih (fun x hx => h x (List.mem_cons_of_mem _ hx)), List.flatMap_cons, List.map_append, List.sum_append,
      List.map_replicate, sum_replicate_int, Int.toNat_of_nonneg h1]

theorem weight_qty (h : EngineCall e book g r book' g') : sumQty r.fills = ((lotsTaken r.fills).map (fun _ => 1)).sum := by
  obtain ⟨C⟩ := callRun h
  rw [← lots_weight (fun _ => 1) (fun f hf => by obtain ⟨_, _, _, hi⟩ := C.fill_visit hf; have := hi.quantity; omega)]
  simp only [Int.mul_one]
  rfl

theorem weight_quote (h : EngineCall e book g r book' g') : sumQuote r.fills = ((lotsTaken r.fills).map (·.2.2)).sum := by
  obtain ⟨C⟩ := callRun h
  rw [← lots_weight (·.2.2) (fun f hf => by obtain ⟨_, _, _, hi⟩ := C.fill_visit hf; have := hi.quantity; omega)]
  rfl

theorem weight_others (h : EngineCall e book g r book' g') :
    othersQuote r.fills = ((lotsTaken r.fills).map (fun u => if u.1 = e.owner then 0 else u.2.2)).sum := by
  obtain ⟨C⟩ := callRun h
  rw [← lots_weight (fun u => if u.1 = e.owner then 0 else u.2.2) (fun f hf => by
    obtain ⟨_, _, _, hi⟩ := C.fill_visit hf; have := hi.quantity; omega)]
  unfold othersQuote
  congr 1
  refine List.map_congr_left (fun f hf => ?_)
  obtain ⟨_, _, _, hi⟩ := C.fill_visit hf
  simp only
  rw [hi.taker.2.1]
  split <;> simp

theorem pieces_weight (w : Pubkey × Nat × Int → Int) (v : OrderResult → Int)
    (hv : ∀ {e : Env} {book book' : Book} {g g' : Ledger} {r : OrderResult}, PieceOf env e → EngineCall e book g r book' g' →
      v r = ((lotsTaken r.fills).map w).sum) (h : InPieces env m book0 cs) :
    (cs.map (fun x => v x.2)).sum = ((cs.flatMap (fun x => lotsTaken x.2.fills)).map w).sum := by
  induction h with
  | nil => rfl
  | cons e r cs book0 book book' g g' same piece call fee lot more ih =>
    rw [List.map_cons, List.sum_cons, ih, List.flatMap_cons, List.map_append, List.sum_append]
    simp only
    rw [hv piece call]

theorem pieces_fees (h : InPieces env m book0 cs) :
    ∀ x ∈ cs, IsCeilFee (othersQuote x.2.fills * m.quoteLotSize) m.takerFee x.2.takerFees := by
  induction h with
  | nil => intro x hx; cases hx
  | cons e r cs book0 book book' g g' same piece call fee lot more ih =>
    intro x hx
    rcases List.mem_cons.mp hx with rfl | hx
    · have := (C27_no_fee_on_self_trades_partial call).1
      rwa [fee, lot] at this
    · exact ih x hx

/-- Rounded up in pieces, a fee is no less than rounded up once, and less than one unit more for each piece. -/
theorem ceil_sum {rate A f : Int} {xs : List (Int × Int)} (hx : ∀ x ∈ xs, IsCeilFee x.1 rate x.2) (h : IsCeilFee A rate f)
    (hA : (xs.map (·.1)).sum = A) : f ≤ (xs.map (·.2)).sum ∧ (xs ≠ [] → (xs.map (·.2)).sum < f + xs.length) := by
  have lo : A * rate ≤ (xs.map (·.2)).sum * 1000000 := by
    rw [← hA]
    clear h hA
    induction xs with
    | nil => simp
    | cons x xs ih =>
      have h1 := ih (fun y hy => hx y (List.mem_cons_of_mem _ hy))
      have h2 := (hx x (by simp)).1
      rw [List.map_cons, List.sum_cons, List.map_cons, List.sum_cons, Int.add_mul, Int.add_mul]
      omega
  have hi : (xs.map (·.2)).sum * 1000000 ≤ A * rate + 999999 * xs.length := by
    rw [← hA]
    clear h hA lo
    induction xs with
    | nil => simp
    | cons x xs ih =>
      have h1 := ih (fun y hy => hx y (List.mem_cons_of_mem _ hy))
      have h2 : x.2 * 1000000 ≤ x.1 * rate + 999999 := by
        by_contra hc
        have := (hx x (by simp)).2 (x.2 - 1) (by omega)
        omega
      rw [List.map_cons, List.sum_cons, List.map_cons, List.sum_cons, Int.add_mul, Int.add_mul, List.length_cons]
      push_cast
      omega
  refine ⟨h.2 _ lo, fun hne => ?_⟩
  have hlen : 1 ≤ xs.length := List.length_pos_iff.mpr hne
  have := h.1
  omega

/-- So the pieces together trade the same base and quote, and pay the same taker fee but for rounding: not less, and less than one unit more
for each piece. -/
theorem C93_same_cost (h : EngineCall env book g r book' g') (hpo : ¬ PostsOnly env.order) (hcs : InPieces env g.market book cs)
    (hns : NoSkipped book env.order.side.invert env.oracle) (hlim : r.fills.length < env.limit)
    (hlims : ∀ x ∈ cs, x.2.fills.length < x.1.limit) (hb : (cs.map (·.1.order.maxBaseLots)).sum = env.order.maxBaseLots)
    (hroom : CoversAll g.market.takerFee book env) (hrooms : ∀ x ∈ cs, CoversAll g.market.takerFee book x.1) :
    (cs.map (fun x => sumQty x.2.fills)).sum = sumQty r.fills ∧ (cs.map (fun x => sumQuote x.2.fills)).sum = sumQuote r.fills ∧
      r.takerFees ≤ (cs.map (fun x => x.2.takerFees)).sum ∧
      (cs ≠ [] → (cs.map (fun x => x.2.takerFees)).sum < r.takerFees + cs.length) := by
  have key := C93_loses_nothing h hpo hcs hns hlim hlims hb hroom hrooms
  refine ⟨?_, ?_, ?_⟩
  · rw [pieces_weight _ _ (fun _ hc => weight_qty hc) hcs, key, weight_qty h]
  · rw [pieces_weight _ _ (fun _ hc => weight_quote hc) hcs, key, weight_quote h]
  · have ho : (cs.map (fun x => othersQuote x.2.fills)).sum = othersQuote r.fills := by
      rw [pieces_weight (fun u => if u.1 = env.owner then 0 else u.2.2) (fun r => othersQuote r.fills) (fun hp hc => by
        rw [weight_others hc, hp.owner.1]) hcs, key, weight_others h]
    have hmul : ∀ (q : Int) (l : List (Env × OrderResult)),
        ((l.map (fun x => (othersQuote x.2.fills * q, x.2.takerFees))).map (·.1)).sum = (l.map (fun x => othersQuote x.2.fills)).sum * q := by
      intro q l
      induction l with
      | nil => simp
      | cons x l ih => simp only [List.map_cons, List.sum_cons] at *; rw [ih, Int.add_mul]
    have := ceil_sum (xs := cs.map (fun x => (othersQuote x.2.fills * g.market.quoteLotSize, x.2.takerFees))) (by
      intro y hy
      obtain ⟨x, hx, rfl⟩ := List.mem_map.mp hy
      exact pieces_fees hcs x hx) (C27_no_fee_on_self_trades_partial h).1 (by rw [hmul, ho])
    rw [List.map_map, List.length_map] at this
    exact ⟨this.1, fun hne => this.2 (by simpa using hne)⟩

end

/-! Concrete cases: trader 33 buys at up to 1030. -/
namespace PiecesCase
open Scenario MoreCase

def coversB (fee : Int) (book : Book) (e : Env) : Bool :=
  book.resting.all (fun x => !decide (x.1 = e.order.side.invert) ||
    match priceOf e.oracle x.2.1 x.2.2 with
    | none => true
    | some p => decide (e.order.maxBaseLots * p ≤ spendable e.order fee))

theorem coversB_spec {fee : Int} {book : Book} {e : Env} (h : coversB fee book e = true) : CoversAll fee book e := by
  intro c l p hl ht
  have := List.all_eq_true.mp h _ hl
  simp only [ht.price, decide_true, Bool.not_true, Bool.false_or, decide_eq_true_eq] at this
  exact this

/-- `env` is matched; and, in the same state, `e1` and then `e2`. -/
def twoPieces (env e1 e2 : Env) (p : State → OrderResult → OrderResult → OrderResult → Bool) : Bool :=
  callOk env && callOk e1 && callOk e2 && okAnd (exec args ops0) (fun s => okAnd (newOrder env s.book s.g) (fun x =>
    okAnd (newOrder e1 s.book s.g) (fun y => okAnd (newOrder e2 y.2.1 y.2.2) (fun z => noSkippedB s.book env.order.side.invert env.oracle &&
      decide (y.2.2.market.takerFee = s.g.market.takerFee) && decide (y.2.2.market.quoteLotSize = s.g.market.quoteLotSize) &&
      p s x.1 y.1 z.1))))

theorem twoPieces_spec {env e1 e2 : Env} {p : State → OrderResult → OrderResult → OrderResult → Bool} (h : twoPieces env e1 e2 p = true)
    (h1 : PieceOf env e1) (h2 : PieceOf env e2) : ∃ (s : State) (r r1 r2 : OrderResult) (book' : Book) (g' : Ledger),
      EngineCall env s.book s.g r book' g' ∧ InPieces env s.g.market s.book [(e1, r1), (e2, r2)] ∧
      NoSkipped s.book env.order.side.invert env.oracle ∧ p s r r1 r2 = true := by
  unfold twoPieces at h
  rw [Bool.and_eq_true, Bool.and_eq_true, Bool.and_eq_true] at h
  obtain ⟨⟨⟨c0, c1⟩, c2⟩, h⟩ := h
  obtain ⟨s, hs, h⟩ := exec_spec h
  obtain ⟨⟨r, b, g⟩, k0, h⟩ := okAnd_spec h
  obtain ⟨⟨r1, b1, g1⟩, k1, h⟩ := okAnd_spec h
  obtain ⟨⟨r2, b2, g2⟩, k2, h⟩ := okAnd_spec h
  simp only [Bool.and_eq_true, decide_eq_true_eq] at h k2
  have hc1 := callOk_spec c1 hs k1
  unfold callOk at c2
  rw [Bool.and_eq_true, Bool.and_eq_true, Bool.and_eq_true, decide_eq_true_eq, decide_eq_true_eq] at c2
  obtain ⟨⟨⟨ho, ht⟩, hn⟩, hor⟩ := c2
  have hc2 : EngineCall e2 b1 g1 r2 b2 g2 := ⟨.next _ _ _ _ _ _ hc1.state hc1.valid hc1.run,
    ⟨orderOkB_spec ho, hn, (by intro p hp; rw [hp] at hor; exact hor), (by rw [ht]; intro hx; cases hx)⟩, k2⟩
  exact ⟨s, r, r1, r2, b, g, callOk_spec c0 hs k0, .cons _ _ _ _ _ _ _ _ (fun _ _ => .rfl) h1 hc1 rfl rfl
    (.cons _ _ _ _ _ _ _ _ (fun _ _ => .rfl) h2 hc2 h.1.1.2 h.1.2 (.nil _)), noSkippedB_spec h.1.1.1, h.2⟩

def buy (lots quote : Int) : Env := taker 2 .bid (.fixed 1030 .limit) lots quote

theorem buy_piece (a b c d : Int) : PieceOf (buy a b) (buy c d) :=
  ⟨rfl, rfl, rfl, ⟨rfl, rfl⟩, ⟨rfl, rfl⟩, by unfold PostsOnly buy taker postType; simp⟩

end PiecesCase

/-! Four lots as one and three: the hypotheses of `C93_loses_nothing` and `C93_same_cost`. -/
open PiecesCase in
example : ∃ (s : State) (r r1 r2 : OrderResult) (book' : Book) (g' : Ledger), EngineCall (buy 4 20000) s.book s.g r book' g' ∧
    InPieces (buy 4 20000) s.g.market s.book [(buy 1 20000, r1), (buy 3 20000, r2)] ∧ NoSkipped s.book .ask (some 1000) ∧
    r.fills.length < 10 ∧ r1.fills.length < 10 ∧ r2.fills.length < 10 ∧ CoversAll s.g.market.takerFee s.book (buy 4 20000) ∧
    CoversAll s.g.market.takerFee s.book (buy 1 20000) ∧ CoversAll s.g.market.takerFee s.book (buy 3 20000) ∧
    r.fills.map (fun f => (f.price, f.quantity)) = [(1007, 2), (1010, 2)] ∧ r1.fills.map (fun f => (f.price, f.quantity)) = [(1007, 1)] ∧
    r2.fills.map (fun f => (f.price, f.quantity)) = [(1007, 1), (1010, 2)] := by
  obtain ⟨s, r, r1, r2, b, g, h1, h2, h3, h4⟩ := twoPieces_spec (env := buy 4 20000) (e1 := buy 1 20000) (e2 := buy 3 20000)
    (p := fun s r r1 r2 => decide (r.fills.length < 10 ∧ r1.fills.length < 10 ∧ r2.fills.length < 10) &&
      (coversB s.g.market.takerFee s.book (buy 4 20000) && coversB s.g.market.takerFee s.book (buy 1 20000) &&
        coversB s.g.market.takerFee s.book (buy 3 20000)) &&
      decide (r.fills.map (fun f => (f.price, f.quantity)) = [(1007, 2), (1010, 2)] ∧ r1.fills.map (fun f => (f.price, f.quantity)) = [(1007, 1)] ∧
        r2.fills.map (fun f => (f.price, f.quantity)) = [(1007, 1), (1010, 2)]))
    (by decide +kernel) (buy_piece _ _ _ _) (buy_piece _ _ _ _)
  simp only [Bool.and_eq_true, decide_eq_true_eq] at h4
  exact ⟨s, r, r1, r2, b, g, h1, h2, h3, h4.1.1.1, h4.1.1.2.1, h4.1.1.2.2, coversB_spec h4.1.2.1.1, coversB_spec h4.1.2.1.2,
    coversB_spec h4.1.2.2, h4.2.1, h4.2.2.1, h4.2.2.2⟩

/-! With a budget of 3050 in two pieces: twice 1525 buys one lot each, 3050 three; the hypotheses of `C93_gains_nothing`. -/
open PiecesCase in
example : ∃ (s : State) (r r1 r2 : OrderResult) (book' : Book) (g' : Ledger), EngineCall (buy 8 3050) s.book s.g r book' g' ∧
    InPieces (buy 8 3050) s.g.market s.book [(buy 4 1525, r1), (buy 4 1525, r2)] ∧ NoSkipped s.book .ask (some 1000) ∧
    r.fills.length < 10 ∧ (lotsTaken r.fills).map (·.2.2) = [1007, 1007, 1010] ∧ (lotsTaken r1.fills).map (·.2.2) = [1007] ∧
    (lotsTaken r2.fills).map (·.2.2) = [1007] := by
  obtain ⟨s, r, r1, r2, b, g, h1, h2, h3, h4⟩ := twoPieces_spec (env := buy 8 3050) (e1 := buy 4 1525) (e2 := buy 4 1525)
    (p := fun s r r1 r2 => decide (r.fills.length < 10 ∧ (lotsTaken r.fills).map (·.2.2) = [1007, 1007, 1010] ∧
      (lotsTaken r1.fills).map (·.2.2) = [1007] ∧ (lotsTaken r2.fills).map (·.2.2) = [1007]))
    (by decide +kernel) (buy_piece _ _ _ _) (buy_piece _ _ _ _)
  have h4 := of_decide_eq_true h4
  exact ⟨s, r, r1, r2, b, g, h1, h2, h3, h4.1, h4.2.1, h4.2.2.1, h4.2.2.2⟩

/-! The whole order must not use up the number of orders it may fill: with one order each, four lots as a whole stop after the first offer,
two pieces of two lots take two offers. -/
open PiecesCase in
example : ∃ (s : State) (r r1 r2 : OrderResult) (book' : Book) (g' : Ledger),
    EngineCall { buy 4 20000 with limit := 1 } s.book s.g r book' g' ∧
    InPieces { buy 4 20000 with limit := 1 } s.g.market s.book [({ buy 2 10000 with limit := 1 }, r1), ({ buy 2 10000 with limit := 1 }, r2)] ∧
    sumQty r.fills = 2 ∧ sumQty r1.fills + sumQty r2.fills = 4 := by
  have hp : PieceOf { buy 4 20000 with limit := 1 } { buy 2 10000 with limit := 1 } :=
    ⟨rfl, rfl, rfl, ⟨rfl, rfl⟩, ⟨rfl, rfl⟩, (buy_piece 4 20000 2 10000).trades⟩
  obtain ⟨s, r, r1, r2, b, g, h1, h2, _, h4⟩ := twoPieces_spec (env := { buy 4 20000 with limit := 1 }) (e1 := { buy 2 10000 with limit := 1 })
    (e2 := { buy 2 10000 with limit := 1 }) (p := fun _ r r1 r2 => decide (sumQty r.fills = 2 ∧ sumQty r1.fills + sumQty r2.fills = 4))
    (by decide +kernel) hp hp
  exact ⟨s, r, r1, r2, b, g, h1, h2, of_decide_eq_true h4⟩

end OB
