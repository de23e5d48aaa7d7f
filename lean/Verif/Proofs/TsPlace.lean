import Verif.Model.TsTrade
import Verif.Props.C75_TsBook
import Verif.Props.C65_Named
import Verif.Proofs.TsTrade
/-! The remaining accounts that the TypeScript library sends with an order. -/
namespace OB
open Spec TsTrade

theorem makersLoop_eq (O : List Pubkey) (acc : List Pubkey) : makersLoop acc O = Client.collect O acc := by
  induction O generalizing acc with
  | nil => rfl
  | cons k O ih =>
    rw [makersLoop, Client.collect]
    obtain ⟨acc', ha⟩ : ∃ acc', (if k ∈ acc then acc else acc ++ [k]) = acc' := ⟨_, rfl⟩
    simp only [ha]
    by_cases h : acc'.length < 3
    · rw [if_pos h, if_neg (by omega)]; exact ih _
    · rw [if_neg h, if_pos (by omega)]

theorem items_noPeg {s : Side} {now : Nat} {oracle : Option Int} (F : HL) : items s now oracle F [] = F.map (fixedItem now) := by
  induction F with
  | nil => rw [items_eq]; cases oracle <;> rfl
  | cons f F ih =>
    rw [items_eq, List.map_cons, ← ih]
    cases oracle <;> rfl

theorem validOwners_fixed {now : Nat} (F : HL) (h : ∀ f ∈ F, f.2.isExpired now = false) :
    Client.validOwners (F.map (fixedItem now)) = F.map (fun f => f.2.owner) := by
  unfold Client.validOwners
  rw [List.filter_eq_self.mpr (fun i hi => ?_), List.map_map]
  · rfl
  · obtain ⟨f, hf, rfl⟩ := List.mem_map.mp hi
    simp [fixedItem, h f hf]

/-- The library and the program see the same accounts on a side without pegged and expired orders. -/
theorem makers_eq {s : State} {x : Ts.BookSide} {o : OrderToPlace} {now : Nat} {oracle : Option Int} (hr : Reachable s)
    (hf : SideFits (s.book.side o.side.invert)) (hx : Loads s.book o.side.invert x)
    (hp : ∀ l, (o.side.invert, Comp.pegged, l) ∉ s.book.resting) (he : ∀ c l, (o.side.invert, c, l) ∈ s.book.resting → ¬ expired now l)
    (ht : o.orderType ≠ some .postOnly ∧ o.orderType ≠ some .postOnlySlide) :
    ∃ ks, makers o (some x) = .ok ks ∧ Client.remainingAccountsToCrank s.book o.side oracle now = .ok ks := by
  have hi := reachable_Inv hr
  obtain ⟨ot, hb⟩ := hi.core.bookOk.ok o.side.invert
  have hxe := Ts.Loads.eq hf hx
  have hpe : (s.book.side o.side.invert).orders .pegged = [] := List.eq_nil_iff_forall_not_mem.mpr (fun l hl => hp l (mem_resting.mpr hl))
  have hs : x.side = o.side.invert := by rw [hxe]
  have hit := Ts.items_spec (x := x) hb (by rw [hxe]) hf hpe
  let env : Env := { order := { side := o.side, maxBaseLots := 0, maxQuoteLotsIncludingFees := 0, clientOrderId := 0, timeInForce := 0,
                                selfTradeBehavior := .decrementTake, params := .market },
                     oracle, hasOO := false, owner := 0, nowTs := now, limit := 0, rem := [] }
  have hcr := Client.crank_core (env := env) hi.core (ot := ot) hb
  have hmem : ∀ {c : Comp} {y : Nat × LeafNode}, y ∈ OT.ord o.side.invert (ot c) → (o.side.invert, c, y.2) ∈ s.book.resting := by
    intro c y hy
    rw [mem_resting, hb.orders]
    have := mem_ord.mp hy
    unfold oppL at this
    rw [OT.lvs_eq]; exact List.mem_map_of_mem this
  have hpn : OT.ord o.side.invert (ot .pegged) = [] := 
    List.eq_nil_iff_forall_not_mem.mpr (fun y hy => hp y.2 (hmem hy))
  have hci : callItems env ot = (OT.ord o.side.invert (ot .fixed)).map (fixedItem now) := by
    unfold callItems
    show items o.side.invert now oracle _ (OT.ord o.side.invert (ot .pegged)) = _
    rw [hpn, items_noPeg]
  refine ⟨_, ?_, hcr⟩
  unfold makers
  simp only [ht.1, ht.2, or_self, if_false]
  rw [hit, hci, validOwners_fixed _ (fun f hf => ?_), hs]
  · show Except.ok (makersLoop [] _) = _
    rw [makersLoop_eq, List.map_map]
    rfl
  · rw [Bool.eq_false_iff, ne_eq, expired_iff]
    exact he .fixed _ (hmem hf)

theorem js_ok {α β : Type} {x : Ts.Js α} {f : α → Ts.Js β} {b : β} : (x >>= f) = .ok b ↔ ∃ a, x = .ok a ∧ f a = .ok b := by
  cases x with
  | error e => simp [bind, Except.bind]
  | ok a => simp [bind, Except.bind]

/-- What `placeOrder` sends. -/
theorem placeOrder_sent {m : Market} {um : Ui.Mkt} {oo wallet : Pubkey} {delegate : Option Pubkey} {ata : Pubkey → Pubkey → Pubkey}
    {o : OrderToPlace} {book : Option Ts.BookSide} {dateNow : Nat} {now : Int} {oracle : Option Int} {ix : Sent.Ix}
    (h : TsTrade.placeOrder m um oo wallet delegate ata o book dateNow now oracle = .ok ix) :
    ∃ rem args, makers o book = .ok rem ∧ placeArgs um o dateNow = some args ∧
      ix = Sent.tsPlaceOrder m wallet oo (ata wallet (match o.side with | .bid => m.quoteMint | .ask => m.baseMint)) args rem delegate now oracle := by
  unfold TsTrade.placeOrder at h
  rw [js_ok] at h
  obtain ⟨rem, h1, h2⟩ := h
  cases ha : placeArgs um o dateNow with
  | none => rw [ha] at h2; cases h2
  | some args =>
    rw [ha] at h2
    cases h2
    exact ⟨rem, args, h1, rfl, rfl⟩

theorem placeArgs_inv {um : Ui.Mkt} {o : OrderToPlace} {d : Nat} {a : PlaceOrderArgs} (h : placeArgs um o d = some a) :
    a.side = o.side ∧ um.priceUiToLots o.price = some a.priceLots ∧ um.baseUiToLots o.size = some a.maxBaseLots ∧
      budget o.quoteLimit = some a.maxQuoteLots := by
  unfold placeArgs at h
  simp only [Option.bind_eq_bind, Option.bind_eq_some_iff] at h
  obtain ⟨p, h1, b, h2, q, h3, h4⟩ := h
  cases h4
  exact ⟨rfl, h1, h2, h3⟩

theorem placeArgs_expiry {um : Ui.Mkt} {o : OrderToPlace} {d : Nat} {a : PlaceOrderArgs} (h : placeArgs um o d = some a) :
    a.expiry = o.expiryTimestamp.getD 0 := by
  unfold placeArgs at h
  simp only [Option.bind_eq_bind, Option.bind_eq_some_iff] at h
  obtain ⟨p, h1, b, h2, q, h3, h4⟩ := h
  cases h4
  rfl

theorem bnOfNumber_le {v : Rat} {n : Int} (hv : 0 ≤ v) (h : bnOfNumber (.fin v) = some n) : 0 ≤ n ∧ (n : Rat) ≤ v := by
  simp only [bnOfNumber] at h
  by_cases hb : absQ v < 2 ^ 53
  · rw [if_pos hb, if_neg (Rat.not_lt.mpr hv)] at h
    injection h with h
    subst h
    exact ⟨Rat.le_floor_iff.mpr (by simpa using hv), Rat.floor_le _⟩
  · rw [if_neg hb] at h
    cases h

theorem bnOfNumber_int {n : Int} (h0 : 0 ≤ n) (h1 : n < 2 ^ 53) : bnOfNumber (.fin n) = some n := by
  have a : ¬ (n : Rat) < 0 := Rat.not_lt.mpr (by exact_mod_cast h0)
  have b : absQ (n : Rat) < 2 ^ 53 := by
    unfold absQ
    rw [if_neg a]
    exact_mod_cast h1
  simp only [bnOfNumber]
  rw [if_pos b, if_neg a, Rat.floor_intCast]

/-- The largest number of lots that the client library can ask for is more than the matching engine takes. -/
theorem unlimited_refused {s s' : State} {c : PlaceCtx} {a : PlaceOrderArgs} (hr : Reachable s) (hq : 2 ≤ s.g.market.quoteLotSize)
    (hf : s.g.market.takerFee < 1000000) (ha : a.maxQuoteLots = i64Max) (h : step s (.placeOrder c a) = .ok s') :
    s' = s ∧ a.expiry ≠ 0 ∧ (a.expiry : Int) ≤ c.now := by
  rcases placeOrder_call hr h with h | ⟨env, r, g1, hp, hE, _⟩
  · exact h
  · exfalso
    obtain ⟨C⟩ := callRun hE
    have h1 := C.R.maxQEq
    have h2 := C.R.maxQ_le
    rw [hp.quote, ha] at h1
    have h3 : s.g.market.maxQuoteLots ≤ 4611686018427387903 := by
      unfold Market.maxQuoteLots i64Max
      have : (9223372036854775807 : Int) / s.g.market.quoteLotSize < 4611686018427387904 := by
        apply Int.ediv_lt_of_lt_mul (by omega)
        omega
      omega
    split at h1
    · obtain ⟨e, _, _⟩ := subtractTakerFees_inv C.core.fees.t0 (by unfold i64Max; omega) h1
      have h4 : (4611686018427387904 : Int) ≤ C.R.maxQ := by
        rw [e, Int.le_ediv_iff_mul_le (by have := C.core.fees.t0; omega)]
        unfold i64Max
        omega
      omega
    · injection h1 with h1
      unfold i64Max at h1
      omega

end OB
