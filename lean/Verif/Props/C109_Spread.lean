import Verif.Proofs.Spread
/-!
C109  Nobody gains by trading to and fro against the standing orders of others.

`Spread K s now oracle B A`: nobody outside the group `K` sells below `A` or buys above `B`.  `Ran s l s'` is an execution, `ActsAlone` says
that only the group places orders in it; `ToAndFro` is an execution in which one trader sends take orders from two token accounts.
-/
namespace OB
open Spec

section
variable {K : Pubkey → Bool} {s s' : State} {now : Int} {oracle : Option Int} {B A : Int} {l : List Done} {ub uq : Pubkey}

/-- Others whose orders do not cross leave a price at which they neither sell for less nor buy for more. -/
theorem C109_price (hr : Reachable s) (h0 : 0 ≤ now)
    (hx : ∀ (n : Nat) c l p c' l' p', (n : Int) = now → (Side.ask, c, l) ∈ s.book.resting → K l.owner = false → TradableAt n oracle .ask c l p →
      (Side.bid, c', l') ∈ s.book.resting → K l'.owner = false → TradableAt n oracle .bid c' l' p' → p' ≤ p) :
    ∃ P, 0 ≤ P ∧ Spread K s now oracle P P := by
  obtain ⟨n, rfl⟩ := Int.eq_ofNat_of_zero_le h0
  have hE : EngineState s.book s.g := .reachable s hr
  obtain ⟨La, hA⟩ := ladder_exists hE .ask n oracle
  obtain ⟨Lb, hB⟩ := ladder_exists hE .bid n oracle
  have best : ∀ L : List Offer, (∀ o ∈ L, 1 ≤ o.order.quantity ∧ 1 ≤ o.price) → ∃ P, 0 ≤ P ∧ (∀ o ∈ L, o.price ≤ P) ∧ (P = 0 ∨ ∃ o ∈ L, o.price = P) := by
    intro L hL
    induction L with
    | nil => exact ⟨0, Int.le_refl _, fun o ho => by simp at ho, .inl rfl⟩
    | cons x L ih =>
      obtain ⟨P, h1, h2, h3⟩ := ih (fun o ho => hL o (List.mem_cons_of_mem _ ho))
      have hx := (hL x (by simp)).2
      by_cases hle : x.price ≤ P
      · refine ⟨P, h1, fun o ho => ?_, h3.imp_right (fun ⟨o, ho, e⟩ => ⟨o, List.mem_cons_of_mem _ ho, e⟩)⟩
        rcases List.mem_cons.mp ho with rfl | ho
        · exact hle
        · exact h2 o ho
      · refine ⟨x.price, by omega, fun o ho => ?_, .inr ⟨x, by simp, rfl⟩⟩
        rcases List.mem_cons.mp ho with rfl | ho
        · exact Int.le_refl _
        · have := h2 o ho; omega
  obtain ⟨P, h1, h2, h3⟩ := best (Lb.filter (fun o => !K o.order.owner)) (fun o ho => ladder_pos hE hB o (List.mem_filter.mp ho).1)
  have en : ∀ m : Nat, (m : Int) = (n : Int) → m = n := fun m hm => by omega
  refine ⟨P, h1, ⟨fun m c l p hm hl hk ht => ?_, fun m c l p hm hl hk ht => ?_⟩⟩
  · obtain rfl := en m hm
    rcases h3 with e | ⟨o, ho, e⟩
    · have := ladder_pos hE hA ⟨c, l, p⟩ ((hA.mem _).mpr ⟨hl, ht⟩)
      have := this.2
      simp only at this
      omega
    · obtain ⟨ho, hk'⟩ := List.mem_filter.mp ho
      have := (hB.mem o).mp ho
      rw [← e]
      exact hx m c l p o.comp o.order o.price rfl hl hk ht this.1 (by simpa using hk') this.2
  · obtain rfl := en m hm
    exact h2 ⟨c, l, p⟩ (List.mem_filter.mpr ⟨(hB.mem _).mpr ⟨hl, ht⟩, by simp [hk]⟩)

/-- A group that acts alone: what it wins from others are lots bought for at least `A` and sold for at most `B` each.  Its own resting
orders, trades among its accounts, cancellations, deliveries and settlements add nothing. -/
theorem C109_group (hr : Reachable s) (h : Ran s l s') (ha : ∀ d ∈ l, ActsAlone K now oracle d.op) (S : Spread K s now oracle B A) :
    ∃ bought sold : Int, 0 ≤ bought ∧ 0 ≤ sold ∧
      groupBase K s' ≤ groupBase K s + sumDone l (broughtBase K) + (bought - sold) * s.g.market.baseLotSize ∧
      groupQuote K s' ≤ groupQuote K s + sumDone l (broughtQuote K) + (B * sold - A * bought) * s.g.market.quoteLotSize := by
  induction h with
  | nil s => exact ⟨0, 0, Int.le_refl _, Int.le_refl _, by simp [sumDone], by simp [sumDone]⟩
  | cons d l s' hst ht hs ih =>
    obtain ⟨s0, op, s1, ts⟩ := d
    simp only at hst ht hs hr ih S ⊢
    have hop := ha ⟨s0, op, s1, ts⟩ (by simp)
    simp only at hop
    obtain ⟨b, q, h1, h2, h3, h4⟩ := ih (.step _ _ _ hr hst) (fun x hx => ha x (List.mem_cons_of_mem _ hx))
      (spread_step hr hst (fun p hp _ => (hop p hp).2.1) S)
    obtain ⟨b', q', k1, k2, k3, k4⟩ := won_bound hr ht hop S
    obtain ⟨j1, j2, _⟩ := C69_step hr hst ht K
    obtain ⟨_, _, _, _, hc⟩ := C42_forever hr
    obtain ⟨_, _, e1, e2⟩ := hc _ _ hst
    rw [e1] at h3
    rw [e2] at h4
    unfold sumDone at *
    simp only [List.map_cons, List.sum_cons]
    refine ⟨b + b', q + q', by omega, by omega, ?_, ?_⟩
    · have e : (b + b' - (q + q')) * s0.g.market.baseLotSize = (b - q) * s0.g.market.baseLotSize + (b' - q') * s0.g.market.baseLotSize := by ring
      rw [e]; omega
    · have e : (B * (q + q') - A * (b + b')) * s0.g.market.quoteLotSize =
        (B * q - A * b) * s0.g.market.quoteLotSize + (B * q' - A * b') * s0.g.market.quoteLotSize := by ring
      rw [e]; omega

/-- It gains nothing: if it has at least as much base as before, counting what it paid in and took out, then at most as much quote. -/
theorem C109_group_no_gain (hr : Reachable s) (h : Ran s l s') (ha : ∀ d ∈ l, ActsAlone K now oracle d.op) (S : Spread K s now oracle B A)
    (hBA : B ≤ A) (hA : 0 ≤ A) (hb : groupBase K s + sumDone l (broughtBase K) ≤ groupBase K s') :
    groupQuote K s' ≤ groupQuote K s + sumDone l (broughtQuote K) := by
  obtain ⟨b, q, h1, h2, h3, h4⟩ := C109_group hr h ha S
  obtain ⟨_, _, hbl, hql, _⟩ := C42_forever hr
  have hge : q ≤ b := by
    by_contra hc
    have := Int.mul_le_mul_of_nonneg_right (show b - q ≤ -1 by omega) (show 0 ≤ s.g.market.baseLotSize by omega)
    omega
  have k1 := Int.mul_le_mul_of_nonneg_right hBA h2
  have k2 := Int.mul_le_mul_of_nonneg_left hge hA
  have := Int.mul_le_mul_of_nonneg_right (show B * q - A * b ≤ 0 by omega) (show 0 ≤ s.g.market.quoteLotSize by omega)
  omega

/-- The token accounts of a trader who sends take orders: lots bought for at least `A` and sold for at most `B` each. -/
theorem C109_takes (hr : Reachable s) (W : Wallets s ub uq) (h : ToAndFro now oracle ub uq s s')
    (S : Spread (fun _ => false) s now oracle B A) :
    ∃ bought sold : Int, 0 ≤ bought ∧ 0 ≤ sold ∧ tokens s' ub = tokens s ub + (bought - sold) * s.g.market.baseLotSize ∧
      tokens s' uq ≤ tokens s uq + (B * sold - A * bought) * s.g.market.quoteLotSize := by
  have next : ∀ {s s1 : State} {op : Op}, Reachable s → Wallets s ub uq → step s op = .ok s1 → Wallets s1 ub uq ∧
      s1.g.market.baseLotSize = s.g.market.baseLotSize ∧ s1.g.market.quoteLotSize = s.g.market.quoteLotSize := by
    intro s s1 op hr W h
    have hc := (step_cfg (reachable_Inv hr) h).1
    refine ⟨⟨W.two, ?_, ?_⟩, hc.bls, hc.qls⟩
    · rw [hc.baseVault, hc.quoteVault]; exact W.base
    · rw [hc.baseVault, hc.quoteVault]; exact W.quote
  induction h with
  | nil s => exact ⟨0, 0, Int.le_refl _, Int.le_refl _, by simp, by simp⟩
  | take s s1 s' c a h hc hs ih =>
    obtain ⟨W1, e1, e2⟩ := next hr W h
    obtain ⟨rfl, rfl, rfl, rfl⟩ := hc
    obtain ⟨b, q, h1, h2, h3, h4⟩ := ih (.step _ _ _ hr h) W1 (spread_step hr h (fun p hp ho => by
      cases hp; cases ho) S)
    obtain ⟨b', q', k1, k2, k3, k4⟩ := take_bound hr h W S
    rw [e1] at h3
    rw [e2] at h4
    refine ⟨b + b', q + q', by omega, by omega, ?_, ?_⟩
    · have e : (b + b' - (q + q')) * s.g.market.baseLotSize = (b - q) * s.g.market.baseLotSize + (b' - q') * s.g.market.baseLotSize := by ring
      rw [e]; omega
    · have e : (B * (q + q') - A * (b + b')) * s.g.market.quoteLotSize =
        (B * q - A * b) * s.g.market.quoteLotSize + (B * q' - A * b') * s.g.market.quoteLotSize := by ring
      rw [e]; omega
  | other s s1 s' op h hp hk hs ih =>
    obtain ⟨W1, e1, e2⟩ := next hr W h
    obtain ⟨b, q, h1, h2, h3, h4⟩ := ih (.step _ _ _ hr h) W1 (spread_step hr h (fun p hp' ho => by
      rw [hp p hp'] at ho; cases ho) S)
    rw [e1] at h3
    rw [e2] at h4
    exact ⟨b, q, h1, h2, by omega, by omega⟩

/-- It gains nothing: with at least as much base as before it has at most as much quote. -/
theorem C109_takes_no_gain (hr : Reachable s) (W : Wallets s ub uq) (h : ToAndFro now oracle ub uq s s')
    (S : Spread (fun _ => false) s now oracle B A) (hBA : B ≤ A) (hA : 0 ≤ A) (hb : tokens s ub ≤ tokens s' ub) :
    tokens s' uq ≤ tokens s uq := by
  obtain ⟨b, q, h1, h2, h3, h4⟩ := C109_takes hr W h S
  obtain ⟨_, _, hbl, hql, _⟩ := C42_forever hr
  have hge : q ≤ b := by
    by_contra hc
    have := Int.mul_le_mul_of_nonneg_right (show b - q ≤ -1 by omega) (show 0 ≤ s.g.market.baseLotSize by omega)
    omega
  have k1 := Int.mul_le_mul_of_nonneg_right hBA h2
  have k2 := Int.mul_le_mul_of_nonneg_left hge hA
  have := Int.mul_le_mul_of_nonneg_right (show B * q - A * b ≤ 0 by omega) (show 0 ≤ s.g.market.quoteLotSize by omega)
  omega

end

/-! The hypotheses are met. -/
namespace SpreadCase
open Scenario

/-- The spread, checked by running through the book; whether the orders can trade is left out. -/
def spreadB (K : Pubkey → Bool) (s : State) (oracle : Option Int) (B A : Int) : Bool :=
  s.book.resting.all (fun x => K x.2.2.owner || (match priceOf oracle x.2.1 x.2.2 with
    | some p => (match x.1 with | .ask => decide (A ≤ p) | .bid => decide (p ≤ B))
    | none => true))

theorem spreadB_spec {K : Pubkey → Bool} {s : State} {oracle : Option Int} {B A : Int} (h : spreadB K s oracle B A = true) (now : Int) :
    Spread K s now oracle B A := by
  refine ⟨fun n c l p _ hl hk ht => ?_, fun n c l p _ hl hk ht => ?_⟩
  · have := List.all_eq_true.mp h _ hl
    simp only [hk, ht.price, Bool.false_or] at this
    exact of_decide_eq_true this
  · have := List.all_eq_true.mp h _ hl
    simp only [hk, ht.price, Bool.false_or] at this
    exact of_decide_eq_true this

def buy : PlaceOrderArgs := { limitOrder .bid 1030 8 9 with orderType := .immediateOrCancel }
def sell : PlaceOrderArgs := { limitOrder .ask 900 8 9 with orderType := .immediateOrCancel }

end SpreadCase

/-! Trader 33 buys eight lots and sells them again.  Nobody sells below 1007 or buys above 995. -/
open Scenario SpreadCase in
example : ∃ s s' : State, Reachable s ∧ Wallets s 53 63 ∧ ToAndFro 1000 (some 1000) 53 63 s s' ∧
    Spread (fun _ => false) s 1000 (some 1000) 995 1007 ∧ tokens s 53 ≤ tokens s' 53 ∧ tokens s' 63 < tokens s 63 := by
  obtain ⟨s, hs, h⟩ := exec_spec (a := argsRebate) (ops := ops0) (p := fun s => decide (s.g.market.marketBaseVault = 20 ∧
    s.g.market.marketQuoteVault = 21) && spreadB (fun _ => false) s (some 1000) 995 1007 &&
    okAnd (step s (.placeTakeOrder (takeCtx 2) buy)) (fun s1 => okAnd (step s1 (.placeTakeOrder (takeCtx 2) sell)) (fun s' =>
      decide (tokens s 53 ≤ tokens s' 53 ∧ tokens s' 63 < tokens s 63 ∧ tokens s1 53 = tokens s 53 + 800)))) (by decide +kernel)
  rw [Bool.and_eq_true, Bool.and_eq_true, decide_eq_true_eq] at h
  obtain ⟨⟨⟨v1, v2⟩, hsp⟩, h⟩ := h
  obtain ⟨s1, h1, h⟩ := okAnd_spec h
  obtain ⟨s', h2, h⟩ := okAnd_spec h
  obtain ⟨k1, k2, _⟩ := of_decide_eq_true h
  refine ⟨s, s', hs, ⟨by decide, ?_, ?_⟩, .take _ _ _ _ _ h1 ⟨rfl, rfl, rfl, rfl⟩ (.take _ _ _ _ _ h2 ⟨rfl, rfl, rfl, rfl⟩ (.nil _)),
    spreadB_spec hsp _, k1, k2⟩
  · rw [v1, v2]; decide
  · rw [v1, v2]; decide

/-! The same with an account: a bid at 1010 and an ask at 990 of trader 33, who trades four lots each way. -/
open Scenario SpreadCase in
example : ∃ (s s' : State) (l : List Done), Reachable s ∧ Ran s l s' ∧
    (∀ d ∈ l, ActsAlone (fun k => decide (k = 43)) 1000 (some 1000) d.op) ∧ Spread (fun k => decide (k = 43)) s 1000 (some 1000) 995 1007 ∧
    groupBase (fun k => decide (k = 43)) s + sumDone l (broughtBase (fun k => decide (k = 43))) ≤ groupBase (fun k => decide (k = 43)) s' ∧
    groupQuote (fun k => decide (k = 43)) s' < groupQuote (fun k => decide (k = 43)) s + sumDone l (broughtQuote (fun k => decide (k = 43))) := by
  obtain ⟨s, hs, h⟩ := exec_spec (a := args) (ops := ops0) (p := fun s => spreadB (fun k => decide (k = 43)) s (some 1000) 995 1007 &&
    okAnd (step s (place 2 .bid 1010 4 6)) (fun s1 => okAnd (step s1 (place 2 .ask 990 4 7)) (fun s' =>
      decide (groupBase (fun k => decide (k = 43)) s + (broughtBase (fun k => decide (k = 43)) ⟨s, place 2 .bid 1010 4 6, s1, []⟩ +
          (broughtBase (fun k => decide (k = 43)) ⟨s1, place 2 .ask 990 4 7, s', []⟩ + 0)) ≤ groupBase (fun k => decide (k = 43)) s' ∧
        groupQuote (fun k => decide (k = 43)) s' < groupQuote (fun k => decide (k = 43)) s +
          (broughtQuote (fun k => decide (k = 43)) ⟨s, place 2 .bid 1010 4 6, s1, []⟩ +
          (broughtQuote (fun k => decide (k = 43)) ⟨s1, place 2 .ask 990 4 7, s', []⟩ + 0)))))) (by decide +kernel)
  rw [Bool.and_eq_true] at h
  obtain ⟨hsp, h⟩ := h
  obtain ⟨s1, h1, h⟩ := okAnd_spec h
  obtain ⟨s', h2, h⟩ := okAnd_spec h
  obtain ⟨ts1, t1⟩ := C69_trades hs h1
  obtain ⟨ts2, t2⟩ := C69_trades (.step _ _ _ hs h1) h2
  refine ⟨s, s', [⟨s, _, s1, ts1⟩, ⟨s1, _, s', ts2⟩], hs, .cons ⟨s, _, s1, ts1⟩ _ _ h1 t1 (.cons ⟨s1, _, s', ts2⟩ _ _ h2 t2 (.nil _)), ?_,
    spreadB_spec hsp _, of_decide_eq_true h⟩
  intro d hd
  simp only [List.mem_cons, List.not_mem_nil, or_false] at hd
  rcases hd with rfl | rfl <;> intro p hp <;> cases hp <;> exact ⟨rfl, rfl, rfl, rfl⟩

end OB
