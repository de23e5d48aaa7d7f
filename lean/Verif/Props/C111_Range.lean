import Verif.Proofs.Range
import Verif.Props.C109_Spread
/-!
C111  Accounts that only buy low and sell high do so, whatever others do.

A group of accounts `K` sends only orders that keep to a range: bids with limits of at most `B`, asks with limits of at least `A` (`KeepsTo`).  `Ran s l s'`
is an execution: anybody may do anything in it, time and oracle price change freely.
-/
namespace OB
open Spec

section
variable {K : Pubkey → Bool} {s s' : State} {B A : Int} {l : List Done}

/-- Every trade with others, as taker or as maker, has a price within the range. -/
theorem C111_prices (hr : Reachable s) (h : Ran s l s') (hk : ∀ d ∈ l, byGroup K d.op = true → ∀ q ∈ asked d.op, KeepsTo B A q)
    (O : OwnRange K B A s.book) :
    OwnRange K B A s'.book ∧ ∀ d ∈ l, ∀ f ∈ d.trades, crosses K (byGroup K d.op) f = true →
      inRange B A (if byGroup K d.op then f.takerSide else f.takerSide.invert) f.price := by
  induction h with
  | nil s => exact ⟨O, fun d hd => by simp at hd⟩
  | cons d l s' hst ht hs ih =>
    obtain ⟨O1, hf, _⟩ := range_step hr hst ht (hk d (by simp)) O
    obtain ⟨O2, hl⟩ := ih (.step _ _ _ hr hst) (fun x hx => hk x (List.mem_cons_of_mem _ hx)) O1
    refine ⟨O2, fun x hx => ?_⟩
    rcases List.mem_cons.mp hx with rfl | hx
    · exact hf
    · exact hl x hx

/-- What the group has on the books: lots bought for at most `B` and sold for at least `A` each; besides this it only changes by what the group pays in
and takes out, and by rebates that it pays to makers as a taker. -/
theorem C111_run (hr : Reachable s) (h : Ran s l s') (hk : ∀ d ∈ l, byGroup K d.op = true → ∀ q ∈ asked d.op, KeepsTo B A q)
    (hv : ∀ d ∈ l, ¬ intoVault d.before d.op) (O : OwnRange K B A s.book) :
    ∃ bought sold : Int, 0 ≤ bought ∧ 0 ≤ sold ∧
      groupBase K s' = groupBase K s + sumDone l (broughtBase K) + (bought - sold) * s.g.market.baseLotSize ∧
      groupQuote K s + sumDone l (broughtQuote K) + (A * sold - B * bought) * s.g.market.quoteLotSize - sumDone l (rebatesPaid K) ≤
        groupQuote K s' := by
  induction h with
  | nil s => exact ⟨0, 0, Int.le_refl _, Int.le_refl _, by simp [sumDone], by simp [sumDone]⟩
  | cons d l s' hst ht hs ih =>
    obtain ⟨s0, op, s1, ts⟩ := d
    simp only at hst ht hs hr ih O ⊢
    obtain ⟨O1, _, b', q', k1, k2, k3, k4⟩ := range_step hr hst ht (hk ⟨s0, op, s1, ts⟩ (by simp)) O
    obtain ⟨b, q, h1, h2, h3, h4⟩ := ih (.step _ _ _ hr hst) (fun x hx => hk x (List.mem_cons_of_mem _ hx))
      (fun x hx => hv x (List.mem_cons_of_mem _ hx)) O1
    obtain ⟨_, _, j⟩ := C69_step hr hst ht K
    obtain ⟨j1, j2⟩ := j (hv ⟨s0, op, s1, ts⟩ (by simp))
    obtain ⟨_, _, _, _, hc⟩ := C42_forever hr
    obtain ⟨_, _, e1, e2⟩ := hc _ _ hst
    rw [e1] at h3
    rw [e2] at h4
    unfold sumDone at *
    simp only [List.map_cons, List.sum_cons]
    refine ⟨b + b', q + q', by omega, by omega, ?_, ?_⟩
    · have e : (b + b' - (q + q')) * s0.g.market.baseLotSize = (b - q) * s0.g.market.baseLotSize + (b' - q') * s0.g.market.baseLotSize := by ring
      rw [e]; omega
    · have e : (A * (q + q') - B * (b + b')) * s0.g.market.quoteLotSize =
        (A * q - B * b) * s0.g.market.quoteLotSize + (A * q' - B * b') * s0.g.market.quoteLotSize := by ring
      rw [e]; omega

/-- It loses nothing: with at most as much base as before, counting what it paid in and took out, it has at least as much quote.  (On a market
without rebates; fees paid to the market count as taken out.) -/
theorem C111_no_loss (hr : Reachable s) (h : Ran s l s') (hk : ∀ d ∈ l, byGroup K d.op = true → ∀ q ∈ asked d.op, KeepsTo B A q)
    (hv : ∀ d ∈ l, ¬ intoVault d.before d.op) (O : OwnRange K B A s.book) (hBA : B ≤ A) (hB : 0 ≤ B)
    (hb : groupBase K s' ≤ groupBase K s + sumDone l (broughtBase K)) :
    groupQuote K s + sumDone l (broughtQuote K) - sumDone l (rebatesPaid K) ≤ groupQuote K s' := by
  obtain ⟨b, q, h1, h2, h3, h4⟩ := C111_run hr h hk hv O
  obtain ⟨_, _, hbl, hql, _⟩ := C42_forever hr
  have hge : b ≤ q := by
    by_contra hc
    have := Int.mul_le_mul_of_nonneg_right (show 1 ≤ b - q by omega) (show 0 ≤ s.g.market.baseLotSize by omega)
    omega
  have k1 := Int.mul_le_mul_of_nonneg_right hBA h2
  have k2 := Int.mul_le_mul_of_nonneg_left hge hB
  have := Int.mul_nonneg (show 0 ≤ A * q - B * b by omega) (show 0 ≤ s.g.market.quoteLotSize by omega)
  omega

/-- There are no rebates on a market whose maker fee is not negative. -/
theorem C111_no_rebates (hr : Reachable s) (h : Ran s l s') (hm : 0 ≤ s.g.market.makerFee) : sumDone l (rebatesPaid K) = 0 := by
  induction h with
  | nil s => rfl
  | cons d l s' hst ht hs ih =>
    have hc := (step_cfg (reachable_Inv hr) hst).1
    have hi := ih (.step _ _ _ hr hst) (by rw [hc.maker]; exact hm)
    have hz : ∀ fs : List FillEvent, sumFills fs (fillRebate d.before.g.market) = 0 := by
      intro fs
      unfold sumFills
      induction fs with
      | nil => rfl
      | cons f fs ih =>
        have e : fillRebate d.before.g.market f = 0 := by
          unfold fillRebate
          rw [show max (-d.before.g.market.makerFee) 0 = 0 by omega]
          simp
        rw [List.map_cons, List.sum_cons, ih, e]; rfl
    have hd : rebatesPaid K d = 0 := by unfold rebatesPaid; rw [hz]; simp
    unfold sumDone at hi ⊢
    rw [List.map_cons, List.sum_cons, hd, hi]; rfl

end

/-! Trader 33 bids 1000 and asks 1006 for four lots; trader 32 sells four lots and buys four: the account ends with the base it put in and with
more quote. -/
namespace RangeCase
open Scenario

def group (k : Pubkey) : Bool := decide (k = 43)
def other (side : Side) (price : Int) : Op := .placeTakeOrder (takeCtx 1) { limitOrder side price 4 9 with orderType := .immediateOrCancel }
def bid : Op := place 2 .bid 1000 4 6
def ask : Op := place 2 .ask 1006 4 7

example : ∃ (s s' : State) (l : List Done), Reachable s ∧ Ran s l s' ∧ (∀ d ∈ l, byGroup group d.op = true → ∀ q ∈ asked d.op, KeepsTo 1000 1006 q) ∧
    (∀ d ∈ l, ¬ intoVault d.before d.op) ∧ OwnRange group 1000 1006 s.book ∧
    groupBase group s' ≤ groupBase group s + sumDone l (broughtBase group) ∧
    groupQuote group s + sumDone l (broughtQuote group) < groupQuote group s' := by
  obtain ⟨s, hs, h⟩ := exec_spec (a := args) (ops := ops0) (p := fun s => s.book.resting.all (fun x => !group x.2.2.owner) &&
    okAnd (step s bid) (fun s1 => okAnd (step s1 ask) (fun s2 => okAnd (step s2 (other .ask 1000)) (fun s3 => okAnd (step s3 (other .bid 1006)) (fun s' =>
      decide (groupBase group s' ≤ groupBase group s + (broughtBase group ⟨s, bid, s1, []⟩ + (broughtBase group ⟨s1, ask, s2, []⟩ + 0)) ∧
        groupQuote group s + (broughtQuote group ⟨s, bid, s1, []⟩ + (broughtQuote group ⟨s1, ask, s2, []⟩ + 0)) < groupQuote group s')))))) (by decide +kernel)
  rw [Bool.and_eq_true] at h
  obtain ⟨hsp, h⟩ := h
  obtain ⟨s1, h1, h⟩ := okAnd_spec h
  obtain ⟨s2, h2, h⟩ := okAnd_spec h
  obtain ⟨s3, h3, h⟩ := okAnd_spec h
  obtain ⟨s', h4, h⟩ := okAnd_spec h
  obtain ⟨k1, k2⟩ := of_decide_eq_true h
  have r1 := Reachable.step _ _ _ hs h1
  have r2 := Reachable.step _ _ _ r1 h2
  have r3 := Reachable.step _ _ _ r2 h3
  obtain ⟨ts1, t1⟩ := C69_trades hs h1
  obtain ⟨ts2, t2⟩ := C69_trades r1 h2
  obtain ⟨ts3, t3⟩ := C69_trades r2 h3
  obtain ⟨ts4, t4⟩ := C69_trades r3 h4
  refine ⟨s, s', [⟨s, _, s1, ts1⟩, ⟨s1, _, s2, ts2⟩, ⟨s2, _, s3, ts3⟩, ⟨s3, _, s', ts4⟩], hs,
    .cons ⟨s, _, s1, ts1⟩ _ _ h1 t1 (.cons ⟨s1, _, s2, ts2⟩ _ _ h2 t2 (.cons ⟨s2, _, s3, ts3⟩ _ _ h3 t3 (.cons ⟨s3, _, s', ts4⟩ _ _ h4 t4 (.nil _)))),
    ?_, ?_, ?_, k1, k2⟩
  · intro d hd
    simp only [List.mem_cons, List.not_mem_nil, or_false] at hd
    rcases hd with rfl | rfl | rfl | rfl
    · intro _ q hq
      cases hq with
      | head => exact ⟨by decide, fun _ => by show (1000 : Int) ≤ 1000; decide, fun _ h => by cases h⟩
      | tail _ h => cases h
    · intro _ q hq
      cases hq with
      | head => exact ⟨by decide, fun _ => by show (1006 : Int) ≤ 1006; decide, fun _ h => by cases h⟩
      | tail _ h => cases h
    · intro hb; cases hb
    · intro hb; cases hb
  · intro d hd
    simp only [List.mem_cons, List.not_mem_nil, or_false] at hd
    rcases hd with rfl | rfl | rfl | rfl
    · exact fun h => h
    · exact fun h => h
    · exact fun h => h
    · exact fun h => h
  · intro now oracle side c lf p hm hK _
    have := List.all_eq_true.mp hsp _ hm
    simp [hK] at this

end RangeCase

end OB
