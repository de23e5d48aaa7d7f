import Verif.Model.Context
import Verif.Proofs.Fees
import Verif.Props.C02_Budget
import Verif.Props.Scenario
import Mathlib.Tactic.Linarith
import Mathlib.Tactic.Ring
/-!
C81  Limits that the client computes for an amount.

`MarketContext` of the Rust client turns an amount to trade into the limits of an order.  The limit in base is right (C81_base).  The limit
in quote adds the fees in native units to an amount in lots: the part for the fees is too large by the factor of the lot size (C81_taker),
and an order placed with it pays more than the amount and its fee (C81_taker_over).  Where lots are single units, the limits are right up
to the square of the fee rate and rounding (C81_taker_partial, C81_maker_partial), but the whole amount is not covered (C81_taker_short).
The size in whole base tokens is multiplied by the number of decimals instead of a power of ten (C81_base_usd, C81_base_usd_zero).
-/
namespace OB
open Spec

/-- The base lots for a size: as many as the size holds. -/
theorem C81_base {m : Market} {x : Int} (hb : 1 ≤ m.baseLotSize) (hx : 0 ≤ x) :
    Context.maxBaseLots m x * m.baseLotSize ≤ x ∧ x < (Context.maxBaseLots m x + 1) * m.baseLotSize := by
  unfold Context.maxBaseLots
  rw [Int.tdiv_eq_ediv_of_nonneg hx]
  exact ⟨Int.ediv_mul_le _ (by omega), Int.lt_ediv_add_one_mul_self _ (by omega)⟩

/-- The limit for an order that can take: the amount and, in lots, as many native units as the amount contains in fees. -/
theorem C81_taker {m : Market} {q L : Int} (hq : 1 ≤ m.quoteLotSize) (ht : 0 ≤ m.takerFee) (hx : 0 ≤ q)
    (h : Context.maxQuoteLotsTaker m q = .ok L) :
    ∃ fee, fee * (1000000 + m.takerFee) ≤ q * m.takerFee ∧ q * m.takerFee < (fee + 1) * (1000000 + m.takerFee) ∧
      L * m.quoteLotSize ≤ q + fee * m.quoteLotSize ∧ q + fee * m.quoteLotSize < (L + 1) * m.quoteLotSize := by
  unfold Context.maxQuoteLotsTaker feesScale at h
  simp only [bind_ok, ckU64_ok] at h
  obtain ⟨fee, ⟨_, rfl⟩, _, rfl⟩ := h
  rw [Int.tdiv_eq_ediv_of_nonneg (Int.mul_nonneg hx ht), Int.tdiv_eq_ediv_of_nonneg hx]
  have h1 := Int.ediv_mul_le q (b := m.quoteLotSize) (by omega)
  have h2 := Int.lt_ediv_add_one_mul_self q (b := m.quoteLotSize) (by omega)
  refine ⟨_, Int.ediv_mul_le _ (by omega), Int.lt_ediv_add_one_mul_self _ (by omega), ?_, ?_⟩
  · rw [Int.add_mul]; omega
  · rw [Int.add_right_comm, Int.add_mul]; omega

/-- With lots of one unit: the limit is between the amount and the amount with its fee, and what the matching engine leaves of it for
trades falls short of the amount by its part `t² / (1 + t)²` for a fee rate `t`, and two units. -/
theorem C81_taker_partial {m : Market} {q L n : Int} (hq : m.quoteLotSize = 1) (ht : 0 ≤ m.takerFee) (hx : 0 ≤ q)
    (h : Context.maxQuoteLotsTaker m q = .ok L) (hn : m.subtractTakerFees L = .ok n) :
    q ≤ L ∧ L * 1000000 ≤ q * (1000000 + m.takerFee) ∧ n ≤ q ∧ (q - n - 2) * (1000000 + m.takerFee) ^ 2 < q * m.takerFee ^ 2 := by
  obtain ⟨fee, f1, f2, f3, f4⟩ := C81_taker (by omega) ht hx h
  rw [hq] at f3 f4
  have hL : L = q + fee := by omega
  subst hL
  unfold Market.subtractTakerFees feesScale at hn
  rw [ckI64_ok] at hn
  obtain ⟨_, rfl⟩ := hn
  generalize ht' : m.takerFee = t at *
  have hf : 0 ≤ fee := by
    by_contra hc
    have : (fee + 1) * (1000000 + t) ≤ 0 := Int.mul_nonpos_of_nonpos_of_nonneg (by omega) (by omega)
    have := Int.mul_nonneg hx ht
    omega
  have hfq : fee * 1000000 ≤ q * t := by nlinarith
  rw [Int.tdiv_eq_ediv_of_nonneg (by nlinarith)]
  have g1 := Int.ediv_mul_le ((q + fee) * 1000000) (b := 1000000 + t) (by omega)
  have g2 := Int.lt_ediv_add_one_mul_self ((q + fee) * 1000000) (b := 1000000 + t) (by omega)
  generalize (q + fee) * 1000000 / (1000000 + t) = n at *
  refine ⟨by omega, by linarith, ?_, ?_⟩
  · by_contra hc
    have : (q + 1) * (1000000 + t) ≤ n * (1000000 + t) := Int.mul_le_mul_of_nonneg_right (by omega) (by omega)
    nlinarith
  · have e1 : (q - n - 2) * (1000000 + t) ^ 2 = (q - 1) * (1000000 + t) ^ 2 - (n + 1) * (1000000 + t) * (1000000 + t) := by ring
    have g3 : (q + fee) * 1000000 * (1000000 + t) ≤ (n + 1) * (1000000 + t) * (1000000 + t) :=
      Int.mul_le_mul_of_nonneg_right g2.le (by omega)
    have g4 : q * t * 1000000 ≤ (fee + 1) * (1000000 + t) * 1000000 := Int.mul_le_mul_of_nonneg_right f2.le (by omega)
    have g5 : 1000000 * (1000000 + t) < (1000000 + t) ^ 2 + 1 := by nlinarith
    nlinarith

/-- The same for an order that only posts: the engine puts aside the maker fee for the whole limit, rounded up. -/
theorem C81_maker_partial {m : Market} {q L fee : Int} (hq : m.quoteLotSize = 1) (hm : 0 < m.makerFee) (hm1 : m.makerFee ≤ 1000000) (hx : 0 ≤ q)
    (h : Context.maxQuoteLotsMaker m q = .ok L) (hn : m.makerFeesCeilI L = .ok fee) :
    q ≤ L ∧ L * 1000000 ≤ q * (1000000 + m.makerFee) ∧ L - fee ≤ q ∧ (q - (L - fee) - 2) * 1000000 ^ 2 < q * m.makerFee ^ 2 := by
  unfold Context.maxQuoteLotsMaker Market.makerFeesFloor Market.unsignedMakerFeesFloor feesScale at h
  unfold Market.makerFeesCeilI at hn
  rw [if_pos hm] at h hn
  simp only [bind_ok, ckU64_ok] at h
  rw [ckI64_ok] at hn
  obtain ⟨f, ⟨_, rfl⟩, _, rfl⟩ := h
  obtain ⟨_, rfl⟩ := hn
  have ea : ((m.makerFee.natAbs : Nat) : Int) = m.makerFee := Int.natAbs_of_nonneg hm.le
  rw [ea, hq, Int.tdiv_one]
  generalize m.makerFee = t at *
  have hqt : 0 ≤ q * t := Int.mul_nonneg hx hm.le
  rw [Int.tdiv_eq_ediv_of_nonneg hqt]
  have f1 := Int.ediv_mul_le (q * t) (b := 1000000) (by omega)
  have f2 := Int.lt_ediv_add_one_mul_self (q * t) (b := 1000000) (by omega)
  have f3 : 0 ≤ q * t / 1000000 := Int.ediv_nonneg hqt (by omega)
  generalize q * t / 1000000 = f at *
  have hL : 0 ≤ (q + f) * t := Int.mul_nonneg (by omega) hm.le
  rw [ceilFeeDivision_eq hL]
  have g1 := Int.ediv_mul_le ((q + f) * t + 999999) (b := 1000000) (by omega)
  have g2 := Int.lt_ediv_add_one_mul_self ((q + f) * t + 999999) (b := 1000000) (by omega)
  generalize ((q + f) * t + 999999) / 1000000 = c at *
  refine ⟨by omega, by linarith, ?_, ?_⟩
  · nlinarith
  · nlinarith

/-- The limit for a number of whole base tokens is worth at most as many native units per token as it has decimals. -/
theorem C81_base_usd {m : Market} {d : Nat} {x n : Int} (hb : 1 ≤ m.baseLotSize) (h : Context.maxBaseLotsFromUsd m d x = .ok n) :
    n * m.baseLotSize ≤ x * d := by
  unfold Context.maxBaseLotsFromUsd at h
  simp only [bind_ok, ckU64_ok, pure_ok] at h
  obtain ⟨y, ⟨h1, rfl⟩, rfl⟩ := h
  exact (C81_base hb h1.1).1

/-- Buy for at most `lots`. -/
def C81_order (lots : Int) : Op :=
  .placeOrder (Scenario.ctx 2 .bid []) { Scenario.limitOrder .bid 1007 5 9 with maxQuoteLots := lots, orderType := .immediateOrCancel }

/-- A buyer with the limit computed for 10060 pays 10075, more than 10060 and the fee of 5 for it. -/
theorem C81_taker_over : ∃ (s s' : State) (q lots fee : Int), Reachable s ∧ Context.maxQuoteLotsTaker s.g.market q = .ok lots ∧
    step s (C81_order lots) = .ok s' ∧ IsCeilFee q s.g.market.takerFee fee ∧ tokens s 63 - tokens s' 63 = 10075 ∧ q + fee = 10065 := by
  obtain ⟨s, s', hr, h1, h2⟩ := Scenario.step_spec (a := Scenario.args) (ops := Scenario.ops0) (op := C81_order 1010)
    (p := fun s s' => Scenario.okAnd (Context.maxQuoteLotsTaker s.g.market 10060) (fun L => decide (L = 1010 ∧ s.g.market.takerFee = 400 ∧
      tokens s 63 - tokens s' 63 = 10075))) (by decide +kernel)
  obtain ⟨L, h3, h4⟩ := Scenario.okAnd_spec h2
  obtain ⟨rfl, h5, h6⟩ := of_decide_eq_true h4
  refine ⟨s, s', 10060, 1010, 5, hr, h3, h1, ?_, h6, rfl⟩
  rw [h5]
  exact ⟨by decide, fun g hg => by omega⟩

/-- In a market with lots of one unit, the limit for 1000000000 lets the engine match only 999999840. -/
theorem C81_taker_short : ∃ (s : State) (q lots n : Int), Reachable s ∧ s.g.market.quoteLotSize = 1 ∧
    Context.maxQuoteLotsTaker s.g.market q = .ok lots ∧ s.g.market.subtractTakerFees lots = .ok n ∧ q = 1000000000 ∧ n = 999999840 := by
  obtain ⟨s, hr, h⟩ := Scenario.exec_spec (a := { Scenario.args with quoteLotSize := 1 }) (ops := [])
    (p := fun s => decide (s.g.market.quoteLotSize = 1) && Scenario.okAnd (Context.maxQuoteLotsTaker s.g.market 1000000000) (fun L =>
      Scenario.okAnd (s.g.market.subtractTakerFees L) (fun n => decide (n = 999999840)))) (by decide +kernel)
  rw [Bool.and_eq_true] at h
  obtain ⟨L, h1, h2⟩ := Scenario.okAnd_spec h.2
  obtain ⟨n, h3, h4⟩ := Scenario.okAnd_spec h2
  exact ⟨s, _, L, n, hr, of_decide_eq_true h.1, h1, h3, rfl, of_decide_eq_true h4⟩

/-- Ten whole tokens with 9 decimals hold 100000000 lots of 100 units; the limit is 0. -/
theorem C81_base_usd_zero : ∃ s : State, Reachable s ∧ s.g.market.baseLotSize = 100 ∧ Context.maxBaseLotsFromUsd s.g.market 9 10 = .ok 0 ∧
    Context.maxBaseLots s.g.market (10 * 10 ^ 9) = 100000000 := by
  obtain ⟨s, hr, h⟩ := Scenario.exec_spec (a := Scenario.args) (ops := [])
    (p := fun s => decide (s.g.market.baseLotSize = 100) && Scenario.okAnd (Context.maxBaseLotsFromUsd s.g.market 9 10) (fun n =>
      decide (n = 0 ∧ Context.maxBaseLots s.g.market (10 * 10 ^ 9) = 100000000))) (by decide +kernel)
  rw [Bool.and_eq_true] at h
  obtain ⟨n, h1, h2⟩ := Scenario.okAnd_spec h.2
  obtain ⟨rfl, h3⟩ := of_decide_eq_true h2
  exact ⟨s, hr, of_decide_eq_true h.1, h1, h3⟩

/-! The hypotheses of `C81_maker_partial`: a market with maker fee and lots of one unit. -/
example : ∃ s : State, Reachable s ∧ (decide (s.g.market.quoteLotSize = 1 ∧ 0 < s.g.market.makerFee ∧ s.g.market.makerFee ≤ 1000000) &&
    Scenario.okAnd (Context.maxQuoteLotsMaker s.g.market 1000000000) (fun L => Scenario.okAnd (s.g.market.makerFeesCeilI L) (fun f =>
      decide (L = 1000200000 ∧ L - f = 999999960)))) = true :=
  Scenario.exec_spec (a := { Scenario.args with quoteLotSize := 1 }) (ops := [])
    (p := fun s => (decide (s.g.market.quoteLotSize = 1 ∧ 0 < s.g.market.makerFee ∧ s.g.market.makerFee ≤ 1000000) &&
    Scenario.okAnd (Context.maxQuoteLotsMaker s.g.market 1000000000) (fun L => Scenario.okAnd (s.g.market.makerFeesCeilI L) (fun f =>
      decide (L = 1000200000 ∧ L - f = 999999960))))) (by decide +kernel)

end OB
