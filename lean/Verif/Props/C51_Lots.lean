import Verif.Proofs.Ieee
import Verif.Props.C49_Oracle
/-!
C51  The oracle price in lots is the reported price, converted to lots and rounded down.
-/
namespace OB
open Spec

/-- `l` lots of quote per lot of base are the exact price `X`, in native units, up to one part in 2^48 of the price, 2^-48, and rounding
down to whole lots. -/
structure Converts (m : Market) (X : Rat) (l : Int) : Prop where
  upper : (l : Rat) ≤ (X * (1 + 2 ^ (-48 : Int)) + 2 ^ (-48 : Int)) * m.baseLotSize / m.quoteLotSize
  lower : (X * (1 - 2 ^ (-48 : Int)) - 2 ^ (-48 : Int)) * m.baseLotSize / m.quoteLotSize < l + 1
  nonneg : 0 ≤ l
  max : l ≤ i64Max

theorem fixed_bounds {W X : Rat} {b : Int} {n : Nat} (hr : Rel n X W) (hn : n ≤ 20) (hX : 0 ≤ X) (h : |(b : Rat) / 2 ^ (48 : Int) - W| ≤ 2 ^ (-48 : Int)) :
    (b : Rat) / 2 ^ (48 : Int) ≤ X * (1 + 2 ^ (-48 : Int)) + 2 ^ (-48 : Int) ∧
    X * (1 - 2 ^ (-48 : Int)) - 2 ^ (-48 : Int) ≤ (b : Rat) / 2 ^ (48 : Int) := by
  obtain ⟨h1, h2⟩ := hr.bounds hn hX
  obtain ⟨h3, h4⟩ := abs_le.mp h
  clear h hr
  generalize (b : Rat) / 2 ^ (48 : Int) = B at *
  generalize (2 : Rat) ^ (-48 : Int) = A at *
  constructor <;> linarith

theorem converts_of {m : Market} {X W : Rat} {b l : Int} {n : Nat} (hb : 0 < m.baseLotSize) (hq : 0 < m.quoteLotSize) (h0 : 0 ≤ b)
    (h : nativePriceToLot m b = .ok l) (hr : Rel n X W) (hn : n ≤ 20) (hX : 0 ≤ X) (hw : |(b : Rat) / 2 ^ (48 : Int) - W| ≤ 2 ^ (-48 : Int)) :
    Converts m X l := by
  obtain ⟨l1, l2, l3, l4⟩ := lots_of hb hq h0 h
  obtain ⟨w1, w2⟩ := fixed_bounds hr hn hX hw
  have hb' : (0 : Rat) ≤ m.baseLotSize := by exact_mod_cast hb.le
  have hq' : (0 : Rat) < m.quoteLotSize := by exact_mod_cast hq
  refine ⟨le_trans l1 ?_, lt_of_le_of_lt ?_ l2, l4, l3.2⟩
  · exact div_le_div_of_nonneg_right (mul_le_mul_of_nonneg_right w1 hb') hq'.le
  · exact div_le_div_of_nonneg_right (mul_le_mul_of_nonneg_right w2 hb') hq'.le

/-- One oracle: the price of one unit of base, in units of quote, scaled by the decimals. -/
theorem C51_one {s : State} {i : OracleInfo} {a b : OraclePassed} {slot : Nat} {l : Int} {x : OracleAcc} {p d : Rat} (hr : Reachable s)
    (h : oraclePriceLots s.g.market i a b slot = .ok (some l)) (hb : s.g.market.oracleB = 0) (hx : isOracle s.g.market a b x)
    (hrep : reported x = some (p, d)) (hs : sane x) (hp : 0 ≤ p) (d1 : i.baseDecimals ≤ 127) (d2 : i.quoteDecimals ≤ 127) :
    Converts s.g.market (p * (10 : Rat) ^ ((i.quoteDecimals : Int) - i.baseDecimals)) l := by
  have core := (reachable_Inv hr).core
  obtain ⟨_, bits, hl, h⟩ := price_cases h
  rcases h with ⟨_, x', o, ea, hst, _, _, h3⟩ | ⟨hb', _⟩
  · rcases hx with ⟨_, e⟩ | ⟨hb', _⟩
    · rw [ea] at e; injection e with e; injection e with _ e; subst e
      obtain ⟨fp, fd, e1, _, r1, _⟩ := state_reported hst hrep hs
      rw [e1] at h3
      obtain ⟨W, w1, w2, w3, _⟩ := fixed_near ⟨d1, d2⟩ h3 (f' := fp) (by rw [sub_self, abs_zero]; positivity) r1
      exact converts_of core.bls core.qls (w3 (r1.nonneg_iff.mpr hp)) hl w1 (by omega) (by positivity) w2
    · exact absurd hb hb'
  · exact absurd hb hb'

/-- Two oracles: the quotient of their prices, scaled by the decimals. -/
theorem C51_two {s : State} {i : OracleInfo} {a b : OraclePassed} {slot : Nat} {l : Int} {x y : OracleAcc} {pa da pb db : Rat}
    (hr : Reachable s) (h : oraclePriceLots s.g.market i a b slot = .ok (some l)) (ha : a = some (s.g.market.oracleA, x))
    (hb : b = some (s.g.market.oracleB, y)) (hb0 : s.g.market.oracleB ≠ 0) (hra : reported x = some (pa, da))
    (hrb : reported y = some (pb, db)) (hsa : sane x) (hsb : sane y) (hpa : 0 ≤ pa) (hpb : 0 ≤ pb) (d1 : i.baseDecimals ≤ 127)
    (d2 : i.quoteDecimals ≤ 127) :
    0 < pb ∧ Converts s.g.market (pa / pb * (10 : Rat) ^ ((i.quoteDecimals : Int) - i.baseDecimals)) l := by
  have core := (reachable_Inv hr).core
  obtain ⟨_, bits, hl, h⟩ := price_cases h
  rcases h with ⟨hb', _⟩ | ⟨_, x', y', o, o', ea, eb, hst, hst', _, _, _, h3⟩
  · exact absurd hb' hb0
  · rw [ea] at ha; injection ha with ha; injection ha with _ ha; subst ha
    rw [eb] at hb; injection hb with hb; injection hb with _ hb; subst hb
    obtain ⟨fpa, fda, e1, _, r1, _⟩ := state_reported hst hra hsa
    obtain ⟨fpb, fdb, e3, _, r3, _⟩ := state_reported hst' hrb hsb
    rw [e1, e3] at h3
    obtain ⟨f, hf⟩ := fixed_fin h3
    have hfb : fpb ≠ 0 := by
      intro h0
      rw [h0] at hf
      unfold F64.div at hf
      simp only [if_true] at hf
      split at hf <;> cases hf
    have hpb' : pb ≠ 0 := fun h0 => hfb (r3.zero_iff.mpr h0)
    have hpos : 0 < pb := lt_of_le_of_ne hpb (Ne.symm hpb')
    rw [hf] at h3
    rw [fin_div hfb] at hf
    obtain ⟨f', rf, nf⟩ := Rel.near hf
    have rr := (r1.div r3).trans rf
    obtain ⟨W, w1, w2, w3, _⟩ := fixed_near ⟨d1, d2⟩ h3 nf rr
    have hf0 : 0 ≤ f := (F64.rnd_error hf).2.2.1 (div_nonneg (r1.nonneg_iff.mpr hpa) (r3.nonneg_iff.mpr hpb))
    exact ⟨hpos, converts_of core.bls core.qls (w3 hf0) hl w1 (by omega) (by positivity) w2⟩

/-- Without an oracle there is no price. -/
theorem C51_none {m : Market} {i : OracleInfo} {a b : OraclePassed} {slot : Nat} {o : Option Int} (h : oraclePriceLots m i a b slot = .ok o)
    (ha : m.oracleA = 0) : o = none := by
  cases o with
  | none => rfl
  | some l => exact absurd ha (price_cases h).1

/-- Prices of stub oracles are not checked: here -3, and the market's price is -30 lots. -/
theorem C51_negative_false : ∃ (s : State) (i : OracleInfo) (x : OracleAcc) (l : Int), Reachable s ∧ l < 0 ∧ sane x ∧
    reported x = some (-3, 0) ∧ oraclePriceLots s.g.market i (some (s.g.market.oracleA, x)) none 95 = .ok (some l) := by
  obtain ⟨s, hs, h⟩ := scenario_market (a := Scenario.args) (p := fun m =>
    decide (oraclePriceLots m (oracleInfo (.fin 0)) (some (m.oracleA, .stub (.fin (-3)) (.fin 0) 90)) none 95 = .ok (some (-30))))
    (by decide +kernel)
  exact ⟨s, oracleInfo (.fin 0), .stub (.fin (-3)) (.fin 0) 90, -30, hs, by decide, trivial, rfl, of_decide_eq_true h⟩

/-- 10.05 with six decimals each, lots of 100 base and 10 quote: 100 lots, rounded down. -/
example : ∃ (s : State) (i : OracleInfo) (x : OracleAcc), Reachable s ∧ s.g.market.oracleB = 0 ∧ i.baseDecimals = 6 ∧ i.quoteDecimals = 6 ∧
    isOracle s.g.market (some (s.g.market.oracleA, x)) none x ∧ sane x ∧ reported x = some (1005 / 100, 1 / 100) ∧
    oraclePriceLots s.g.market i (some (s.g.market.oracleA, x)) none 95 = .ok (some 100) := by
  obtain ⟨s, hs, h⟩ := scenario_market (a := Scenario.args) (p := fun m =>
    decide (oraclePriceLots m (oracleInfo (.fin (1 / 128))) (some (m.oracleA, .pyth true 1005 1 90 0 0 0 (-2))) none 95 = .ok (some 100) ∧
      m.oracleA ≠ 0 ∧ m.oracleB = 0)) (by decide +kernel)
  obtain ⟨h1, h2, h3⟩ := of_decide_eq_true h
  refine ⟨s, oracleInfo (.fin (1 / 128)), .pyth true 1005 1 90 0 0 0 (-2), hs, h3, rfl, rfl, .inl ⟨h2, rfl⟩, ?_, ?_, h1⟩
  · refine ⟨by decide, by decide, by decide⟩
  · simp only [reported]; norm_num

/-- Rounding down happens after other roundings: the exact price is 4 lots and the program computes 3. -/
theorem C51_exact_false : ∃ (s : State) (i : OracleInfo) (x y : OracleAcc), Reachable s ∧ s.g.market.oracleB ≠ 0 ∧
    i.baseDecimals = 8 ∧ i.quoteDecimals = 6 ∧ reported x = some (10, 0) ∧ reported y = some (1 / 4, 0) ∧
    10 / (1 / 4) * (10 : Rat) ^ (6 - 8 : Int) * s.g.market.baseLotSize / s.g.market.quoteLotSize = 4 ∧
    oraclePriceLots s.g.market i (some (s.g.market.oracleA, x)) (some (s.g.market.oracleB, y)) 95 = .ok (some 3) := by
  obtain ⟨s, hs, h⟩ := scenario_market (a := args2) (p := fun m =>
    decide (oraclePriceLots m { oracleInfo (.fin (1 / 128)) with baseDecimals := 8 } (some (m.oracleA, boardAt 10 0))
      (some (m.oracleB, boardAt (1 / 4) 0)) 95 = .ok (some 3) ∧ m.oracleB ≠ 0 ∧ m.baseLotSize = 100 ∧ m.quoteLotSize = 10)) (by decide +kernel)
  obtain ⟨h1, h2, h3, h4⟩ := of_decide_eq_true h
  refine ⟨s, _, boardAt 10 0, boardAt (1 / 4) 0, hs, h2, rfl, rfl, rfl, rfl, ?_, h1⟩
  rw [h3, h4]; norm_num

/-- 11 / 0.25 with eight and six decimals. -/
example : ∃ (s : State) (i : OracleInfo) (x y : OracleAcc) (l : Int), Reachable s ∧ s.g.market.oracleB ≠ 0 ∧ i.baseDecimals = 8 ∧
    i.quoteDecimals = 6 ∧ sane x ∧ sane y ∧ reported x = some (11, 0) ∧ reported y = some (1 / 4, 0) ∧ 0 < l ∧
    oraclePriceLots s.g.market i (some (s.g.market.oracleA, x)) (some (s.g.market.oracleB, y)) 95 = .ok (some l) := by
  obtain ⟨s, hs, h⟩ := scenario_market (a := args2) (p := fun m =>
    decide (oraclePriceLots m { oracleInfo (.fin (1 / 128)) with baseDecimals := 8 } (some (m.oracleA, boardAt 11 0))
      (some (m.oracleB, boardAt (1 / 4) 0)) 95 = .ok (some 4) ∧ m.oracleB ≠ 0)) (by decide +kernel)
  obtain ⟨h1, h2⟩ := of_decide_eq_true h
  exact ⟨s, _, boardAt 11 0, boardAt (1 / 4) 0, 4, hs, h2, rfl, rfl, trivial, trivial, rfl, rfl, by decide, h1⟩

/-- Every operation of the model on doubles rounds its exact result as IEEE 754 demands: to the nearest double, ties to even, and to
infinity from the largest double and a half step on. -/
theorem C51_ieee (q : Rat) : RoundedTo q (F64.rnd q) := rnd_rounded q

/-- A tie: between two doubles the even one. -/
example : F64.rnd (2 ^ 53 + 1) = .fin (2 ^ 53) ∧ F64.rnd (2 ^ 53 + 3) = .fin (2 ^ 53 + 4) := by decide +kernel

end OB
