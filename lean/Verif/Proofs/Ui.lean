import Verif.Spec.Ui
import Verif.Proofs.Float
import Mathlib.Tactic.GCongr
/-! Errors of the conversions of the TypeScript library. -/
namespace OB.Ui
open OB

/-- `a` is `b` up to `k` roundings. -/
def Rel (k : Nat) (a b : Rat) : Prop := b * (1 - ulp) ^ k ≤ a ∧ a ≤ b * (1 + ulp) ^ k

theorem ulp_pos : 0 < ulp := by unfold ulp; norm_num
theorem ulp_lt : ulp < 1 := by unfold ulp; norm_num

theorem Rel.refl (a : Rat) : Rel 0 a a := by unfold Rel; simp

theorem Rel.nonneg {k : Nat} {a b : Rat} (h : Rel k a b) (hb : 0 ≤ b) : 0 ≤ a :=
  le_trans (mul_nonneg hb (pow_nonneg (by have := ulp_lt; linarith) _)) h.1

theorem Rel.mul {j k : Nat} {a b c d : Rat} (h1 : Rel j a b) (h2 : Rel k c d) (hb : 0 ≤ b) (hd : 0 ≤ d) : Rel (j + k) (a * c) (b * d) := by
  have ha := h1.nonneg hb
  have hc := h2.nonneg hd
  have hu : 0 ≤ 1 - ulp := by have := ulp_lt; linarith
  have hv : 0 ≤ 1 + ulp := by have := ulp_pos; linarith
  constructor
  · calc b * d * (1 - ulp) ^ (j + k) = (b * (1 - ulp) ^ j) * (d * (1 - ulp) ^ k) := by rw [pow_add]; ring
      _ ≤ a * c := mul_le_mul h1.1 h2.1 (mul_nonneg hd (pow_nonneg hu _)) ha
  · calc a * c ≤ (b * (1 + ulp) ^ j) * (d * (1 + ulp) ^ k) := mul_le_mul h1.2 h2.2 hc (mul_nonneg hb (pow_nonneg hv _))
      _ = b * d * (1 + ulp) ^ (j + k) := by rw [pow_add]; ring

theorem low_pow {k : Nat} (hk : k ≤ 10) : (1 : Rat) / 2 ≤ (1 - ulp) ^ k := by
  have h : (1 - ulp) ^ 10 ≤ (1 - ulp) ^ k := pow_le_pow_of_le_one (by have := ulp_lt; linarith) (by have := ulp_pos; linarith) hk
  refine le_trans ?_ h
  unfold ulp; norm_num

theorem high_pow {k : Nat} (hk : k ≤ 10) : (1 + ulp) ^ k ≤ 2 := by
  have h : (1 + ulp) ^ k ≤ (1 + ulp) ^ 10 := pow_le_pow_right₀ (by have := ulp_pos; linarith) hk
  refine le_trans h ?_
  unfold ulp; norm_num

/-- A range in which nothing overflows or gets subnormal. -/
def Mid (b : Rat) : Prop := (2 : Rat) ^ (-250 : Int) ≤ b ∧ b ≤ 2 ^ (250 : Int)

theorem Mid.pos {b : Rat} (h : Mid b) : 0 < b := lt_of_lt_of_le (by positivity) h.1

theorem Rel.rnd {k : Nat} {a b : Rat} (h : Rel k a b) (hb : Mid b) (hk : k ≤ 10) : ∃ v, F64.rnd a = .fin v ∧ Rel (k + 1) v b := by
  have hp := hb.pos
  have l1 := low_pow hk
  have l2 := high_pow hk
  have ha : b / 2 ≤ a := by have := h.1; nlinarith
  have ha2 : a ≤ 2 * b := by have := h.2; nlinarith
  have e1 : (2 : Rat) ^ (-1022 : Int) ≤ 2 ^ (-250 : Int) / 2 := by
    have : (2 : Rat) ^ (-250 : Int) / 2 = 2 ^ (-251 : Int) := by norm_num
    rw [this]
    exact zpow_le_zpow_right₀ (by norm_num) (by norm_num)
  have e2 : 2 * (2 : Rat) ^ (250 : Int) ≤ 2 ^ (1023 : Int) := by
    have : 2 * (2 : Rat) ^ (250 : Int) = 2 ^ (251 : Int) := by norm_num
    rw [this]
    exact zpow_le_zpow_right₀ (by norm_num) (by norm_num)
  have e3 : (0 : Rat) < 2 ^ (-250 : Int) := by positivity
  obtain ⟨hb1, hb2⟩ := hb
  generalize (2 : Rat) ^ (-250 : Int) = A at *
  generalize (2 : Rat) ^ (250 : Int) = B at *
  have hapos : 0 < a := by linarith
  obtain ⟨v, hv⟩ := F64.rnd_finite (q := a) (by rw [abs_of_pos hapos]; linarith)
  refine ⟨v, hv, ?_⟩
  have he := (F64.rnd_error hv).2.1 (by rw [abs_of_pos hapos]; linarith)
  rw [abs_of_pos hapos, abs_le] at he
  have hu : 0 ≤ 1 - ulp := by have := ulp_lt; linarith
  have hv' : 0 ≤ 1 + ulp := by have := ulp_pos; linarith
  constructor
  · calc b * (1 - ulp) ^ (k + 1) = (b * (1 - ulp) ^ k) * (1 - ulp) := by rw [pow_succ]; ring
      _ ≤ a * (1 - ulp) := mul_le_mul_of_nonneg_right h.1 hu
      _ ≤ v := by linarith [he.1]
  · calc v ≤ a * (1 + ulp) := by linarith [he.2]
      _ ≤ (b * (1 + ulp) ^ k) * (1 + ulp) := mul_le_mul_of_nonneg_right h.2 hv'
      _ = b * (1 + ulp) ^ (k + 1) := by rw [pow_succ]; ring

/-- Multiplying two doubles. -/
theorem Rel.fmul {j k : Nat} {a b c d : Rat} (h1 : Rel j a b) (h2 : Rel k c d) (hb : 0 ≤ b) (hd : 0 ≤ d) (hm : Mid (b * d)) (hk : j + k ≤ 10) :
    ∃ v, (F64.fin a).mul (.fin c) = .fin v ∧ Rel (j + k + 1) v (b * d) := by
  obtain ⟨v, h3, h4⟩ := (h1.mul h2 hb hd).rnd hm hk
  exact ⟨v, h3, h4⟩

theorem pow10_mid {n : Nat} (h : n ≤ 30) : Mid ((10 : Rat) ^ n) := by
  constructor
  · refine le_trans ?_ (one_le_pow₀ (by norm_num))
    norm_num
  · refine le_trans (pow_le_pow_right₀ (by norm_num) h) ?_
    norm_num

/-- Six roundings of an integer up to 2^49 are undone by rounding to the nearest one. -/
theorem toFixed0_rel {v : Rat} {N : Nat} (h : Rel 6 v N) (hN : N ≤ 2 ^ 49) : toFixed0 (.fin v) = some (N : Int) := by
  have hN' : (N : Rat) ≤ 2 ^ 49 := by exact_mod_cast hN
  have h0 : (0 : Rat) ≤ N := Nat.cast_nonneg N
  have a1 : (1 : Rat) - 7 * ulp ≤ (1 - ulp) ^ 6 := by unfold ulp; norm_num
  have a2 : (1 + ulp) ^ 6 ≤ (1 : Rat) + 7 * ulp := by unfold ulp; norm_num
  have a3 : (2 : Rat) ^ 49 * (7 * ulp) < 1 / 2 := by unfold ulp; norm_num
  have up := ulp_pos
  have b1 : (N : Rat) - 1 / 2 < v := by
    have := h.1
    have : (N : Rat) * (1 - 7 * ulp) ≤ N * (1 - ulp) ^ 6 := mul_le_mul_of_nonneg_left a1 h0
    have : (N : Rat) * (7 * ulp) ≤ 2 ^ 49 * (7 * ulp) := mul_le_mul_of_nonneg_right hN' (by linarith)
    linarith [h.1]
  have b2 : v < (N : Rat) + 1 / 2 := by
    have : (N : Rat) * (1 + ulp) ^ 6 ≤ N * (1 + 7 * ulp) := mul_le_mul_of_nonneg_left a2 h0
    have : (N : Rat) * (7 * ulp) ≤ 2 ^ 49 * (7 * ulp) := mul_le_mul_of_nonneg_right hN' (by linarith)
    linarith [h.2]
  have hv := h.nonneg h0
  have hlt : v < 10 ^ 21 := by
    have : (2 : Rat) ^ 49 + 1 < 10 ^ 21 := by norm_num
    linarith
  unfold toFixed0
  simp only
  rw [absQ_eq, abs_of_nonneg hv, if_pos hlt, if_neg (not_lt.mpr hv)]
  congr 1
  have : (v + 1 / 2).floor = ⌊v + 1 / 2⌋ := rfl
  rw [this, Int.floor_eq_iff]
  push_cast
  constructor <;> linarith

theorem Rel.mono {j k : Nat} {a b : Rat} (h : Rel j a b) (hb : 0 ≤ b) (hk : j ≤ k) : Rel k a b := by
  constructor
  · exact le_trans (mul_le_mul_of_nonneg_left (pow_le_pow_of_le_one (by have := ulp_lt; linarith) (by have := ulp_pos; linarith) hk) hb) h.1
  · exact le_trans h.2 (mul_le_mul_of_nonneg_left (pow_le_pow_right₀ (by have := ulp_pos; linarith) hk) hb)

theorem bigDiv_near (a b : Rat) : |bigDiv a b - a / b| ≤ 1 / 2 / 10 ^ 20 := by
  unfold bigDiv
  have h1 : ((a / b * 10 ^ 20 + 1 / 2).floor : Rat) ≤ a / b * 10 ^ 20 + 1 / 2 := Int.floor_le _
  have h2 : a / b * 10 ^ 20 + 1 / 2 < ((a / b * 10 ^ 20 + 1 / 2).floor : Rat) + 1 := Int.lt_floor_add_one _
  generalize ((a / b * 10 ^ 20 + 1 / 2).floor : Rat) = f at *
  generalize a / b = q at *
  rw [abs_le]
  constructor
  · have : f / 10 ^ 20 - q - -(1 / 2 / 10 ^ 20) = (f - q * 10 ^ 20 + 1 / 2) / 10 ^ 20 := by field_simp; ring
    have : 0 ≤ f / 10 ^ 20 - q - -(1 / 2 / 10 ^ 20) := by rw [this]; exact div_nonneg (by linarith) (by norm_num)
    linarith
  · have : 1 / 2 / 10 ^ 20 - (f / 10 ^ 20 - q) = (1 / 2 - f + q * 10 ^ 20) / 10 ^ 20 := by field_simp; ring
    have : 0 ≤ 1 / 2 / 10 ^ 20 - (f / 10 ^ 20 - q) := by rw [this]; exact div_nonneg (by linarith) (by norm_num)
    linarith

theorem bigPow10_eq {e : Int} (h : -20 ≤ e) : bigPow10 e = 10 ^ e := by
  unfold bigPow10
  split
  · rename_i hneg
    obtain ⟨n, hn⟩ := Int.eq_ofNat_of_zero_le (show 0 ≤ -e by omega)
    have hn2 : n ≤ 20 := by omega
    obtain ⟨k, hk⟩ := Nat.exists_eq_add_of_le hn2
    rw [hn, Int.toNat_natCast]
    have he : e = -(n : Int) := by omega
    subst he
    unfold bigDiv
    have e1 : (1 : Rat) / 10 ^ n * 10 ^ 20 = ((10 ^ k : Int) : Rat) := by
      rw [show (10 : Rat) ^ 20 = 10 ^ n * 10 ^ k by rw [← pow_add, ← hk]]
      push_cast
      field_simp
    rw [e1]
    have : (((10 ^ k : Int) : Rat) + 1 / 2).floor = (10 ^ k : Int) := by
      have : (((10 ^ k : Int) : Rat) + 1 / 2).floor = ⌊((10 ^ k : Int) : Rat) + 1 / 2⌋ := rfl
      rw [this, Int.floor_intCast_add]
      norm_num
    rw [this, zpow_neg, zpow_natCast, show (10 : Rat) ^ 20 = 10 ^ n * 10 ^ k by rw [← pow_add, ← hk]]
    push_cast
    field_simp
  · rename_i hneg
    obtain ⟨n, hn⟩ := Int.eq_ofNat_of_zero_le (show 0 ≤ e by omega)
    rw [hn]; simp

theorem rnd_pow10 {d : Nat} (h : d ≤ 30) : ∃ v, F64.rnd (10 ^ d) = .fin v ∧ Rel 1 v (10 ^ d) :=
  (Rel.refl _).rnd (pow10_mid h) (by omega)

/-- `toNative` of a number that is `N / 10^d` up to two roundings. -/
theorem toNative_rel {v : Rat} {d k N : Nat} (hd : d ≤ 20) (hN0 : 1 ≤ N) (hN : N ≤ 2 ^ 49) (hk : k ≤ 4) (h : Rel k v ((N : Rat) / 10 ^ d)) :
    toNative (.fin v) d = some (N : Int) := by
  obtain ⟨P, hP, hR⟩ := rnd_pow10 (d := d) (by omega)
  have hp : (0 : Rat) < 10 ^ d := by positivity
  have e : (N : Rat) / 10 ^ d * 10 ^ d = N := by field_simp
  have h1 : (1 : Rat) ≤ N := by exact_mod_cast hN0
  have h2 : (N : Rat) ≤ 2 ^ 49 := by exact_mod_cast hN
  have hm : Mid ((N : Rat) / 10 ^ d * 10 ^ d) := by
    rw [e]
    constructor
    · refine le_trans ?_ h1; norm_num
    · refine le_trans h2 ?_; norm_num
  obtain ⟨w, hw, hr⟩ := h.fmul hR (by positivity) hp.le hm (by omega)
  rw [e] at hr
  unfold toNative
  rw [hP, hw]
  exact toFixed0_rel (hr.mono (by linarith) (by omega)) hN

/-- Zero stays zero. -/
theorem toNative_zero {d : Nat} (hd : d ≤ 20) : toNative (.fin 0) d = some 0 := by
  obtain ⟨P, hP, hR⟩ := rnd_pow10 (d := d) (by omega)
  unfold toNative
  rw [hP]
  show toFixed0 (F64.rnd (0 * P)) = some 0
  rw [zero_mul, F64.rnd_zero]
  unfold toFixed0
  simp only
  rw [absQ_eq, abs_zero, if_pos (by norm_num), if_neg (lt_irrefl _)]
  norm_num
  have : ((1 : Rat) / 2).floor = ⌊(1 : Rat) / 2⌋ := rfl
  rw [this]
  norm_num

/-- Amounts in lots, shown and read back. -/
theorem lots_round {d : Nat} {size lots : Int} (hd : d ≤ 20) (hs : 1 ≤ size) (hl : 0 ≤ lots) (hN : lots * size ≤ 2 ^ 49) :
    (do let n ← toNative (F64.rnd (lots * (size * bigPow10 (-(d : Int))))) d; return n.tdiv size : Option Int) = some lots := by
  obtain ⟨N, hNe⟩ := Int.eq_ofNat_of_zero_le (show 0 ≤ lots * size from mul_nonneg hl (by omega))
  have hp : (0 : Rat) < 10 ^ d := by positivity
  have eq : (lots : Rat) * (size * bigPow10 (-(d : Int))) = (N : Rat) / 10 ^ d := by
    rw [bigPow10_eq (by omega), zpow_neg, zpow_natCast, ← mul_assoc, ← Int.cast_mul, hNe]
    push_cast
    field_simp
  rw [eq]
  have hdiv : (N : Int).tdiv size = lots := by rw [← hNe]; exact Int.mul_tdiv_cancel _ (by omega)
  have hN' : N ≤ 2 ^ 49 := by rw [hNe] at hN; exact_mod_cast hN
  by_cases h0 : N = 0
  · subst h0
    rw [Nat.cast_zero, zero_div, F64.rnd_zero, toNative_zero hd]
    have h1 := hdiv
    simp only [Nat.cast_zero] at h1
    exact congrArg some h1
  · have h1 : (1 : Rat) ≤ N := by exact_mod_cast Nat.one_le_iff_ne_zero.mpr h0
    have h2 : (N : Rat) ≤ 2 ^ 49 := by exact_mod_cast hN'
    have h3 : (10 : Rat) ^ d ≤ 10 ^ 20 := pow_le_pow_right₀ (by norm_num) hd
    have h4 : (1 : Rat) ≤ 10 ^ d := one_le_pow₀ (by norm_num)
    have hm : Mid ((N : Rat) / 10 ^ d) := by
      constructor
      · rw [le_div_iff₀ hp]
        have : (2 : Rat) ^ (-250 : Int) * 10 ^ 20 ≤ 1 := by norm_num
        have : (2 : Rat) ^ (-250 : Int) * 10 ^ d ≤ 2 ^ (-250 : Int) * 10 ^ 20 := mul_le_mul_of_nonneg_left h3 (by positivity)
        linarith
      · rw [div_le_iff₀ hp]
        have : (2 : Rat) ^ 49 ≤ 2 ^ (250 : Int) := by norm_num
        have : (2 : Rat) ^ (250 : Int) * 1 ≤ 2 ^ (250 : Int) * 10 ^ d := mul_le_mul_of_nonneg_left h4 (by positivity)
        linarith
    obtain ⟨v, hv, hr⟩ := (Rel.refl ((N : Rat) / 10 ^ d)).rnd hm (by omega)
    rw [hv, toNative_rel hd (Nat.one_le_iff_ne_zero.mpr h0) hN' (by omega) hr]
    exact congrArg some hdiv

/-- The tick of the library: up to one rounding if it is not tiny, exact if it has at most 20 decimals. -/
theorem tick_rel {m : Mkt} (hd : m.quoteDecimals ≤ 20) (ht : 1 / 10 ^ 4 ≤ Spec.lotPrice m ∨ ∃ k : Int, Spec.lotPrice m * 10 ^ 20 = k)
    (h0 : 0 ≤ Spec.lotPrice m) : Rel 1 m.tickSize (Spec.lotPrice m) := by
  have e : m.tickSize = bigDiv (10 ^ ((m.baseDecimals : Int) - m.quoteDecimals) * m.quoteLotSize) m.baseLotSize := by
    unfold Mkt.tickSize
    rw [bigPow10_eq (by omega)]
  rcases ht with ht | ⟨k, hk⟩
  · have h := bigDiv_near (10 ^ ((m.baseDecimals : Int) - m.quoteDecimals) * m.quoteLotSize) m.baseLotSize
    rw [← e] at h
    change |m.tickSize - Spec.lotPrice m| ≤ _ at h
    rw [abs_le] at h
    have hu : 1 / 2 / 10 ^ 20 ≤ 1 / 10 ^ 4 * ulp := by unfold ulp; norm_num
    have hu2 : 1 / 10 ^ 4 * ulp ≤ Spec.lotPrice m * ulp := mul_le_mul_of_nonneg_right ht ulp_pos.le
    constructor
    · rw [pow_one]; linarith [h.1]
    · rw [pow_one]; linarith [h.2]
  · have e2 : m.tickSize = Spec.lotPrice m := by
      rw [e]
      unfold bigDiv
      change (((Spec.lotPrice m) * 10 ^ 20 + 1 / 2).floor : Rat) / 10 ^ 20 = _
      rw [hk]
      have : ((k : Rat) + 1 / 2).floor = k := by
        have : ((k : Rat) + 1 / 2).floor = ⌊(k : Rat) + 1 / 2⌋ := rfl
        rw [this, Int.floor_intCast_add]
        norm_num
      rw [this, ← hk]
      field_simp
    rw [e2]
    exact (Rel.refl _).mono h0 (by omega)

/-- The double of a lot size. -/
theorem rnd_size {b : Int} (h1 : 1 ≤ b) (h2 : b ≤ 2 ^ 63) : Mid (b : Rat) ∧ ∃ v, F64.rnd b = .fin v ∧ Rel 1 v b := by
  have h3 : (1 : Rat) ≤ b := by exact_mod_cast h1
  have h4 : (b : Rat) ≤ 2 ^ 63 := by exact_mod_cast h2
  have hm : Mid (b : Rat) := by
    constructor
    · refine le_trans ?_ h3; norm_num
    · refine le_trans h4 ?_; norm_num
  exact ⟨hm, (Rel.refl _).rnd hm (by omega)⟩

theorem bnOfPow10_eq {d : Nat} (h : d ≤ 15) : bnOfPow10 d = some (10 ^ d) := by
  unfold bnOfPow10
  rw [if_pos]
  calc (10 : Int) ^ d ≤ 10 ^ 15 := pow_le_pow_right₀ (by norm_num) h
    _ < 2 ^ 53 := by norm_num

/-- A price in lots, shown and read back. -/
theorem price_round {m : Mkt} {p : Int} (hbd : m.baseDecimals ≤ 15) (hqd : m.quoteDecimals ≤ 20)
    (hbl : 1 ≤ m.baseLotSize ∧ m.baseLotSize ≤ 2 ^ 63) (hql : 1 ≤ m.quoteLotSize)
    (ht : 1 / 10 ^ 4 ≤ Spec.lotPrice m ∨ ∃ k : Int, Spec.lotPrice m * 10 ^ 20 = k) (hp : 1 ≤ p)
    (hN : p * (10 ^ m.baseDecimals * m.quoteLotSize) ≤ 2 ^ 49) : m.priceUiToLots (m.priceLotsToUi p) = some p := by
  have hD : (1 : Int) ≤ 10 ^ m.baseDecimals * m.quoteLotSize := by
    have : (1 : Int) ≤ 10 ^ m.baseDecimals := one_le_pow₀ (by norm_num)
    nlinarith
  obtain ⟨N, hNe⟩ := Int.eq_ofNat_of_zero_le (show 0 ≤ p * (10 ^ m.baseDecimals * m.quoteLotSize) from mul_nonneg (by omega) (by omega))
  have hN' : N ≤ 2 ^ 49 := by rw [hNe] at hN; exact_mod_cast hN
  have hN1 : 1 ≤ N := by
    have : (1 : Int) ≤ N := by rw [← hNe]; nlinarith
    exact_mod_cast this
  obtain ⟨mB, B, hB, hBr⟩ := rnd_size hbl.1 hbl.2
  have hp1 : (1 : Rat) ≤ p := by exact_mod_cast hp
  have hb0 : (0 : Rat) < m.baseLotSize := by have : (1 : Rat) ≤ m.baseLotSize := by exact_mod_cast hbl.1
                                             linarith
  have ht0 : 0 < Spec.lotPrice m := by
    have : (1 : Rat) ≤ m.quoteLotSize := by exact_mod_cast hql
    unfold Spec.lotPrice
    positivity
  have ht20 : 1 / 10 ^ 20 ≤ Spec.lotPrice m := by
    rcases ht with ht | ⟨k, hk⟩
    · refine le_trans ?_ ht; norm_num
    · rw [div_le_iff₀ (by norm_num), hk]
      have : (0 : Rat) < k := by rw [← hk]; positivity
      have : 0 < k := by exact_mod_cast this
      exact_mod_cast this
  have hq : (0 : Rat) < 10 ^ m.quoteDecimals := by positivity
  have key : (p : Rat) * Spec.lotPrice m * m.baseLotSize = (N : Rat) / 10 ^ m.quoteDecimals := by
    have e1 : (N : Rat) = ((p * (10 ^ m.baseDecimals * m.quoteLotSize) : Int) : Rat) := by rw [hNe]; push_cast; rfl
    rw [e1]
    unfold Spec.lotPrice
    rw [zpow_sub₀ (by norm_num), zpow_natCast, zpow_natCast]
    push_cast
    field_simp
  have hNr : (N : Rat) ≤ 2 ^ 49 := by exact_mod_cast hN'
  have hNr1 : (1 : Rat) ≤ N := by exact_mod_cast hN1
  have h10 : (1 : Rat) ≤ 10 ^ m.quoteDecimals := one_le_pow₀ (by norm_num)
  have h20 : (10 : Rat) ^ m.quoteDecimals ≤ 10 ^ 20 := pow_le_pow_right₀ (by norm_num) hqd
  have up : (N : Rat) / 10 ^ m.quoteDecimals ≤ 2 ^ 49 := by
    rw [div_le_iff₀ hq]
    have : (2 : Rat) ^ 49 * 1 ≤ 2 ^ 49 * 10 ^ m.quoteDecimals := mul_le_mul_of_nonneg_left h10 (by norm_num)
    linarith
  have low : 1 / 10 ^ 20 ≤ (N : Rat) / 10 ^ m.quoteDecimals := by
    rw [div_le_div_iff₀ (by norm_num) hq]
    nlinarith
  have mT : Mid ((p : Rat) * Spec.lotPrice m) := by
    constructor
    · have h1 : (2 : Rat) ^ (-250 : Int) ≤ 1 / 10 ^ 20 := by norm_num
      have h2 : Spec.lotPrice m ≤ p * Spec.lotPrice m := le_mul_of_one_le_left ht0.le hp1
      exact le_trans h1 (le_trans ht20 h2)
    · have h1 : (1 : Rat) ≤ m.baseLotSize := by exact_mod_cast hbl.1
      have h2 : (p : Rat) * Spec.lotPrice m ≤ p * Spec.lotPrice m * m.baseLotSize := le_mul_of_one_le_right (by positivity) h1
      rw [key] at h2
      have : (2 : Rat) ^ 49 ≤ 2 ^ (250 : Int) := by norm_num
      linarith
  obtain ⟨v, hv, hr⟩ := (((Rel.refl (p : Rat)).mul (tick_rel hqd ht ht0.le) (by linarith) ht0.le)).rnd mT (by omega)
  have mX : Mid ((p : Rat) * Spec.lotPrice m * m.baseLotSize) := by
    rw [key]
    constructor
    · refine le_trans ?_ low; norm_num
    · refine le_trans up ?_; norm_num
  obtain ⟨w, hw, hwr⟩ := hr.fmul hBr (by positivity) hb0.le mX (by omega)
  rw [key] at hwr
  unfold Mkt.priceUiToLots Mkt.priceLotsToUi
  rw [hv, hB, hw, toNative_rel hqd hN1 hN' (by omega) hwr, bnOfPow10_eq hbd]
  show some ((N : Int).tdiv (10 ^ m.baseDecimals * m.quoteLotSize)) = some p
  rw [← hNe, Int.mul_tdiv_cancel _ (by omega)]

theorem toFixed0_near {x : Rat} (h0 : 0 ≤ x) (h1 : x < 10 ^ 21) : ∃ n : Int, toFixed0 (.fin x) = some n ∧ 0 ≤ n ∧ (n : Rat) ≤ x + 1 / 2 ∧ x - 1 / 2 < n := by
  have e : (x + 1 / 2).floor = ⌊x + 1 / 2⌋ := rfl
  refine ⟨(x + 1 / 2).floor, ?_, ?_, ?_, ?_⟩
  · unfold toFixed0
    simp only
    rw [absQ_eq, abs_of_nonneg h0, if_pos h1, if_neg (not_lt.mpr h0)]
  · rw [e]; exact Int.floor_nonneg.mpr (by linarith)
  · rw [e]; exact Int.floor_le _
  · have := Int.lt_floor_add_one (x + 1 / 2)
    rw [e]; linarith

/-- A typed price. -/
theorem price_entered {m : Mkt} {v : Rat} (hm : Spec.UiMarket m) (hv : 1 / 10 ^ 20 ≤ v) (hX : v * m.baseLotSize * 10 ^ m.quoteDecimals ≤ 10 ^ 20) :
    ∃ p, m.priceUiToLots (.fin v) = some p ∧ 0 ≤ p ∧
      p * Spec.lotPrice m ≤ v * (1 + 1 / 2 ^ 50) + 1 / (2 * m.baseLotSize * 10 ^ m.quoteDecimals) ∧
      v * (1 - 1 / 2 ^ 50) - 1 / (2 * m.baseLotSize * 10 ^ m.quoteDecimals) < (p + 1) * Spec.lotPrice m := by
  obtain ⟨_, B, hB, hBr⟩ := rnd_size hm.base.1 hm.base.2
  obtain ⟨P, hP, hPr⟩ := rnd_pow10 (d := m.quoteDecimals) (by have := hm.quoteDecimals; omega)
  have hb1 : (1 : Rat) ≤ m.baseLotSize := by exact_mod_cast hm.base.1
  have hb0 : (0 : Rat) < m.baseLotSize := by linarith
  have hb2 : (m.baseLotSize : Rat) ≤ 2 ^ 63 := by exact_mod_cast hm.base.2
  have hq1 : (1 : Rat) ≤ 10 ^ m.quoteDecimals := one_le_pow₀ (by norm_num)
  have hq0 : (0 : Rat) < 10 ^ m.quoteDecimals := by linarith
  have hv0 : (0 : Rat) < v := lt_of_lt_of_le (by norm_num) hv
  have hvb : v ≤ v * m.baseLotSize := le_mul_of_one_le_right hv0.le hb1
  have hvq : v * m.baseLotSize ≤ v * m.baseLotSize * 10 ^ m.quoteDecimals := le_mul_of_one_le_right (by positivity) hq1
  have lo : (2 : Rat) ^ (-250 : Int) ≤ 1 / 10 ^ 20 := by norm_num
  have hi : (10 : Rat) ^ 20 ≤ 2 ^ (250 : Int) := by norm_num
  have m1 : Mid (v * m.baseLotSize) := ⟨le_trans lo (le_trans hv hvb), le_trans hvq (le_trans hX hi)⟩
  have m2 : Mid (v * m.baseLotSize * 10 ^ m.quoteDecimals) := ⟨le_trans m1.1 hvq, le_trans hX hi⟩
  obtain ⟨w, hw, hwr⟩ := (Rel.refl v).fmul hBr hv0.le hb0.le m1 (by omega)
  obtain ⟨x, hx, hxr⟩ := hwr.fmul hPr (by positivity) hq0.le m2 (by omega)
  generalize hXe : v * m.baseLotSize * 10 ^ m.quoteDecimals = X at *
  have hX0 : 0 < X := m2.pos
  have hx0 := hxr.nonneg hX0.le
  have a1 : (1 : Rat) - 1 / 2 ^ 50 ≤ (1 - ulp) ^ 4 := by unfold ulp; norm_num
  have a2 : (1 + ulp) ^ 4 ≤ (1 : Rat) + 1 / 2 ^ 50 := by unfold ulp; norm_num
  have x1 : X * (1 - 1 / 2 ^ 50) ≤ x := le_trans (mul_le_mul_of_nonneg_left a1 hX0.le) hxr.1
  have x2 : x ≤ X * (1 + 1 / 2 ^ 50) := le_trans hxr.2 (mul_le_mul_of_nonneg_left a2 hX0.le)
  obtain ⟨n, hn, n0, n1, n2⟩ := toFixed0_near hx0 (by
    have : (10 : Rat) ^ 20 * (1 + 1 / 2 ^ 50) < 10 ^ 21 := by norm_num
    have : X * (1 + 1 / 2 ^ 50) ≤ 10 ^ 20 * (1 + 1 / 2 ^ 50) := mul_le_mul_of_nonneg_right hX (by norm_num)
    linarith)
  have hD : (1 : Int) ≤ 10 ^ m.baseDecimals * m.quoteLotSize := by
    have : (1 : Int) ≤ 10 ^ m.baseDecimals := one_le_pow₀ (by norm_num)
    have := hm.quote.1
    nlinarith
  have hres : m.priceUiToLots (.fin v) = some (n.tdiv (10 ^ m.baseDecimals * m.quoteLotSize)) := by
    unfold Mkt.priceUiToLots toNative
    rw [hB, hw, hP, hx, hn, bnOfPow10_eq hm.baseDecimals]
    rfl
  have hediv : n.tdiv (10 ^ m.baseDecimals * m.quoteLotSize) = n / (10 ^ m.baseDecimals * m.quoteLotSize) := Int.tdiv_eq_ediv_of_nonneg n0
  rw [hediv] at hres
  generalize hp : n / (10 ^ m.baseDecimals * m.quoteLotSize) = p at *
  have hpD : (10 ^ m.baseDecimals * m.quoteLotSize) * p ≤ n ∧ n < (10 ^ m.baseDecimals * m.quoteLotSize) * (p + 1) := by
    have h1 := Int.mul_ediv_self_le (x := n) (k := 10 ^ m.baseDecimals * m.quoteLotSize) (by omega)
    have h2 := Int.lt_mul_ediv_self_add (x := n) (k := 10 ^ m.baseDecimals * m.quoteLotSize) (by omega)
    rw [hp] at h1 h2
    exact ⟨h1, by rw [mul_add, mul_one]; exact h2⟩
  have hlot : Spec.lotPrice m = ((10 ^ m.baseDecimals * m.quoteLotSize : Int) : Rat) / (m.baseLotSize * 10 ^ m.quoteDecimals) := by
    unfold Spec.lotPrice
    rw [zpow_sub₀ (by norm_num), zpow_natCast, zpow_natCast]
    push_cast
    field_simp
  have hS : (0 : Rat) < m.baseLotSize * 10 ^ m.quoteDecimals := by positivity
  have hvX : v = X / (m.baseLotSize * 10 ^ m.quoteDecimals) := by rw [← hXe]; field_simp
  generalize (10 ^ m.baseDecimals * m.quoteLotSize : Int) = D at *
  have q1 : ((D * p : Int) : Rat) ≤ n := by exact_mod_cast hpD.1
  have q2 : (n : Rat) < ((D * (p + 1) : Int) : Rat) := by exact_mod_cast hpD.2
  push_cast at q1 q2
  refine ⟨p, hres, ?_, ?_, ?_⟩
  · rw [← hp]; exact Int.ediv_nonneg n0 (by omega)
  · rw [hlot, hvX, mul_assoc 2]
    generalize (m.baseLotSize : Rat) * 10 ^ m.quoteDecimals = S at *
    have e1 : (p : Rat) * ((D : Rat) / S) = (D * p) / S := by ring
    have e2 : X / S * (1 + 1 / 2 ^ 50) + 1 / (2 * S) = (X * (1 + 1 / 2 ^ 50) + 1 / 2) / S := by field_simp
    rw [e1, e2]
    exact div_le_div_of_nonneg_right (by linarith) hS.le
  · rw [hlot, hvX, mul_assoc 2]
    generalize (m.baseLotSize : Rat) * 10 ^ m.quoteDecimals = S at *
    have e1 : ((p : Rat) + 1) * ((D : Rat) / S) = (D * (p + 1)) / S := by ring
    have e2 : X / S * (1 - 1 / 2 ^ 50) - 1 / (2 * S) = (X * (1 - 1 / 2 ^ 50) - 1 / 2) / S := by field_simp
    rw [e1, e2]
    exact div_lt_div_of_pos_right (by linarith) hS

/-- A typed price, with the function outside the class. -/
theorem free_entered {m : Mkt} {v : Rat} (hm : Spec.UiMarket m) (hv : 1 / 10 ^ 20 ≤ v) (hX : v * 10 ^ m.quoteDecimals ≤ 10 ^ 20) :
    ∃ p, m.uiPriceToLots (.fin v) = some p ∧ 0 ≤ p ∧
      p * Spec.lotPrice m ≤ v * (1 + 1 / 2 ^ 50) + 1 / (2 * 10 ^ m.quoteDecimals) ∧
      v * (1 - 1 / 2 ^ 50) - 1 / (2 * 10 ^ m.quoteDecimals) < (p + 1) * Spec.lotPrice m := by
  obtain ⟨P, hP, hPr⟩ := rnd_pow10 (d := m.quoteDecimals) (by have := hm.quoteDecimals; omega)
  have hb1 : (1 : Rat) ≤ m.baseLotSize := by exact_mod_cast hm.base.1
  have hb0 : (0 : Rat) < m.baseLotSize := by linarith
  have hq1 : (1 : Rat) ≤ 10 ^ m.quoteDecimals := one_le_pow₀ (by norm_num)
  have hq0 : (0 : Rat) < 10 ^ m.quoteDecimals := by linarith
  have hv0 : (0 : Rat) < v := lt_of_lt_of_le (by norm_num) hv
  have hvq : v ≤ v * 10 ^ m.quoteDecimals := le_mul_of_one_le_right hv0.le hq1
  have lo : (2 : Rat) ^ (-250 : Int) ≤ 1 / 10 ^ 20 := by norm_num
  have hi : (10 : Rat) ^ 20 ≤ 2 ^ (250 : Int) := by norm_num
  have m2 : Mid (v * 10 ^ m.quoteDecimals) := ⟨le_trans lo (le_trans hv hvq), le_trans hX hi⟩
  obtain ⟨x, hx, hxr⟩ := (Rel.refl v).fmul hPr hv0.le hq0.le m2 (by omega)
  generalize hXe : v * 10 ^ m.quoteDecimals = X at *
  have hX0 : 0 < X := m2.pos
  have hx0 := hxr.nonneg hX0.le
  have a1 : (1 : Rat) - 1 / 2 ^ 50 ≤ (1 - ulp) ^ 2 := by unfold ulp; norm_num
  have a2 : (1 + ulp) ^ 2 ≤ (1 : Rat) + 1 / 2 ^ 50 := by unfold ulp; norm_num
  have x1 : X * (1 - 1 / 2 ^ 50) ≤ x := le_trans (mul_le_mul_of_nonneg_left a1 hX0.le) hxr.1
  have x2 : x ≤ X * (1 + 1 / 2 ^ 50) := le_trans hxr.2 (mul_le_mul_of_nonneg_left a2 hX0.le)
  obtain ⟨n, hn, n0, n1, n2⟩ := toFixed0_near hx0 (by
    have : (10 : Rat) ^ 20 * (1 + 1 / 2 ^ 50) < 10 ^ 21 := by norm_num
    have : X * (1 + 1 / 2 ^ 50) ≤ 10 ^ 20 * (1 + 1 / 2 ^ 50) := mul_le_mul_of_nonneg_right hX (by norm_num)
    linarith)
  have hD : (1 : Int) ≤ m.quoteLotSize * 10 ^ m.baseDecimals := by
    have : (1 : Int) ≤ 10 ^ m.baseDecimals := one_le_pow₀ (by norm_num)
    have := hm.quote.1
    nlinarith
  have nb0 : 0 ≤ n * m.baseLotSize := Int.mul_nonneg n0 (by have := hm.base.1; omega)
  have hres : m.uiPriceToLots (.fin v) = some ((n * m.baseLotSize).tdiv (m.quoteLotSize * 10 ^ m.baseDecimals)) := by
    unfold Mkt.uiPriceToLots toNative
    rw [hP, hx, hn, bnOfPow10_eq hm.baseDecimals]
    rfl
  have hediv : (n * m.baseLotSize).tdiv (m.quoteLotSize * 10 ^ m.baseDecimals) = (n * m.baseLotSize) / (m.quoteLotSize * 10 ^ m.baseDecimals) :=
    Int.tdiv_eq_ediv_of_nonneg nb0
  rw [hediv] at hres
  generalize hp : (n * m.baseLotSize) / (m.quoteLotSize * 10 ^ m.baseDecimals) = p at *
  have hpD : (m.quoteLotSize * 10 ^ m.baseDecimals) * p ≤ n * m.baseLotSize ∧ n * m.baseLotSize < (m.quoteLotSize * 10 ^ m.baseDecimals) * (p + 1) := by
    have h1 := Int.mul_ediv_self_le (x := n * m.baseLotSize) (k := m.quoteLotSize * 10 ^ m.baseDecimals) (by omega)
    have h2 := Int.lt_mul_ediv_self_add (x := n * m.baseLotSize) (k := m.quoteLotSize * 10 ^ m.baseDecimals) (by omega)
    rw [hp] at h1 h2
    exact ⟨h1, by rw [mul_add, mul_one]; exact h2⟩
  have hlot : Spec.lotPrice m = ((m.quoteLotSize * 10 ^ m.baseDecimals : Int) : Rat) / (m.baseLotSize * 10 ^ m.quoteDecimals) := by
    unfold Spec.lotPrice
    rw [zpow_sub₀ (by norm_num), zpow_natCast, zpow_natCast]
    push_cast
    field_simp
  have hvX : v = X / 10 ^ m.quoteDecimals := by rw [← hXe]; field_simp
  generalize (m.quoteLotSize * 10 ^ m.baseDecimals : Int) = D at *
  have q1 : ((D * p : Int) : Rat) ≤ ((n * m.baseLotSize : Int) : Rat) := by exact_mod_cast hpD.1
  have q2 : ((n * m.baseLotSize : Int) : Rat) < ((D * (p + 1) : Int) : Rat) := by exact_mod_cast hpD.2
  push_cast at q1 q2
  have r1 : (p : Rat) * (D / (m.baseLotSize * 10 ^ m.quoteDecimals)) ≤ n / 10 ^ m.quoteDecimals := by
    rw [← mul_div_assoc, div_le_div_iff₀ (by positivity) hq0]
    nlinarith
  have r2 : (n : Rat) / 10 ^ m.quoteDecimals < (p + 1) * (D / (m.baseLotSize * 10 ^ m.quoteDecimals)) := by
    rw [← mul_div_assoc, div_lt_div_iff₀ hq0 (by positivity)]
    nlinarith
  have e1 : (1 : Rat) / (2 * 10 ^ m.quoteDecimals) = (1 / 2) / 10 ^ m.quoteDecimals := by field_simp
  refine ⟨p, hres, ?_, ?_, ?_⟩
  · rw [← hp]; exact Int.ediv_nonneg nb0 (by omega)
  · rw [hlot, hvX, e1]
    refine le_trans r1 ?_
    rw [div_mul_eq_mul_div, ← add_div]
    exact div_le_div_of_nonneg_right (by linarith) hq0.le
  · rw [hlot, hvX, e1]
    refine lt_of_le_of_lt ?_ r2
    rw [div_mul_eq_mul_div, ← sub_div]
    exact div_le_div_of_nonneg_right (by linarith) hq0.le

end OB.Ui
