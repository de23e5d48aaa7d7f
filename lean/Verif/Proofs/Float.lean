import Verif.Model.Oracle
import Mathlib.Data.Rat.Floor
import Mathlib.Tactic.Linarith
import Mathlib.Tactic.Positivity
import Mathlib.Tactic.FieldSimp
import Mathlib.Tactic.Ring
import Mathlib.Tactic.NormNum
import Mathlib.Algebra.Order.Field.Power
/-!
Rounding to doubles: error bounds.
-/
namespace OB

theorem absQ_eq (q : Rat) : absQ q = |q| := by
  unfold absQ
  split
  · rename_i h; rw [abs_of_neg h]
  · rename_i h; rw [abs_of_nonneg (not_lt.mp h)]

theorem pow2_eq (e : Int) : pow2 e = (2 : Rat) ^ e := by
  unfold pow2
  split
  · rename_i h
    obtain ⟨n, rfl⟩ := Int.eq_ofNat_of_zero_le h
    simp
  · rename_i h
    obtain ⟨n, hn⟩ := Int.eq_ofNat_of_zero_le (show 0 ≤ -e by omega)
    have : e = -(n : Int) := by omega
    subst this
    simp

theorem pow10_eq (e : Int) : pow10 e = (10 : Rat) ^ e := by
  unfold pow10
  split
  · rename_i h
    obtain ⟨n, rfl⟩ := Int.eq_ofNat_of_zero_le h
    simp
  · rename_i h
    obtain ⟨n, hn⟩ := Int.eq_ofNat_of_zero_le (show 0 ≤ -e by omega)
    have : e = -(n : Int) := by omega
    subst this
    simp

theorem roundEven_near (q : Rat) : |(roundEven q : Rat) - q| ≤ 1 / 2 := by
  have h1 : (q.floor : Rat) ≤ q := Int.floor_le q
  have h2 : q < q.floor + 1 := Int.lt_floor_add_one q
  unfold roundEven
  rw [abs_le]
  simp only
  split
  · constructor <;> linarith
  · split
    · push_cast; constructor <;> linarith
    · split
      · constructor <;> linarith
      · push_cast; constructor <;> linarith

theorem roundEven_nonneg {q : Rat} (h : 0 ≤ q) : 0 ≤ roundEven q := by
  have h1 : 0 ≤ q.floor := Int.floor_nonneg.mpr h
  unfold roundEven
  simp only
  split
  · exact h1
  · split
    · omega
    · split <;> omega

theorem roundEven_nonpos {q : Rat} (h : q ≤ 0) : roundEven q ≤ 0 := by
  have h1 := (abs_le.mp (roundEven_near q)).2
  have : (roundEven q : Rat) < 1 := by linarith
  have : roundEven q < 1 := by exact_mod_cast this
  omega

theorem log2_bounds {n : Nat} (h : n ≠ 0) : (2 : Rat) ^ (Nat.log2 n : Int) ≤ n ∧ (n : Rat) < 2 ^ ((Nat.log2 n : Int) + 1) := by
  constructor
  · rw [zpow_natCast]; exact_mod_cast Nat.log2_self_le h
  · have : (n : Rat) < 2 ^ (Nat.log2 n + 1) := by exact_mod_cast Nat.lt_log2_self
    exact_mod_cast this

theorem ilog2_spec {q : Rat} (h : q ≠ 0) : (2 : Rat) ^ ilog2 q ≤ |q| ∧ |q| < 2 ^ (ilog2 q + 1) := by
  have hn : q.num.natAbs ≠ 0 := by
    intro e; exact h (Rat.num_eq_zero.mp (Int.natAbs_eq_zero.mp e))
  obtain ⟨a1, a2⟩ := log2_bounds hn
  obtain ⟨b1, b2⟩ := log2_bounds q.den_nz
  have hq : |q| = (q.num.natAbs : Rat) / q.den := by
    conv_lhs => rw [← Rat.num_div_den q]
    rw [abs_div, Nat.abs_cast]
    congr 1
    rw [← Int.cast_natCast (R := Rat), Int.natCast_natAbs, Int.cast_abs]
  have hd : (0 : Rat) < q.den := by exact_mod_cast q.den_pos
  generalize hla : (Nat.log2 q.num.natAbs : Int) = la at *
  generalize hlb : (Nat.log2 q.den : Int) = lb at *
  have up : |q| < 2 ^ (la - lb + 1) := by
    rw [hq, div_lt_iff₀ hd]
    calc (q.num.natAbs : Rat) < 2 ^ (la + 1) := a2
      _ = 2 ^ (la - lb + 1) * 2 ^ lb := by rw [← zpow_add₀ (by norm_num)]; congr 1; ring
      _ ≤ 2 ^ (la - lb + 1) * q.den := by
        have : (0 : Rat) < 2 ^ (la - lb + 1) := by positivity
        exact mul_le_mul_of_nonneg_left b1 this.le
  have lo : (2 : Rat) ^ (la - lb - 1) ≤ |q| := by
    rw [hq, le_div_iff₀ hd]
    calc (2 : Rat) ^ (la - lb - 1) * q.den ≤ 2 ^ (la - lb - 1) * 2 ^ (lb + 1) := by
          have : (0 : Rat) < 2 ^ (la - lb - 1) := by positivity
          exact mul_le_mul_of_nonneg_left b2.le this.le
      _ = 2 ^ la := by rw [← zpow_add₀ (by norm_num)]; congr 1; ring
      _ ≤ q.num.natAbs := a1
  unfold ilog2
  simp only [hla, hlb, pow2_eq, absQ_eq]
  split
  · rename_i hc; exact ⟨hc, up⟩
  · rename_i hc
    refine ⟨lo, ?_⟩
    rw [show la - lb - 1 + 1 = la - lb by ring]; exact not_le.mp hc

/-- Relative error of one rounding. -/
def ulp : Rat := 1 / 9007199254740992

theorem ulp_eq : ulp = 2 ^ (-53 : Int) := by unfold ulp; norm_num

namespace F64

theorem rnd_zero : rnd 0 = .fin 0 := rfl

theorem rnd_error {q v : Rat} (h : rnd q = .fin v) : |v - q| ≤ |q| * ulp + 2 ^ (-1075 : Int) ∧ ((2 : Rat) ^ (-1022 : Int) ≤ |q| → |v - q| ≤ |q| * ulp) ∧
    (0 ≤ q → 0 ≤ v) ∧ (q ≤ 0 → v ≤ 0) := by
  unfold rnd at h
  by_cases hq : q = 0
  · rw [if_pos hq] at h; injection h with h; subst h; subst hq
    refine ⟨by simp only [sub_self, abs_zero, zero_mul, zero_add]; positivity, fun _ => by simp, fun _ => le_refl _, fun _ => le_refl _⟩
  · rw [if_neg hq] at h
    simp only [pow2_eq, absQ_eq] at h
    split at h
    · cases h
    · injection h with h
      obtain ⟨l1, l2⟩ := ilog2_spec hq
      generalize he : max (ilog2 q) (-1022) - 52 = e at h
      have hu : (0 : Rat) < 2 ^ e := by positivity
      have near := roundEven_near (q / 2 ^ e)
      have key : |v - q| ≤ 2 ^ e / 2 := by
        have : v - q = ((roundEven (q / 2 ^ e) : Rat) - q / 2 ^ e) * 2 ^ e := by
          rw [← h]; field_simp
        rw [this, abs_mul, abs_of_pos hu]
        nlinarith
      have normal : ilog2 q ≥ -1022 → |v - q| ≤ |q| * ulp := by
        intro hge
        have e1 : e = ilog2 q + -52 := by rw [← he, max_eq_left hge]; ring
        calc |v - q| ≤ 2 ^ e / 2 := key
          _ = 2 ^ ilog2 q * ulp := by
            rw [e1, zpow_add₀ (by norm_num), ulp]; norm_num; ring
          _ ≤ |q| * ulp := mul_le_mul_of_nonneg_right l1 (by unfold ulp; norm_num)
      refine ⟨?_, ?_, ?_, ?_⟩
      · by_cases hge : ilog2 q ≥ -1022
        · have := normal hge
          have : (0 : Rat) < 2 ^ (-1075 : Int) := by positivity
          linarith
        · have e1 : e = -1074 := by rw [← he, max_eq_right (by omega)]; norm_num
          have e2 : (2 : Rat) ^ e / 2 = 2 ^ (-1075 : Int) := by
            rw [e1, show (-1074 : Int) = -1075 + 1 by norm_num, zpow_add₀ (by norm_num)]; simp
          rw [e2] at key
          have : 0 ≤ |q| * ulp := mul_nonneg (abs_nonneg _) (by unfold ulp; norm_num)
          linarith
      · intro hmin
        refine normal ?_
        by_contra hc
        have : ilog2 q + 1 ≤ -1022 := by omega
        have := zpow_le_zpow_right₀ (show (1 : Rat) ≤ 2 by norm_num) this
        linarith
      · intro h0
        rw [← h]
        have := roundEven_nonneg (div_nonneg h0 hu.le)
        have : (0 : Rat) ≤ roundEven (q / 2 ^ e) := by exact_mod_cast this
        exact mul_nonneg this hu.le
      · intro h0
        rw [← h]
        have := roundEven_nonpos (div_nonpos_of_nonpos_of_nonneg h0 hu.le)
        have : (roundEven (q / 2 ^ e) : Rat) ≤ 0 := by exact_mod_cast this
        exact mul_nonpos_of_nonpos_of_nonneg this hu.le

/-- No overflow well below the largest double. -/
theorem rnd_finite {q : Rat} (h : |q| ≤ 2 ^ (1023 : Int)) : ∃ v, rnd q = .fin v := by
  cases hr : rnd q with
  | fin v => exact ⟨v, rfl⟩
  | nan =>
    unfold rnd at hr
    split at hr
    · cases hr
    · simp only at hr; split at hr <;> cases hr
  | inf s =>
    exfalso
    unfold rnd at hr
    by_cases hq : q = 0
    · rw [if_pos hq] at hr; cases hr
    · rw [if_neg hq] at hr
      simp only [pow2_eq, absQ_eq] at hr
      split at hr
      · rename_i hc
        obtain ⟨l1, l2⟩ := ilog2_spec hq
        generalize he : max (ilog2 q) (-1022) - 52 = e at hc
        have hu : (0 : Rat) < 2 ^ e := by positivity
        have near := roundEven_near (q / 2 ^ e)
        have key : |(roundEven (q / 2 ^ e) : Rat) * 2 ^ e - q| ≤ 2 ^ e / 2 := by
          have : (roundEven (q / 2 ^ e) : Rat) * 2 ^ e - q = ((roundEven (q / 2 ^ e) : Rat) - q / 2 ^ e) * 2 ^ e := by field_simp
          rw [this, abs_mul, abs_of_pos hu]
          nlinarith
        have hle : e ≤ 1022 := by
          have : ilog2 q ≤ 1023 := by
            by_contra hc
            have h2 : (1023 : Int) + 1 ≤ ilog2 q := by omega
            have := zpow_le_zpow_right₀ (show (1 : Rat) ≤ 2 by norm_num) h2
            have h3 : (2 : Rat) ^ (1023 : Int) < 2 ^ ((1023 : Int) + 1) := zpow_lt_zpow_right₀ (by norm_num) (by norm_num)
            linarith
          rw [← he]
          have : max (ilog2 q) (-1022) ≤ 1023 := max_le this (by norm_num)
          omega
        have h3 := zpow_le_zpow_right₀ (show (1 : Rat) ≤ 2 by norm_num) hle
        have h4 := abs_sub_abs_le_abs_sub ((roundEven (q / 2 ^ e) : Rat) * 2 ^ e) q
        have h5 : (2 : Rat) ^ (1024 : Int) = 2 ^ (1023 : Int) * 2 := by
          rw [show (1024 : Int) = 1023 + 1 by norm_num, zpow_add₀ (by norm_num)]; simp
        have h6 : (2 : Rat) ^ (1023 : Int) = 2 ^ (1022 : Int) * 2 := by
          rw [show (1023 : Int) = 1022 + 1 by norm_num, zpow_add₀ (by norm_num)]; simp
        have h7 : (0 : Rat) < 2 ^ (1022 : Int) := by positivity
        rw [h5, h6] at hc
        rw [h6] at h
        clear h5 h6 near l1 l2
        generalize (2 : Rat) ^ (1022 : Int) = A at *
        generalize |(roundEven (q / 2 ^ e) : Rat) * 2 ^ e| = B at *
        generalize |(roundEven (q / 2 ^ e) : Rat) * 2 ^ e - q| = C at *
        generalize |q| = D at *
        generalize (2 : Rat) ^ e = E at *
        linarith
      · cases hr

end F64
end OB
