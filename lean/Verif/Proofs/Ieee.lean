import Verif.Spec.Ieee
import Verif.Proofs.Float
/-! Rounding in the model is that of the standard. -/
namespace OB
open Spec

theorem roundEven_tie {t : Rat} (h : |(roundEven t : Rat) - t| = 1 / 2) : roundEven t % 2 = 0 := by
  have h1 : (t.floor : Rat) ≤ t := Int.floor_le t
  have h2 : t < t.floor + 1 := Int.lt_floor_add_one t
  unfold roundEven at h ⊢
  simp only at h ⊢
  split
  next c =>
    rw [if_pos c] at h
    rw [abs_of_nonpos (by linarith)] at h
    linarith
  next c =>
    rw [if_neg c] at h
    split
    next c2 =>
      rw [if_pos c2] at h
      push_cast at h
      rw [abs_of_nonneg (by linarith)] at h
      linarith
    next c2 =>
      split
      next c3 => exact c3
      next c3 => omega

theorem roundEven_best (t : Rat) (n : Int) : |t - roundEven t| ≤ |t - n| ∧ (n ≠ roundEven t → |t - n| = |t - roundEven t| → roundEven t % 2 = 0) := by
  have h := roundEven_near t
  rw [abs_sub_comm] at h
  by_cases hn : n = roundEven t
  · subst hn; exact ⟨le_refl _, fun h => absurd rfl h⟩
  have h1 : (1 : Rat) ≤ |(n : Rat) - roundEven t| := by
    have : (1 : Int) ≤ |n - roundEven t| := Int.one_le_abs (sub_ne_zero.mpr hn)
    exact_mod_cast this
  have h2 : |(n : Rat) - roundEven t| ≤ |t - n| + |t - roundEven t| := by
    have e : (n : Rat) - roundEven t = (t - roundEven t) - (t - n) := by ring
    rw [e]
    have := abs_sub (t - (roundEven t : Rat)) (t - n)
    linarith
  refine ⟨by linarith, fun _ he => roundEven_tie ?_⟩
  rw [abs_sub_comm]
  linarith

theorem roundEven_abs_le {t : Rat} {N : Int} (h : |t| < N) : |roundEven t| ≤ N := by
  have h1 := abs_le.mp (roundEven_near t)
  have h2 := abs_lt.mp h
  rw [abs_le]
  have a : (roundEven t : Rat) < N + 1 := by linarith
  have b : (-N - 1 : Rat) < roundEven t := by linarith
  have a' : roundEven t < N + 1 := by exact_mod_cast a
  have b' : -N - 1 < roundEven t := by exact_mod_cast b
  omega

theorem roundEven_abs_ge {t : Rat} {N : Int} (h : (N : Rat) ≤ |t|) : N ≤ |roundEven t| := by
  have h1 := abs_le.mp (roundEven_near t)
  rcases le_total 0 t with ht | ht
  · rw [abs_of_nonneg ht] at h
    have a : (N - 1 : Rat) < roundEven t := by linarith
    have a' : N - 1 < roundEven t := by exact_mod_cast a
    exact le_trans (by omega) (le_abs_self _)
  · rw [abs_of_nonpos ht] at h
    have a : (roundEven t : Rat) < -N + 1 := by linarith
    have a' : roundEven t < -N + 1 := by exact_mod_cast a
    exact le_trans (by omega) (neg_le_abs _)

/-- For an even bound. -/
theorem roundEven_top {t : Rat} {N : Int} (h : |t| < N) (hN : N % 2 = 0) : |roundEven t| = N ↔ (N : Rat) - 1 / 2 ≤ |t| := by
  have h1 := abs_le.mp (roundEven_near t)
  have hle := roundEven_abs_le h
  constructor
  · intro he
    have : (N : Rat) = |(roundEven t : Rat)| := by rw [← he]; push_cast; rfl
    have h2 : |(roundEven t : Rat)| ≤ |t| + |(roundEven t : Rat) - t| := by
      have e : (roundEven t : Rat) = t + ((roundEven t : Rat) - t) := by ring
      conv_lhs => rw [e]
      exact abs_add_le _ _
    have := roundEven_near t
    linarith
  · intro hge
    have hN1 : N - 1 ≤ |roundEven t| := by
      apply roundEven_abs_ge
      push_cast
      linarith
    by_contra hne
    have heq : |roundEven t| = N - 1 := by omega
    -- the distance is one half, so the result would be even
    rcases le_total 0 t with ht | ht
    · have h0 := roundEven_nonneg ht
      rw [abs_of_nonneg h0] at heq
      rw [abs_of_nonneg ht] at hge
      have e : (roundEven t : Rat) = N - 1 := by rw [heq]; push_cast; rfl
      have := roundEven_tie (t := t) (by
        rw [abs_of_nonpos (by rw [e]; linarith)]
        rw [e] at h1 ⊢
        linarith)
      omega
    · have h0 := roundEven_nonpos ht
      rw [abs_of_nonpos h0] at heq
      rw [abs_of_nonpos ht] at hge
      have e : (roundEven t : Rat) = -N + 1 := by
        have : roundEven t = -N + 1 := by omega
        rw [this]; push_cast; rfl
      have := roundEven_tie (t := t) (by
        rw [abs_of_nonneg (by rw [e]; linarith)]
        rw [e] at h1 ⊢
        linarith)
      omega

theorem evenDouble_zero : EvenDouble 0 := ⟨0, -1074, by norm_num, .inr rfl, le_refl _, by norm_num, by norm_num, by norm_num⟩

theorem even_isDouble {v : Rat} (h : EvenDouble v) : IsDouble v := by
  obtain ⟨m, e, h1, _, h3, h4, h5, _⟩ := h
  exact ⟨m, e, h1, h3, h4, h5⟩

theorem two_pos' (e : Int) : (0 : Rat) < 2 ^ e := by positivity

theorem two_le {a b : Int} (h : a ≤ b) : (2 : Rat) ^ a ≤ 2 ^ b := zpow_le_zpow_right₀ (by norm_num) h

theorem two_lt {a b : Int} (h : (2 : Rat) ^ a < 2 ^ b) : a < b := by
  by_contra hc
  exact absurd (two_le (not_lt.mp hc)) (not_le.mpr h)

theorem two_add (a b : Int) : (2 : Rat) ^ (a + b) = 2 ^ a * 2 ^ b := zpow_add₀ (by norm_num) a b

theorem two_lt' {a b : Int} (h : a < b) : (2 : Rat) ^ a < 2 ^ b := zpow_lt_zpow_right₀ (by norm_num) h

theorem overflow_eq : overflowFrom = (2 : Rat) ^ (1024 : Int) - 2 ^ (970 : Int) := by
  unfold overflowFrom
  rw [show (1024 : Int) = ((1024 : Nat) : Int) by rfl, show (970 : Int) = ((970 : Nat) : Int) by rfl, zpow_natCast, zpow_natCast]

theorem binade : (2 : Rat) ^ (1023 : Int) + 2 ^ (970 : Int) ≤ 2 ^ (1024 : Int) := by
  have := two_le (show (970 : Int) ≤ 1023 by norm_num)
  rw [show (1024 : Int) = 1023 + 1 by norm_num, two_add 1023 1, zpow_one]
  generalize (2 : Rat) ^ (1023 : Int) = A at *
  generalize (2 : Rat) ^ (970 : Int) = B at *
  linarith

/-- Rounding is that of the standard. -/
theorem rnd_rounded (q : Rat) : RoundedTo q (F64.rnd q) := by
  by_cases hq : q = 0
  · subst hq
    refine .inl ⟨?_, 0, rfl, even_isDouble evenDouble_zero, fun w _ => by simp, fun _ _ _ _ => evenDouble_zero⟩
    have h := two_lt' (show (970 : Int) < 1024 by norm_num)
    rw [abs_zero, overflow_eq]
    generalize (2 : Rat) ^ (1024 : Int) = A at *
    generalize (2 : Rat) ^ (970 : Int) = B at *
    linarith
  obtain ⟨l1, l2⟩ := ilog2_spec hq
  unfold F64.rnd
  rw [if_neg hq]
  simp only [pow2_eq, absQ_eq]
  generalize hk : ilog2 q = k at *
  generalize he : max k (-1022) - 52 = e
  have hu := two_pos' e
  have he1 : -1074 ≤ e := by omega
  generalize ht : q / 2 ^ e = t
  have hqt : q = t * 2 ^ e := by rw [← ht]; field_simp
  have habs : |q| = |t| * 2 ^ e := by rw [hqt, abs_mul, abs_of_pos hu]
  have tlt : |t| < ((2 ^ 53 : Int) : Rat) := by
    have : |q| < 2 ^ (e + 53) := lt_of_lt_of_le l2 (two_le (by omega))
    rw [habs, two_add, mul_comm] at this
    have h3 := lt_of_mul_lt_mul_left this hu.le
    push_cast
    exact_mod_cast h3
  generalize hr : roundEven t = r
  have rle : |r| ≤ 2 ^ 53 := by rw [← hr]; exact roundEven_abs_le tlt
  have vabs : |(r : Rat) * 2 ^ e| = ((|r| : Int) : Rat) * 2 ^ e := by rw [abs_mul, abs_of_pos hu]; push_cast; rfl
  rw [vabs]
  have e52 : (2 : Rat) ^ (52 : Int) = ((2 ^ 52 : Int) : Rat) := by norm_num
  have rge : -1022 ≤ k → 2 ^ 52 ≤ |r| := by
    intro hkn
    rw [← hr]
    apply roundEven_abs_ge
    have h3 : (2 : Rat) ^ (e + 52) ≤ |q| := le_trans (two_le (by omega)) l1
    rw [habs, two_add, mul_comm] at h3
    have h4 := le_of_mul_le_mul_right h3 hu
    rw [e52] at h4
    exact h4
  -- overflow
  have over : (2 : Rat) ^ (1024 : Int) ≤ ((|r| : Int) : Rat) * 2 ^ e ↔ overflowFrom ≤ |q| := by
    have hof := overflow_eq
    have h970 := binade
    rcases lt_trichotomy k 1023 with hlt | heq | hgt
    · -- small
      have hq1 : |q| < 2 ^ (1023 : Int) := lt_of_lt_of_le l2 (two_le (by omega))
      have hv1 : ((|r| : Int) : Rat) * 2 ^ e ≤ 2 ^ (1023 : Int) := by
        have a : ((|r| : Int) : Rat) ≤ 2 ^ (53 : Int) := by
          have : ((|r| : Int) : Rat) ≤ ((2 ^ 53 : Int) : Rat) := by exact_mod_cast rle
          refine le_trans this (by norm_num)
        have b : ((|r| : Int) : Rat) * 2 ^ e ≤ 2 ^ (53 : Int) * 2 ^ e := mul_le_mul_of_nonneg_right a hu.le
        rw [← two_add] at b
        exact le_trans b (two_le (by omega))
      have h3 := two_lt' (show (1023 : Int) < 1024 by norm_num)
      rw [hof]
      generalize (2 : Rat) ^ (1024 : Int) = A at *
      generalize (2 : Rat) ^ (1023 : Int) = B at *
      generalize (2 : Rat) ^ (970 : Int) = C at *
      constructor
      · intro h; linarith
      · intro h; linarith
    · -- the last binade
      have hee : e = 971 := by omega
      have h53 : (2 : Rat) ^ (1024 : Int) = ((2 ^ 53 : Int) : Rat) * 2 ^ e := by
        rw [hee, show (1024 : Int) = 53 + 971 by norm_num, two_add]
        norm_num
      have h52 : (2 : Rat) ^ (970 : Int) = 1 / 2 * 2 ^ e := by
        rw [hee, show (971 : Int) = 970 + 1 by norm_num, two_add, zpow_one]
        ring
      have htop := roundEven_top tlt (by norm_num)
      rw [hr] at htop
      constructor
      · intro h
        rw [h53] at h
        have h3 := le_of_mul_le_mul_right h hu
        have h4 : (2 ^ 53 : Int) ≤ |r| := by exact_mod_cast h3
        have h5 := htop.mp (le_antisymm rle h4)
        rw [hof, h53, h52, habs, ← sub_mul]
        exact mul_le_mul_of_nonneg_right h5 hu.le
      · intro h
        rw [hof, h53, h52, habs, ← sub_mul] at h
        have h5 := htop.mpr (le_of_mul_le_mul_right h hu)
        rw [h5, h53]
    · have h1 : (2 : Rat) ^ (1024 : Int) ≤ |q| := le_trans (two_le (by omega)) l1
      constructor
      · intro _
        have := two_pos' 970
        rw [hof]
        generalize (2 : Rat) ^ (1024 : Int) = A at *
        generalize (2 : Rat) ^ (970 : Int) = C at *
        linarith
      · intro _
        have a : (2 : Rat) ^ (52 : Int) ≤ ((|r| : Int) : Rat) := by rw [e52]; exact_mod_cast rge (by omega)
        have b : (2 : Rat) ^ (52 : Int) * 2 ^ e ≤ ((|r| : Int) : Rat) * 2 ^ e := mul_le_mul_of_nonneg_right a hu.le
        rw [← two_add] at b
        exact le_trans (two_le (by omega)) b
  by_cases hov : (2 : Rat) ^ (1024 : Int) ≤ ((|r| : Int) : Rat) * 2 ^ e
  · rw [if_pos hov]
    exact .inr ⟨over.mp hov, rfl⟩
  rw [if_neg hov]
  refine .inl ⟨not_le.mp (fun h => hov (over.mpr h)), _, rfl, ?_⟩
  -- the form of the result
  have form : ∃ m f : Int, |m| < 2 ^ 53 ∧ (2 ^ 52 ≤ |m| ∨ f = -1074) ∧ -1074 ≤ f ∧ f ≤ 971 ∧ (r : Rat) * 2 ^ e = m * 2 ^ f ∧ (r % 2 = 0 → m % 2 = 0) := by
    have e971 : ∀ (M f : Int), 2 ^ 52 ≤ M → (M : Rat) * 2 ^ f < 2 ^ (1024 : Int) → f ≤ 971 := by
      intro M f hM h
      have a : (2 : Rat) ^ (52 : Int) ≤ (M : Rat) := by rw [e52]; exact_mod_cast hM
      have b : (2 : Rat) ^ (52 : Int) * 2 ^ f ≤ (M : Rat) * 2 ^ f := mul_le_mul_of_nonneg_right a (two_pos' f).le
      rw [← two_add] at b
      have := two_lt (lt_of_le_of_lt b h)
      omega
    have hlt := not_le.mp hov
    rcases lt_or_eq_of_le rle with h | h
    · refine ⟨r, e, h, ?_, he1, ?_, rfl, id⟩
      · by_cases hkn : -1022 ≤ k
        · exact .inl (rge hkn)
        · exact .inr (by omega)
      · by_cases hkn : -1022 ≤ k
        · exact e971 _ _ (rge hkn) hlt
        · omega
    · have hr2 : ∃ m, r = 2 * m ∧ |m| = 2 ^ 52 := by
        rcases abs_choice r with hc | hc
        · refine ⟨2 ^ 52, by rw [← hc, h]; norm_num, by norm_num⟩
        · refine ⟨-2 ^ 52, by rw [hc] at h; omega, by norm_num⟩
      obtain ⟨m, hm, hm2⟩ := hr2
      have hv : (r : Rat) * 2 ^ e = m * 2 ^ (e + 1) := by rw [hm, two_add, zpow_one]; push_cast; ring
      refine ⟨m, e + 1, by omega, .inl (by omega), by omega, ?_, hv, fun _ => ?_⟩
      · apply e971 |m| (e + 1) (by omega)
        rw [hm2, two_add, zpow_one]
        rw [h] at hlt
        have : ((2 ^ 53 : Int) : Rat) * 2 ^ e = ((2 ^ 52 : Int) : Rat) * (2 ^ e * 2) := by push_cast; ring
        rw [← this]; exact hlt
      · rcases abs_choice m with hc | hc <;> omega
  obtain ⟨m, f, f1, f2, f3, f4, f5, f6⟩ := form
  -- any double is no nearer
  have best : ∀ w, IsDouble w → |q - r * 2 ^ e| ≤ |q - w| ∧ (w ≠ r * 2 ^ e → |q - w| = |q - r * 2 ^ e| → r % 2 = 0) := by
    rintro w ⟨a, c, a1, a2, a3, rfl⟩
    have multiple : ∀ n : Int, |q - r * 2 ^ e| ≤ |q - n * 2 ^ e| ∧ (n ≠ r → |q - n * 2 ^ e| = |q - r * 2 ^ e| → r % 2 = 0) := by
      intro n
      have e1 : ∀ x : Rat, |q - x * 2 ^ e| = |t - x| * 2 ^ e := by
        intro x; rw [hqt, ← sub_mul, abs_mul, abs_of_pos hu]
      obtain ⟨b1, b2⟩ := roundEven_best t n
      rw [hr] at b1 b2
      rw [e1, e1]
      exact ⟨mul_le_mul_of_nonneg_right b1 hu.le, fun hn hh => b2 hn (mul_right_cancel₀ hu.ne' hh)⟩
    rcases le_or_gt e c with hce | hce
    · obtain ⟨d, hd⟩ := Int.eq_ofNat_of_zero_le (show 0 ≤ c - e by omega)
      have hw : (a : Rat) * 2 ^ c = ((a * 2 ^ d : Int) : Rat) * 2 ^ e := by
        rw [show c = (d : Int) + e by omega, two_add, zpow_natCast]; push_cast; ring
      rw [hw]
      obtain ⟨b1, b2⟩ := multiple (a * 2 ^ d)
      exact ⟨b1, fun hne => b2 (fun h => hne (by rw [h]))⟩
    · -- finer than the result: below the binade of q
      have hkn : -1022 < k := by omega
      have hek : e = k - 52 := by omega
      have hwlt : |(a : Rat) * 2 ^ c| < 2 ^ k := by
        rw [abs_mul, abs_of_pos (two_pos' c)]
        have b : |(a : Rat)| < 2 ^ (53 : Int) := by
          have : ((|a| : Int) : Rat) < ((2 ^ 53 : Int) : Rat) := by exact_mod_cast a1
          push_cast at this
          exact lt_of_lt_of_le this (by norm_num)
        have b2 := mul_lt_mul_of_pos_right b (two_pos' c)
        rw [← two_add] at b2
        exact lt_of_lt_of_le b2 (two_le (by omega))
      have strict : |q - r * 2 ^ e| < |q - a * 2 ^ c| := by
        have h2k : (2 : Rat) ^ k = ((2 ^ 52 : Int) : Rat) * 2 ^ e := by
          rw [hek, show k = 52 + (k - 52) by ring, two_add, e52]; congr 2; ring
        have hw := abs_lt.mp hwlt
        rcases le_total 0 q with h0 | h0
        · obtain ⟨b1, _⟩ := multiple (2 ^ 52)
          rw [← h2k] at b1
          rw [abs_of_nonneg h0] at l1
          rw [abs_of_nonneg (show 0 ≤ q - 2 ^ k by linarith)] at b1
          rw [abs_of_nonneg (show 0 ≤ q - a * 2 ^ c by linarith)]
          linarith
        · obtain ⟨b1, _⟩ := multiple (-2 ^ 52)
          rw [Int.cast_neg, neg_mul, ← h2k] at b1
          rw [abs_of_nonpos h0] at l1
          rw [abs_of_nonpos (show q - -2 ^ k ≤ 0 by linarith)] at b1
          rw [abs_of_nonpos (show q - a * 2 ^ c ≤ 0 by linarith)]
          linarith
      exact ⟨strict.le, fun _ hh => absurd hh strict.ne'⟩
  exact ⟨⟨m, f, f1, f3, f4, f5⟩, fun w hw => (best w hw).1, fun w hw hne hh => ⟨m, f, f1, f2, f3, f4, f5, f6 ((best w hw).2 hne hh)⟩⟩

end OB
