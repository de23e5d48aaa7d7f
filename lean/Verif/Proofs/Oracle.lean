import Verif.Proofs.Float
import Verif.Proofs.Basic
import Verif.Spec.Oracle
/-!
Oracle prices: freshness, confidence, accuracy.
-/
namespace OB
open Spec

/-- `y` is `x` up to `n` roundings. -/
def Rel (n : Nat) (x y : Rat) : Prop := ∃ t : Rat, y = x * t ∧ (1 - ulp) ^ n ≤ t ∧ t * (1 - ulp) ^ n ≤ 1

theorem ulp_pos : 0 < ulp := by unfold ulp; norm_num
theorem ulp_lt : ulp < 1 := by unfold ulp; norm_num
theorem one_sub_ulp : 0 < 1 - ulp := by have := ulp_lt; linarith

theorem Rel.refl (x : Rat) : Rel 0 x x := ⟨1, by ring, by simp, by simp⟩

theorem Rel.trans {n m : Nat} {x y z : Rat} (h : Rel n x y) (h' : Rel m y z) : Rel (n + m) x z := by
  obtain ⟨t, e, a, b⟩ := h
  obtain ⟨t', e', a', b'⟩ := h'
  have p1 : 0 < (1 - ulp) ^ n := pow_pos one_sub_ulp n
  have p2 : 0 < (1 - ulp) ^ m := pow_pos one_sub_ulp m
  refine ⟨t * t', by rw [e', e]; ring, ?_, ?_⟩
  · rw [pow_add]; exact mul_le_mul a a' p2.le (by linarith)
  · rw [pow_add, show t * t' * ((1 - ulp) ^ n * (1 - ulp) ^ m) = (t * (1 - ulp) ^ n) * (t' * (1 - ulp) ^ m) by ring]
    exact mul_le_one₀ b (mul_nonneg (by linarith) p2.le) b'

theorem Rel.mul {n m : Nat} {x y x' y' : Rat} (h : Rel n x y) (h' : Rel m x' y') : Rel (n + m) (x * x') (y * y') := by
  obtain ⟨t, e, a, b⟩ := h
  obtain ⟨t', e', a', b'⟩ := h'
  have p1 : 0 < (1 - ulp) ^ n := pow_pos one_sub_ulp n
  have p2 : 0 < (1 - ulp) ^ m := pow_pos one_sub_ulp m
  refine ⟨t * t', by rw [e', e]; ring, ?_, ?_⟩
  · rw [pow_add]; exact mul_le_mul a a' p2.le (by linarith)
  · rw [pow_add, show t * t' * ((1 - ulp) ^ n * (1 - ulp) ^ m) = (t * (1 - ulp) ^ n) * (t' * (1 - ulp) ^ m) by ring]
    exact mul_le_one₀ b (mul_nonneg (by linarith) p2.le) b'

theorem Rel.inv {n : Nat} {x y : Rat} (h : Rel n x y) : Rel n x⁻¹ y⁻¹ := by
  obtain ⟨t, e, a, b⟩ := h
  have p1 : 0 < (1 - ulp) ^ n := pow_pos one_sub_ulp n
  have ht : 0 < t := by linarith
  refine ⟨t⁻¹, by rw [e, mul_inv], ?_, ?_⟩
  · rw [le_inv_comm₀ p1 ht, ← one_div, le_div_iff₀ p1]; exact b
  · rw [inv_mul_le_iff₀ ht]; linarith

theorem Rel.div {n m : Nat} {x y x' y' : Rat} (h : Rel n x y) (h' : Rel m x' y') : Rel (n + m) (x / x') (y / y') := by
  rw [div_eq_mul_inv, div_eq_mul_inv]; exact h.mul h'.inv

theorem Rel.mono {n m : Nat} {x y : Rat} (h : Rel n x y) (hm : n ≤ m) : Rel m x y := by
  obtain ⟨k, rfl⟩ := Nat.exists_eq_add_of_le hm
  refine h.trans ⟨1, by ring, ?_, ?_⟩
  · exact pow_le_one₀ one_sub_ulp.le (by have := ulp_pos; linarith)
  · rw [one_mul]; exact pow_le_one₀ one_sub_ulp.le (by have := ulp_pos; linarith)

theorem Rel.zero_iff {n : Nat} {x y : Rat} (h : Rel n x y) : y = 0 ↔ x = 0 := by
  obtain ⟨t, e, a, _⟩ := h
  have p1 : 0 < (1 - ulp) ^ n := pow_pos one_sub_ulp n
  have ht : t ≠ 0 := by intro h0; rw [h0] at a; linarith
  rw [e]; simp [ht]

theorem Rel.nonneg_iff {n : Nat} {x y : Rat} (h : Rel n x y) : 0 ≤ y ↔ 0 ≤ x := by
  obtain ⟨t, e, a, _⟩ := h
  have p1 : 0 < (1 - ulp) ^ n := pow_pos one_sub_ulp n
  rw [e]; exact mul_nonneg_iff_of_pos_right (by linarith)

/-- The factor of a few roundings is about one. -/
theorem Rel.factor {n : Nat} {x y : Rat} (h : Rel n x y) (hn : n ≤ 20) : ∃ t : Rat, y = x * t ∧ 1 / 2 ≤ t ∧ t ≤ 2 := by
  obtain ⟨t, e, a, b⟩ := h.mono hn
  have p1 : (1 : Rat) / 2 ≤ (1 - ulp) ^ 20 := by unfold ulp; norm_num
  generalize (1 - ulp) ^ 20 = P at *
  refine ⟨t, e, by linarith, ?_⟩
  by_contra hc
  have : 2 < t := not_le.mp hc
  nlinarith

/-- One rounding of a normal number, or zero. -/
theorem Rel.rnd {q v : Rat} (h : F64.rnd q = .fin v) (hq : q = 0 ∨ (2 : Rat) ^ (-1022 : Int) ≤ |q|) : Rel 1 q v := by
  rcases hq with rfl | hq
  · rw [F64.rnd_zero] at h; injection h with h; subst h
    exact ⟨1, by simp, by have := ulp_pos; linarith, by have := ulp_pos; linarith⟩
  · have he := (F64.rnd_error h).2.1 hq
    have hpos : 0 < |q| := lt_of_lt_of_le (by positivity) hq
    have hne : q ≠ 0 := abs_pos.mp hpos
    have e1 : v - q = q * (v / q - 1) := by field_simp
    rw [e1, abs_mul] at he
    have he : |v / q - 1| ≤ ulp := le_of_mul_le_mul_left he hpos
    obtain ⟨h1, h2⟩ := abs_le.mp he
    refine ⟨v / q, by field_simp, by rw [pow_one]; linarith, ?_⟩
    rw [pow_one]
    have := ulp_pos; have := ulp_lt
    nlinarith

/-- Bounds that a few roundings keep. -/
theorem Rel.bounds {n : Nat} {x y : Rat} (h : Rel n x y) (hn : n ≤ 20) (hx : 0 ≤ x) :
    x * (1 - 2 ^ (-48 : Int)) ≤ y ∧ y ≤ x * (1 + 2 ^ (-48 : Int)) := by
  obtain ⟨t, e, a, b⟩ := h.mono hn
  have e1 : 1 - (2 : Rat) ^ (-48 : Int) ≤ (1 - ulp) ^ 20 := by unfold ulp; norm_num
  have e2 : 1 ≤ (1 - ulp) ^ 20 * (1 + 2 ^ (-48 : Int)) := by unfold ulp; norm_num
  have p1 : 0 < (1 - ulp) ^ 20 := pow_pos one_sub_ulp 20
  have ht : t ≤ 1 + 2 ^ (-48 : Int) := by
    refine le_of_mul_le_mul_right ?_ p1
    calc t * (1 - ulp) ^ 20 ≤ 1 := b
      _ ≤ _ := by rw [mul_comm]; exact e2
  rw [e]
  exact ⟨mul_le_mul_of_nonneg_left (by linarith) hx, mul_le_mul_of_nonneg_left ht hx⟩


theorem assertR_ok {c : Prop} [Decidable c] {u : Unit} : assertR c = .ok u ↔ c := by
  unfold assertR req; split <;> simp_all

theorem fin_mul {a b : Rat} : F64.mul (.fin a) (.fin b) = F64.rnd (a * b) := rfl

theorem big (n : Nat) (hn : n ≤ 1022) : (2 : Rat) ^ (-1022 : Int) ≤ (2 : Rat) ^ (-(n : Int)) :=
  zpow_le_zpow_right₀ (by norm_num) (by omega)

/-- Powers of ten in the table, and their doubles. -/
theorem power_of_ten {d : Int} {x : F64} (h : powerOfTenFloat d = .ok x) :
    (-12 ≤ d ∧ d ≤ 12) ∧ ∃ v, x = .fin v ∧ Rel 1 ((10 : Rat) ^ d) v := by
  unfold powerOfTenFloat at h
  simp only [bind_ok, pure_ok, assertR_ok] at h
  obtain ⟨_, hd, rfl⟩ := h
  refine ⟨hd, ?_⟩
  rw [pow10_eq]
  have h1 : (10 : Rat) ^ (-12 : Int) ≤ (10 : Rat) ^ d := zpow_le_zpow_right₀ (by norm_num) hd.1
  have h2 : (10 : Rat) ^ d ≤ (10 : Rat) ^ (12 : Int) := zpow_le_zpow_right₀ (by norm_num) hd.2
  have h3 : (0 : Rat) < (10 : Rat) ^ d := by positivity
  have b1 : (2 : Rat) ^ (-1022 : Int) ≤ (10 : Rat) ^ (-12 : Int) := by
    refine le_trans (big 40 (by norm_num)) ?_
    norm_num
  have b2 : (10 : Rat) ^ (12 : Int) ≤ 2 ^ (1023 : Int) := by
    refine le_trans ?_ (zpow_le_zpow_right₀ (by norm_num) (show (40 : Int) ≤ 1023 by norm_num))
    norm_num
  obtain ⟨v, hv⟩ := F64.rnd_finite (q := (10 : Rat) ^ d) (by rw [abs_of_pos h3]; exact le_trans h2 b2)
  exact ⟨v, hv, Rel.rnd hv (.inr (by rw [abs_of_pos h3]; exact le_trans b1 h1))⟩

/-- An integer of at most 64 bits times a power of ten, as a double. -/
theorem scaled {z d : Int} {x : F64} (hz : |z| ≤ 2 ^ 64) (hx : powerOfTenFloat d = .ok x) :
    ∃ v, (F64.rnd z).mul x = .fin v ∧ Rel 3 (z * (10 : Rat) ^ d) v := by
  obtain ⟨hd, w, rfl, rw_⟩ := power_of_ten hx
  have hzq : |(z : Rat)| ≤ 2 ^ (64 : Int) := by
    have : ((|z| : Int) : Rat) ≤ ((2 ^ 64 : Int) : Rat) := by exact_mod_cast hz
    rw [Int.cast_abs] at this
    refine le_trans this ?_
    norm_num
  have hb : (2 : Rat) ^ (64 : Int) ≤ 2 ^ (1023 : Int) := zpow_le_zpow_right₀ (by norm_num) (by norm_num)
  obtain ⟨u, hu⟩ := F64.rnd_finite (q := (z : Rat)) (le_trans hzq hb)
  have ru : Rel 1 (z : Rat) u := Rel.rnd hu (by
    by_cases h0 : z = 0
    · left; exact_mod_cast h0
    · right
      have : (1 : Int) ≤ |z| := Int.one_le_abs h0
      have : (1 : Rat) ≤ |(z : Rat)| := by exact_mod_cast this
      refine le_trans ?_ this
      exact (big 0 (by norm_num)).trans (by norm_num))
  have rm := ru.mul rw_
  rw [hu, fin_mul]
  have h3 : (0 : Rat) < (10 : Rat) ^ d := by positivity
  have h1 : (10 : Rat) ^ (-12 : Int) ≤ (10 : Rat) ^ d := zpow_le_zpow_right₀ (by norm_num) hd.1
  have h2 : (10 : Rat) ^ d ≤ (10 : Rat) ^ (12 : Int) := zpow_le_zpow_right₀ (by norm_num) hd.2
  -- size of the product
  obtain ⟨t, et, ht1, ht2⟩ := rm.factor (by omega)
  clear hb
  have ht : 0 < t := by linarith
  have hab : |u * w| = |(z : Rat)| * (10 : Rat) ^ d * t := by
    rw [et, abs_mul, abs_mul, abs_of_pos h3, abs_of_pos ht]
  have hup : |u * w| ≤ 2 ^ (1023 : Int) := by
    have c1 : |(z : Rat)| * (10 : Rat) ^ d * t ≤ 2 ^ (64 : Int) * (10 : Rat) ^ (12 : Int) * 2 := by
      refine mul_le_mul (mul_le_mul hzq h2 h3.le (by positivity)) ht2 ht.le (by positivity)
    rw [hab]
    refine le_trans c1 (le_trans ?_ (zpow_le_zpow_right₀ (by norm_num) (show (128 : Int) ≤ 1023 by norm_num)))
    norm_num
  obtain ⟨v, hv⟩ := F64.rnd_finite hup
  refine ⟨v, hv, ?_⟩
  refine Rel.trans (n := 2) (m := 1) rm (Rel.rnd hv ?_)
  by_cases h0 : z = 0
  · left; rw [et, h0]; simp
  · right
    have : (1 : Int) ≤ |z| := Int.one_le_abs h0
    have hz1 : (1 : Rat) ≤ |(z : Rat)| := by exact_mod_cast this
    rw [hab]
    have c1 : 1 * (10 : Rat) ^ (-12 : Int) * (1 / 2) ≤ |(z : Rat)| * (10 : Rat) ^ d * t :=
      mul_le_mul (mul_le_mul hz1 h1 (by positivity) (by positivity)) ht1 (by norm_num) (by positivity)
    refine le_trans (le_trans (big 64 (by norm_num)) ?_) c1
    norm_num

theorem asI8_id {x : Int} (h1 : -128 ≤ x) (h2 : x ≤ 127) : asI8 x = x := by
  unfold asI8; simp only; split <;> omega

/-- What the program reads from an account is what the account reports, up to three roundings. -/
theorem state_reported {a : OracleAcc} {o : OracleState} {p d : Rat} (h : a.state = .ok o) (hr : reported a = some (p, d)) (hs : sane a) :
    ∃ fp fd, o.price = .fin fp ∧ o.deviation = .fin fd ∧ Rel 3 p fp ∧ Rel 3 d fd := by
  cases a with
  | unknown => cases hr
  | raydium x d0 d1 => cases hr
  | stub price dev slot =>
    injection h with h; subst h
    cases price <;> cases dev <;> simp only [reported] at hr <;> try cases hr
    exact ⟨_, _, rfl, rfl, (Rel.refl _).mono (by omega), (Rel.refl _).mono (by omega)⟩
  | switchboardV1 price hi lo slot =>
    simp only [OracleAcc.state, bind_ok, req_ok, pure_ok] at h
    obtain ⟨_, _, rfl⟩ := h
    cases price <;> simp only [reported] at hr <;> try cases hr
    cases hd : hi.add lo.neg with
    | nan => rw [hd] at hr; cases hr
    | inf s => rw [hd] at hr; cases hr
    | fin q =>
      rw [hd] at hr; injection hr with hr; injection hr with h1 h2; subst h1; subst h2
      exact ⟨_, _, rfl, rfl, (Rel.refl _).mono (by omega), (Rel.refl _).mono (by omega)⟩
  | switchboardV2 price dev slot =>
    simp only [OracleAcc.state, bind_ok, req_ok, pure_ok, okOr_ok] at h
    obtain ⟨x, rfl, y, rfl, _, _, rfl⟩ := h
    cases x <;> cases y <;> simp only [reported] at hr <;> try cases hr
    exact ⟨_, _, rfl, rfl, (Rel.refl _).mono (by omega), (Rel.refl _).mono (by omega)⟩
  | pyth trading ap ac as pp pc ps expo =>
    obtain ⟨⟨e1, e2⟩, ⟨i1, i2⟩, c1, c2⟩ := hs
    unfold inI64 i64Min i64Max at i1 i2
    simp only [OracleAcc.state, bind_ok, req_ok, pure_ok, asI8_id e1 e2] at h
    obtain ⟨adj, hadj, _, _, rfl⟩ := h
    cases trading with
    | true =>
      simp only [reported, if_true] at hr
      injection hr with hr; injection hr with h1 h2; subst h1; subst h2
      obtain ⟨v, hv, rv⟩ := scaled (z := ap) (by rw [abs_le]; omega) hadj
      obtain ⟨w, hw, rw_⟩ := scaled (z := (ac : Int)) (by rw [abs_le]; omega) hadj
      exact ⟨v, w, hv, hw, rv, rw_⟩
    | false =>
      simp only [reported] at hr
      injection hr with hr; injection hr with h1 h2; subst h1; subst h2
      obtain ⟨v, hv, rv⟩ := scaled (z := pp) (by rw [abs_le]; omega) hadj
      obtain ⟨w, hw, rw_⟩ := scaled (z := (pc : Int)) (by rw [abs_le]; omega) hadj
      exact ⟨v, w, hv, hw, rv, rw_⟩


/-- One rounding of any number: relative error, and a tiny absolute one for subnormal results. -/
theorem Rel.near {q v : Rat} (h : F64.rnd q = .fin v) : ∃ v', Rel 1 q v' ∧ |v - v'| ≤ 2 ^ (-1074 : Int) := by
  by_cases hq : (2 : Rat) ^ (-1022 : Int) ≤ |q|
  · exact ⟨v, Rel.rnd h (.inr hq), by rw [sub_self, abs_zero]; positivity⟩
  · refine ⟨q, (Rel.refl q).mono (by omega), ?_⟩
    have he := (F64.rnd_error h).1
    have h1 : |q| ≤ 2 ^ (-1022 : Int) := (not_le.mp hq).le
    have e1 : (2 : Rat) ^ (-1022 : Int) * ulp = 2 ^ (-1075 : Int) := by
      rw [ulp_eq, ← zpow_add₀ (by norm_num)]; norm_num
    have e2 : (2 : Rat) ^ (-1074 : Int) = 2 ^ (-1075 : Int) + 2 ^ (-1075 : Int) := by
      rw [show (-1074 : Int) = -1075 + 1 by norm_num, zpow_add₀ (by norm_num), zpow_one]; ring
    have h2 := mul_le_mul_of_nonneg_right h1 ulp_pos.le
    rw [e1] at h2
    rw [e2]
    generalize (2 : Rat) ^ (-1075 : Int) = A at *
    linarith

/-- 2^-1000 -/
def tiny : Rat := 2 ^ (-1000 : Int)

theorem tiny_pos : 0 < tiny := by unfold tiny; positivity

theorem fix_some {x : F64} {b : Int} (h : fixFromF64 x = some b) :
    ∃ w, x = .fin w ∧ |(b : Rat) / 2 ^ (48 : Int) - w| ≤ 2 ^ (-49 : Int) ∧ (0 ≤ w → 0 ≤ b) ∧ |(b : Rat)| ≤ 2 ^ (127 : Int) := by
  cases x with
  | nan => cases h
  | inf _ => cases h
  | fin w =>
    simp only [fixFromF64, pow2_eq] at h
    split at h
    · rename_i hb
      injection h with h
      have hn := roundEven_near (w * 2 ^ (48 : Int))
      rw [h] at hn
      refine ⟨w, rfl, ?_, ?_, ?_⟩
      · have e : (b : Rat) / 2 ^ (48 : Int) - w = ((b : Rat) - w * 2 ^ (48 : Int)) * 2 ^ (-48 : Int) := by
          rw [sub_mul, mul_assoc, ← zpow_add₀ (by norm_num)]; norm_num; ring
        rw [e, abs_mul, abs_of_pos (show (0 : Rat) < 2 ^ (-48 : Int) by positivity)]
        have : (2 : Rat) ^ (-49 : Int) = 1 / 2 * 2 ^ (-48 : Int) := by norm_num
        rw [this]
        exact mul_le_mul_of_nonneg_right hn (by positivity)
      · intro h0
        rw [← h]; exact roundEven_nonneg (by positivity)
      · rw [h] at hb
        unfold i128Min i128Max at hb
        have : |b| ≤ 2 ^ 127 := by rw [abs_le]; omega
        have : ((|b| : Int) : Rat) ≤ ((2 ^ 127 : Int) : Rat) := by exact_mod_cast this
        rw [Int.cast_abs] at this
        refine le_trans this ?_
        norm_num
    · cases h

/-- The decimals of the market are in range. -/
def sameDecimals (i : OracleInfo) : Prop := i.baseDecimals ≤ 127 ∧ i.quoteDecimals ≤ 127

/-- From a double near the price to I80F48. -/
theorem fixed_near {i : OracleInfo} (hd : sameDecimals i) {f f' p : Rat} {n : Nat} {b : Int} (h : fixedPrice i (.fin f) = .ok (some b))
    (hf : |f - f'| ≤ 2 ^ (-1074 : Int)) (hr : Rel n p f') :
    ∃ W, Rel (n + 2) (p * (10 : Rat) ^ ((i.quoteDecimals : Int) - i.baseDecimals)) W ∧ |(b : Rat) / 2 ^ (48 : Int) - W| ≤ 2 ^ (-48 : Int) ∧
      (0 ≤ f → 0 ≤ b) ∧ |f| ≤ 2 ^ (200 : Int) := by
  obtain ⟨d1, d2⟩ := hd
  unfold fixedPrice at h
  simp only [bind_ok, pure_ok, assertR_ok, asI8_id (show (-128 : Int) ≤ i.quoteDecimals by omega) (show (i.quoteDecimals : Int) ≤ 127 by omega),
    asI8_id (show (-128 : Int) ≤ i.baseDecimals by omega) (show (i.baseDecimals : Int) ≤ 127 by omega)] at h
  obtain ⟨_, _, x, hx, h⟩ := h
  generalize (i.quoteDecimals : Int) - i.baseDecimals = D at *
  obtain ⟨hD, v, rfl, rv⟩ := power_of_ten hx
  obtain ⟨w, hw, hb, hb0, hb1⟩ := fix_some h
  rw [fin_mul] at hw
  obtain ⟨w', rw', ew⟩ := Rel.near hw
  obtain ⟨t, et, t1, t2⟩ := rw'.factor (by omega)
  obtain ⟨tv, ev, v1, v2⟩ := rv.factor (by omega)
  have h1 : (10 : Rat) ^ (-12 : Int) ≤ (10 : Rat) ^ D := zpow_le_zpow_right₀ (by norm_num) hD.1
  have h2 : (10 : Rat) ^ D ≤ (10 : Rat) ^ (12 : Int) := zpow_le_zpow_right₀ (by norm_num) hD.2
  have h3 : (0 : Rat) < (10 : Rat) ^ D := by positivity
  have hv0 : 0 < v := by rw [ev]; exact mul_pos h3 (by linarith)
  have hv1 : v ≤ 2 * (10 : Rat) ^ (12 : Int) := by
    rw [ev, mul_comm]; exact mul_le_mul v2 h2 h3.le (by norm_num)
  have hv2 : (10 : Rat) ^ (-12 : Int) / 2 ≤ v := by
    rw [ev, div_eq_mul_one_div]; exact mul_le_mul h1 v1 (by norm_num) h3.le
  -- the rounding factor of the product applied to the exact one
  obtain ⟨tt, ett, ta, tb⟩ := rw'
  have ht : tt = t ∨ f * v = 0 := by
    by_cases h0 : f * v = 0
    · exact .inr h0
    · left
      exact mul_left_cancel₀ h0 (ett.symm.trans et)
  have hta : 0 < (1 - ulp) ^ 1 := pow_pos one_sub_ulp 1
  have htt : 0 < tt ∧ tt ≤ 2 := by
    refine ⟨by linarith, ?_⟩
    by_contra hc
    have hc := not_le.mp hc
    have : (1 : Rat) / 2 ≤ (1 - ulp) ^ 1 := by unfold ulp; norm_num
    nlinarith
  refine ⟨f' * v * tt, ?_, ?_, ?_, ?_⟩
  · have := (hr.mul rv).trans (z := f' * v * tt) (m := 1) ⟨tt, rfl, ta, tb⟩
    exact this.mono (by omega)
  · have e1 : (b : Rat) / 2 ^ (48 : Int) - f' * v * tt = ((b : Rat) / 2 ^ (48 : Int) - w) + (w - w') + (f - f') * (v * tt) := by
      rw [ett]; ring
    have a1 : |(f - f') * (v * tt)| ≤ 2 ^ (-1074 : Int) * (2 * (10 : Rat) ^ (12 : Int) * 2) := by
      rw [abs_mul, abs_of_pos (mul_pos hv0 htt.1)]
      exact mul_le_mul hf (mul_le_mul hv1 htt.2 htt.1.le (by positivity)) (mul_pos hv0 htt.1).le (by positivity)
    have a2 : (2 : Rat) ^ (-1074 : Int) * (2 * (10 : Rat) ^ (12 : Int) * 2) ≤ 2 ^ (-50 : Int) / 2 := by
      have : (2 : Rat) ^ (-1074 : Int) ≤ 2 ^ (-100 : Int) := zpow_le_zpow_right₀ (by norm_num) (by norm_num)
      refine le_trans (mul_le_mul_of_nonneg_right this (by positivity)) ?_
      norm_num
    have a3 : (2 : Rat) ^ (-1074 : Int) ≤ 2 ^ (-51 : Int) := zpow_le_zpow_right₀ (by norm_num) (by norm_num)
    rw [e1]
    have t1 := abs_add_le ((b : Rat) / 2 ^ (48 : Int) - w + (w - w')) ((f - f') * (v * tt))
    have t2 := abs_add_le ((b : Rat) / 2 ^ (48 : Int) - w) (w - w')
    have n1 : (2 : Rat) ^ (-48 : Int) = 2 ^ (-49 : Int) + 2 ^ (-49 : Int) := by norm_num
    have n2 : (2 : Rat) ^ (-49 : Int) = 2 ^ (-50 : Int) + 2 ^ (-50 : Int) := by norm_num
    have n3 : (2 : Rat) ^ (-50 : Int) = 2 ^ (-51 : Int) + 2 ^ (-51 : Int) := by norm_num
    have n4 : (0 : Rat) < 2 ^ (-51 : Int) := by positivity
    have a1 := a1.trans a2
    have ew := ew.trans a3
    clear a2 a3 hw
    generalize (2 : Rat) ^ (-48 : Int) = A48 at *
    generalize (2 : Rat) ^ (-49 : Int) = A49 at *
    generalize (2 : Rat) ^ (-50 : Int) = A50 at *
    generalize (2 : Rat) ^ (-51 : Int) = A51 at *
    linarith
  · intro h0
    exact hb0 ((F64.rnd_error hw).2.2.1 (mul_nonneg h0 hv0.le))
  · -- a price that fits is not huge
    have k1 : |w| ≤ 2 ^ (80 : Int) := by
      have e1 : |(b : Rat) / 2 ^ (48 : Int)| ≤ 2 ^ (79 : Int) := by
        rw [abs_div, abs_of_pos (show (0 : Rat) < 2 ^ (48 : Int) by positivity), div_le_iff₀ (by positivity), ← zpow_add₀ (by norm_num)]
        exact hb1
      have e2 := abs_sub_abs_le_abs_sub w ((b : Rat) / 2 ^ (48 : Int))
      rw [abs_sub_comm] at e2
      have e3 : (2 : Rat) ^ (-49 : Int) ≤ 1 := by norm_num
      have e4 : (2 : Rat) ^ (79 : Int) + 1 ≤ 2 ^ (80 : Int) := by norm_num
      generalize (2 : Rat) ^ (79 : Int) = A at *
      generalize (2 : Rat) ^ (80 : Int) = B at *
      linarith
    have k2 : |w'| ≤ 2 ^ (81 : Int) := by
      have e2 := abs_sub_abs_le_abs_sub w' w
      rw [abs_sub_comm] at e2
      have e3 : (2 : Rat) ^ (-1074 : Int) ≤ 1 := zpow_le_one_of_nonpos₀ (by norm_num) (by norm_num)
      have e4 : (2 : Rat) ^ (80 : Int) + 1 ≤ 2 ^ (81 : Int) := by norm_num
      generalize (2 : Rat) ^ (80 : Int) = A at *
      generalize (2 : Rat) ^ (81 : Int) = B at *
      generalize (2 : Rat) ^ (-1074 : Int) = C at *
      linarith
    have k3 : |f| * ((10 : Rat) ^ (-12 : Int) / 2 * (1 / 2)) ≤ |w'| := by
      have tt1 : 1 / 2 ≤ tt := by
        have : (1 : Rat) / 2 ≤ (1 - ulp) ^ 1 := by unfold ulp; norm_num
        linarith
      rw [ett, mul_assoc, abs_mul, abs_of_pos (mul_pos hv0 htt.1)]
      exact mul_le_mul_of_nonneg_left (mul_le_mul hv2 tt1 (by norm_num) hv0.le) (abs_nonneg _)
    have k4 : |f| * ((10 : Rat) ^ (-12 : Int) / 2 * (1 / 2)) ≤ 2 ^ (81 : Int) := k3.trans k2
    have k5 : |f| ≤ 2 ^ (81 : Int) * (4 * (10 : Rat) ^ (12 : Int)) := by
      have : |f| * ((10 : Rat) ^ (-12 : Int) / 2 * (1 / 2)) * (4 * (10 : Rat) ^ (12 : Int)) = |f| := by
        rw [mul_assoc]
        have : ((10 : Rat) ^ (-12 : Int) / 2 * (1 / 2)) * (4 * (10 : Rat) ^ (12 : Int)) = 1 := by norm_num
        rw [this, mul_one]
      rw [← this]
      exact mul_le_mul_of_nonneg_right k4 (by positivity)
    refine k5.trans ?_
    norm_num

/-- From I80F48 to lots: rounded down. -/
theorem lots_of {m : Market} {b l : Int} (hb : 0 < m.baseLotSize) (hq : 0 < m.quoteLotSize) (h0 : 0 ≤ b) (h : nativePriceToLot m b = .ok l) :
    (l : Rat) ≤ (b : Rat) / 2 ^ (48 : Int) * m.baseLotSize / m.quoteLotSize ∧
      (b : Rat) / 2 ^ (48 : Int) * m.baseLotSize / m.quoteLotSize < l + 1 ∧ inI64 l ∧ 0 ≤ l := by
  unfold nativePriceToLot at h
  simp only [bind_ok, req_ok, pure_ok] at h
  obtain ⟨_, _, _, _, _, h3, rfl⟩ := h
  have hx : 0 ≤ b * m.baseLotSize := Int.mul_nonneg h0 (by omega)
  rw [Int.tdiv_eq_ediv_of_nonneg hx, Int.ediv_ediv_of_nonneg (by omega)] at h3 ⊢
  generalize hl : b * m.baseLotSize / (m.quoteLotSize * 281474976710656) = l at *
  have hp : 0 < m.quoteLotSize * 281474976710656 := by omega
  have u1 : l * (m.quoteLotSize * 281474976710656) ≤ b * m.baseLotSize := by rw [← hl]; exact Int.ediv_mul_le _ (by omega)
  have u2 : b * m.baseLotSize < (l + 1) * (m.quoteLotSize * 281474976710656) := by rw [← hl]; exact Int.lt_ediv_add_one_mul_self _ hp
  have hqq : (0 : Rat) < m.quoteLotSize := by exact_mod_cast hq
  have e : (b : Rat) / 2 ^ (48 : Int) * m.baseLotSize / m.quoteLotSize = (b : Rat) * m.baseLotSize / (m.quoteLotSize * 281474976710656) := by
    rw [show (2 : Rat) ^ (48 : Int) = 281474976710656 by norm_num]; field_simp
  have hpq : (0 : Rat) < m.quoteLotSize * 281474976710656 := by positivity
  rw [e]
  refine ⟨?_, ?_, h3, ?_⟩
  · rw [le_div_iff₀ hpq]; exact_mod_cast u1
  · rw [div_lt_iff₀ hpq]; exact_mod_cast u2
  · rw [← hl]; exact Int.ediv_nonneg hx (by omega)


/-- When there is a price: from one oracle, or from two. -/
theorem price_cases {m : Market} {i : OracleInfo} {a b : OraclePassed} {slot : Nat} {l : Int} (h : oraclePriceLots m i a b slot = .ok (some l)) :
    m.oracleA ≠ 0 ∧ ∃ bits, nativePriceToLot m bits = .ok l ∧
      ((m.oracleB = 0 ∧ ∃ x o, a = some (m.oracleA, x) ∧ x.state = .ok o ∧ o.isStale i.config slot = false ∧
          o.hasValidConfidence i.config = true ∧ fixedPrice i o.price = .ok (some bits)) ∨
       (m.oracleB ≠ 0 ∧ ∃ x y o o', a = some (m.oracleA, x) ∧ b = some (m.oracleB, y) ∧ x.state = .ok o ∧ y.state = .ok o' ∧
          o.isStale i.config slot = false ∧ o'.isStale i.config slot = false ∧ o.hasValidCombinedConfidence o' i.config = true ∧
          fixedPrice i (o.price.div o'.price) = .ok (some bits))) := by
  unfold oraclePriceLots at h
  simp only [bind_ok, req_ok] at h
  obtain ⟨_, ha, _, hb, price, hp, h⟩ := h
  cases price with
  | none => simp only [pure_ok] at h; cases h
  | some bits =>
    simp only [bind_ok, pure_ok] at h
    obtain ⟨l', hl, h⟩ := h
    injection h with h; subst h
    split at hp
    · rename_i hc
      simp only [bind_ok, unwrapR_ok] at hp
      obtain ⟨⟨ka, x⟩, rfl, ⟨kb, y⟩, rfl, hp⟩ := hp
      simp only [oraclePriceFromAB, bind_ok] at hp
      obtain ⟨o, ho, o', ho', hp⟩ := hp
      simp only [passedKey] at ha hb
      split at hp
      · simp only [pure_ok] at hp; cases hp
      · rename_i hn
        simp only [Bool.or_eq_true, Bool.not_eq_true', not_or, Bool.not_eq_true, Bool.not_eq_false] at hn
        exact ⟨hc.1, bits, hl, .inr ⟨hc.2, x, y, o, o', by rw [ha], by rw [hb], ho, ho', hn.1.1, hn.1.2, hn.2, hp⟩⟩
    · rename_i hc
      split at hp
      · rename_i hc'
        simp only [bind_ok, unwrapR_ok] at hp
        obtain ⟨⟨ka, x⟩, rfl, hp⟩ := hp
        simp only [oraclePriceFromA, bind_ok] at hp
        obtain ⟨o, ho, hp⟩ := hp
        simp only [passedKey] at ha
        split at hp
        · simp only [pure_ok] at hp; cases hp
        · rename_i hn
          simp only [Bool.or_eq_true, Bool.not_eq_true', not_or, Bool.not_eq_true, Bool.not_eq_false] at hn
          exact ⟨hc', bits, hl, .inl ⟨by_contra fun h => hc ⟨hc', h⟩, x, o, by rw [ha], ho, hn.1, hn.2, hp⟩⟩
      · cases hp

/-- Not stale: updated recently enough. -/
theorem not_stale {x : OracleAcc} {o : OracleState} {c : OracleConfig} {now t : Nat} (h : x.state = .ok o) (hs : o.isStale c now = false)
    (ht : lastUpdate x = some t) (h0 : 0 ≤ c.maxStalenessSlots) (hn : now ≤ maxSlot) : (now : Int) ≤ t + c.maxStalenessSlots := by
  have e : o.lastUpdateSlot = t := by
    cases x with
    | unknown => cases ht
    | raydium x d0 d1 => cases ht
    | stub price dev slot =>
      injection h with h; subst h
      simp only [lastUpdate] at ht
      split at ht
      · cases ht
      · rename_i hc; injection ht with ht; subst ht; simp only [if_neg hc]
    | switchboardV1 price hi lo slot =>
      simp only [OracleAcc.state, bind_ok, req_ok, pure_ok] at h
      obtain ⟨_, _, rfl⟩ := h
      injection ht
    | switchboardV2 price dev slot =>
      simp only [OracleAcc.state, bind_ok, req_ok, pure_ok, okOr_ok] at h
      obtain ⟨x, rfl, y, rfl, _, _, rfl⟩ := h
      injection ht
    | pyth trading ap ac as pp pc ps expo =>
      simp only [OracleAcc.state, bind_ok, req_ok, pure_ok] at h
      obtain ⟨adj, hadj, _, _, rfl⟩ := h
      injection ht with ht
      cases trading
      · exact ht
      · exact ht
  unfold OracleState.isStale at hs
  simp only [Bool.and_eq_false_iff, decide_eq_false_iff_not] at hs
  rw [e] at hs
  unfold maxSlot at hs hn
  omega

/-- A confidence check that passed, on finite numbers. -/
theorem confident {c fp fd : Rat} (hc : |c| ≤ 2 ^ (128 : Int)) (hp : |fp| ≤ 2 ^ (200 : Int))
    (h : F64.gt (.fin fd) (F64.mul (.fin c) (.fin fp)) = false) : ∃ v', Rel 1 (c * fp) v' ∧ fd ≤ v' + tiny := by
  rw [fin_mul] at h
  have hb : |c * fp| ≤ 2 ^ (1023 : Int) := by
    rw [abs_mul]
    refine le_trans (mul_le_mul hc hp (abs_nonneg _) (by positivity)) ?_
    rw [← zpow_add₀ (by norm_num)]
    exact zpow_le_zpow_right₀ (by norm_num) (by norm_num)
  obtain ⟨v, hv⟩ := F64.rnd_finite hb
  rw [hv] at h
  simp only [F64.gt, decide_eq_false_iff_not, not_lt] at h
  obtain ⟨v', r, e⟩ := Rel.near hv
  refine ⟨v', r, ?_⟩
  have : (2 : Rat) ^ (-1074 : Int) ≤ tiny := zpow_le_zpow_right₀ (by norm_num) (by norm_num)
  have e := (abs_le.mp (e.trans this)).2
  linarith


theorem rnd_cases (q : Rat) : (∃ v, F64.rnd q = .fin v) ∨ F64.rnd q = .inf (decide (q < 0)) := by
  unfold F64.rnd
  split
  · exact .inl ⟨_, rfl⟩
  · simp only
    split
    · exact .inr rfl
    · exact .inl ⟨_, rfl⟩

/-- The square of a quotient is not much too small. -/
theorem sq_lower {x r s : Rat} (h1 : F64.rnd x = .fin r) (h2 : F64.rnd (r * r) = .fin s) : x * x * (1 - ulp) ^ 3 ≤ s + tiny ∧ 0 ≤ s := by
  have hs : 0 ≤ s := (F64.rnd_error h2).2.2.1 (mul_self_nonneg r)
  refine ⟨?_, hs⟩
  have p3 : (1 - ulp) ^ 3 ≤ 1 := pow_le_one₀ one_sub_ulp.le (by have := ulp_pos; linarith)
  have p0 : 0 < (1 - ulp) ^ 3 := pow_pos one_sub_ulp 3
  have ht := tiny_pos
  by_cases hx : (2 : Rat) ^ (-500 : Int) ≤ |x|
  · have hx1 : (2 : Rat) ^ (-1022 : Int) ≤ |x| := le_trans (zpow_le_zpow_right₀ (by norm_num) (by norm_num)) hx
    have rr := Rel.rnd h1 (.inr hx1)
    obtain ⟨t, et, t1, t2⟩ := rr.factor (by omega)
    have ar : (2 : Rat) ^ (-501 : Int) ≤ |r| := by
      rw [et, abs_mul, abs_of_pos (by linarith : 0 < t)]
      have e : (2 : Rat) ^ (-501 : Int) = 2 ^ (-500 : Int) * (1 / 2) := by
        rw [show (-501 : Int) = -500 + -1 by norm_num, zpow_add₀ (by norm_num)]; norm_num
      rw [e]
      exact mul_le_mul hx t1 (by norm_num) (abs_nonneg _)
    have arr : (2 : Rat) ^ (-1022 : Int) ≤ |r * r| := by
      rw [abs_mul]
      have : (2 : Rat) ^ (-501 : Int) * 2 ^ (-501 : Int) ≤ |r| * |r| := mul_le_mul ar ar (by positivity) (abs_nonneg _)
      rw [← zpow_add₀ (by norm_num)] at this
      exact le_trans (zpow_le_zpow_right₀ (by norm_num) (by norm_num)) this
    have rel := (rr.mul rr).trans (Rel.rnd h2 (.inr arr))
    obtain ⟨w, ew, w1, _⟩ := rel
    have : x * x * (1 - ulp) ^ (1 + 1 + 1) ≤ s := by
      rw [ew]; exact mul_le_mul_of_nonneg_left w1 (mul_self_nonneg x)
    have : x * x * (1 - ulp) ^ 3 ≤ s := this
    linarith
  · have hx := (not_le.mp hx).le
    have : x * x ≤ tiny := by
      rw [← abs_mul_abs_self]
      have : |x| * |x| ≤ 2 ^ (-500 : Int) * 2 ^ (-500 : Int) := mul_le_mul hx hx (abs_nonneg _) (by positivity)
      rw [← zpow_add₀ (by norm_num)] at this
      exact this
    have : x * x * (1 - ulp) ^ 3 ≤ x * x * 1 := mul_le_mul_of_nonneg_left p3 (mul_self_nonneg x)
    linarith

theorem fin_div {a b : Rat} (hb : b ≠ 0) : F64.div (.fin a) (.fin b) = F64.rnd (a / b) := by
  unfold F64.div; exact if_neg hb

theorem sq_cases {a b : Rat} (hb : b ≠ 0) : F64.sq (F64.div (.fin a) (.fin b)) = .inf false ∨
    ∃ s, F64.sq (F64.div (.fin a) (.fin b)) = .fin s ∧ a / b * (a / b) * (1 - ulp) ^ 3 ≤ s + tiny ∧ 0 ≤ s := by
  rw [fin_div hb]
  rcases rnd_cases (a / b) with ⟨r, hr⟩ | hr
  · rw [hr]
    show F64.rnd (r * r) = _ ∨ ∃ s, F64.rnd (r * r) = _ ∧ _
    rcases rnd_cases (r * r) with ⟨s, hs⟩ | hs
    · exact .inr ⟨s, hs, sq_lower hr hs⟩
    · left
      rw [hs, decide_eq_false (not_lt.mpr (mul_self_nonneg r))]
  · left
    rw [hr]
    simp [F64.sq, F64.mul]

/-- A combined confidence check that passed, on finite numbers. -/
theorem confident_both {c pa da pb db : Rat} (hc : |c| ≤ 2 ^ (128 : Int)) (ha : pa ≠ 0) (hb : pb ≠ 0)
    (h : F64.gt (F64.add (F64.sq (F64.div (.fin da) (.fin pa))) (F64.sq (F64.div (.fin db) (.fin pb)))) (F64.sq (.fin c)) = false) :
    (da / pa * (da / pa) + db / pb * (db / pb)) * (1 - ulp) ^ 5 ≤ c * c + 6 * tiny := by
  have hcc : |c * c| ≤ 2 ^ (1023 : Int) := by
    rw [abs_mul]
    refine le_trans (mul_le_mul hc hc (abs_nonneg _) (by positivity)) ?_
    rw [← zpow_add₀ (by norm_num)]
    exact zpow_le_zpow_right₀ (by norm_num) (by norm_num)
  obtain ⟨vc, hvc⟩ := F64.rnd_finite hcc
  have esq : F64.sq (.fin c) = .fin vc := hvc
  rw [esq] at h
  have pp : 0 < (1 - ulp) ^ 3 := pow_pos one_sub_ulp 3
  have ht := tiny_pos
  have hu1 := ulp_pos
  have hu := one_sub_ulp
  rcases sq_cases (a := da) ha with e1 | ⟨sa, e1, l1, n1⟩
  · rcases sq_cases (a := db) hb with e2 | ⟨sb, e2, l2, n2⟩ <;> rw [e1, e2] at h <;> simp [F64.add, F64.gt] at h
  · rcases sq_cases (a := db) hb with e2 | ⟨sb, e2, l2, n2⟩
    · rw [e1, e2] at h; simp [F64.add, F64.gt] at h
    · rw [e1, e2] at h
      simp only [F64.add] at h
      rcases rnd_cases (sa + sb) with ⟨v, hv⟩ | hv
      · rw [hv] at h
        simp only [F64.gt, decide_eq_false_iff_not, not_lt] at h
        have k1 : (2 : Rat) ^ (-1074 : Int) ≤ tiny := zpow_le_zpow_right₀ (by norm_num) (by norm_num)
        obtain ⟨v', ⟨t, et, t1, t2⟩, ev⟩ := Rel.near hv
        obtain ⟨w', ⟨w, ew, w1, w2⟩, evc⟩ := Rel.near hvc
        have ev := (abs_le.mp (ev.trans k1)).1
        have evc := (abs_le.mp (evc.trans k1)).2
        rw [pow_one] at t1 w2
        have b1 : (sa + sb) * (1 - ulp) ≤ v' := by rw [et]; exact mul_le_mul_of_nonneg_left t1 (by linarith)
        have b2 : w' * (1 - ulp) ≤ c * c := by
          rw [ew, mul_assoc]
          exact mul_le_of_le_one_right (mul_self_nonneg c) w2
        have b3 : (sa + sb) * (1 - ulp) ≤ w' + 2 * tiny := by linarith
        have b4 : (sa + sb) * (1 - ulp) * (1 - ulp) ≤ c * c + 2 * tiny := by
          have := mul_le_mul_of_nonneg_right b3 hu.le
          have : (w' + 2 * tiny) * (1 - ulp) ≤ c * c + 2 * tiny := by
            rw [add_mul]
            have : 2 * tiny * (1 - ulp) ≤ 2 * tiny := mul_le_of_le_one_right (by linarith) (by linarith)
            linarith
          linarith
        have b5 : (da / pa * (da / pa) + db / pb * (db / pb)) * (1 - ulp) ^ 3 ≤ (sa + sb) + 2 * tiny := by
          rw [add_mul]; linarith
        have b6 := mul_le_mul_of_nonneg_right (mul_le_mul_of_nonneg_right b5 hu.le) hu.le
        have e6 : (sa + sb + 2 * tiny) * (1 - ulp) * (1 - ulp) ≤ (sa + sb) * (1 - ulp) * (1 - ulp) + 2 * tiny := by
          have : 2 * tiny * ((1 - ulp) * (1 - ulp)) ≤ 2 * tiny :=
            mul_le_of_le_one_right (by linarith) (mul_le_one₀ (by linarith) hu.le (by linarith))
          nlinarith
        have e5 : (da / pa * (da / pa) + db / pb * (db / pb)) * (1 - ulp) ^ 5 =
            (da / pa * (da / pa) + db / pb * (db / pb)) * (1 - ulp) ^ 3 * (1 - ulp) * (1 - ulp) := by ring
        rw [e5]
        linarith
      · rw [hv, decide_eq_false (not_lt.mpr (by linarith))] at h
        simp [F64.gt] at h

end OB
