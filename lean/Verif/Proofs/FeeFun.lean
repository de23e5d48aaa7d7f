import Verif.Proofs.Fees
/-! The fee functions as plain integer functions. -/
namespace OB

/-- Floor and ceiling of the maker fee and the floor of the maker rebate. -/
def floorFee (mf a : Int) : Int := a * max mf 0 / 1000000
def ceilFee (mf a : Int) : Int := (a * max mf 0 + 999999) / 1000000
def floorRebate (mf a : Int) : Int := a * max (-mf) 0 / 1000000
def ceilTaker (tf a : Int) : Int := (a * tf + 999999) / 1000000

theorem unsignedFloor_inv {m : Market} {a f : Int} (h0 : 0 ≤ a) (h : m.unsignedMakerFeesFloor a = .ok f) :
    f = a * (m.makerFee.natAbs : Int) / 1000000 := by
  unfold Market.unsignedMakerFeesFloor feesScale at h
  rw [ckU64_ok, Int.tdiv_eq_ediv_of_nonneg (Int.mul_nonneg h0 (by omega))] at h
  exact h.2.symm

theorem makerFeesFloor_inv {m : Market} {a f : Int} (h0 : 0 ≤ a) (h : m.makerFeesFloor a = .ok f) :
    f = floorFee m.makerFee a := by
  unfold Market.makerFeesFloor at h
  unfold floorFee
  split at h
  · rename_i hp
    rw [unsignedFloor_inv h0 h, natAbs_pos hp, Int.max_eq_left (by omega)]
  · cases h; rw [Int.max_eq_right (by omega)]; simp

theorem makerRebateFloor_inv {m : Market} {a f : Int} (h0 : 0 ≤ a) (h : m.makerRebateFloor a = .ok f) :
    f = floorRebate m.makerFee a := by
  unfold Market.makerRebateFloor at h
  unfold floorRebate
  split at h
  · cases h; rw [Int.max_eq_right (by omega)]; simp
  · rename_i hp
    rw [unsignedFloor_inv h0 h, natAbs_nonpos hp, Int.max_eq_left (by omega)]

theorem makerFeesCeilU_inv {m : Market} {a f : Int} (h0 : 0 ≤ a) (h : m.makerFeesCeilU a = .ok f) :
    f = ceilFee m.makerFee a := by
  unfold Market.makerFeesCeilU at h
  unfold ceilFee
  split at h
  · rename_i hp
    rw [ckU64_ok, natAbs_pos hp, ceilFeeDivision_eq (Int.mul_nonneg h0 (by omega))] at h
    rw [Int.max_eq_left (by omega)]; exact h.2.symm
  · cases h; rw [Int.max_eq_right (by omega)]; simp

theorem makerFeesCeilI_inv {m : Market} {a f : Int} (h0 : 0 ≤ a) (h : m.makerFeesCeilI a = .ok f) :
    f = ceilFee m.makerFee a := by
  unfold Market.makerFeesCeilI at h
  unfold ceilFee
  split at h
  · rename_i hp
    rw [ckI64_ok, natAbs_pos hp, ceilFeeDivision_eq (Int.mul_nonneg h0 (by omega))] at h
    rw [Int.max_eq_left (by omega)]; exact h.2.symm
  · cases h; rw [Int.max_eq_right (by omega)]; simp

theorem takerFeesCeil_inv {m : Market} {a f : Int} (h0 : 0 ≤ a) (ht : 0 ≤ m.takerFee) (h : m.takerFeesCeil a = .ok f) :
    f = ceilTaker m.takerFee a := by
  unfold Market.takerFeesCeil at h
  unfold ceilTaker
  rw [ckU64_ok, ceilFeeDivision_eq (Int.mul_nonneg h0 ht)] at h
  exact h.2.symm

theorem max0_nonneg (x : Int) : 0 ≤ max x 0 := by omega

theorem floorFee_zero {mf : Int} (h : mf ≤ 0) (a : Int) : floorFee mf a = 0 := by
  unfold floorFee; rw [Int.max_eq_right h]; simp

theorem ceilFee_zero {mf : Int} (h : mf ≤ 0) (a : Int) : ceilFee mf a = 0 := by
  unfold ceilFee; rw [Int.max_eq_right h]; simp

theorem floorFee_nonneg {mf a : Int} (h : 0 ≤ a) : 0 ≤ floorFee mf a := by
  unfold floorFee; have := Int.mul_nonneg h (max0_nonneg mf); omega

theorem ceilFee_nonneg {mf a : Int} (h : 0 ≤ a) : 0 ≤ ceilFee mf a := by
  unfold ceilFee; have := Int.mul_nonneg h (max0_nonneg mf); omega

theorem floorRebate_nonneg {mf a : Int} (h : 0 ≤ a) : 0 ≤ floorRebate mf a := by
  unfold floorRebate; have := Int.mul_nonneg h (max0_nonneg (-mf)); omega

theorem ceilTaker_nonneg {tf a : Int} (h : 0 ≤ a) (ht : 0 ≤ tf) : 0 ≤ ceilTaker tf a := by
  unfold ceilTaker; have := Int.mul_nonneg h ht; omega

theorem floor_le_ceil (mf a : Int) : floorFee mf a ≤ ceilFee mf a := by unfold floorFee ceilFee; omega

/-- What is locked for an order covers a partial fill and what must stay locked for the rest. -/
theorem fee_split (mf a b : Int) : floorFee mf a + ceilFee mf b ≤ ceilFee mf (a + b) := by
  unfold floorFee ceilFee; rw [Int.add_mul]; omega

theorem floorFee_mono {mf a b : Int} (h : a ≤ b) : floorFee mf a ≤ floorFee mf b := by
  unfold floorFee
  have := Int.mul_le_mul_of_nonneg_right h (max0_nonneg mf)
  omega

theorem floorFee_le {mf a : Int} (h : 0 ≤ a) (hm : mf ≤ 1000000) : floorFee mf a ≤ a := by
  unfold floorFee
  have := Int.mul_le_mul_of_nonneg_left (show max mf 0 ≤ 1000000 by omega) h
  omega

theorem ceilFee_le {mf a : Int} (h : 0 ≤ a) (hm : mf ≤ 1000000) : ceilFee mf a ≤ a := by
  unfold ceilFee
  have := Int.mul_le_mul_of_nonneg_left (show max mf 0 ≤ 1000000 by omega) h
  omega

end OB
