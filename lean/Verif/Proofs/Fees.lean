import Verif.Proofs.Basic
import Verif.Model.Market
import Verif.Spec.Fees
/-! Fee arithmetic. -/
namespace OB
open Spec

/-- The fee settings `create_market` accepts. -/
structure ValidFees (m : Market) : Prop where
  maker : -1000000 ≤ m.makerFee ∧ m.makerFee ≤ 1000000
  taker : 0 ≤ m.takerFee ∧ m.takerFee ≤ 1000000
  rebate : m.makerFee < 0 → -m.makerFee ≤ m.takerFee

theorem ceilFeeDivision_eq {x : Int} (h : 0 ≤ x) : Market.ceilFeeDivision x = (x + 999999) / 1000000 := by
  unfold Market.ceilFeeDivision feesScale
  rw [Int.tdiv_eq_ediv_of_nonneg (by omega)]
  rfl

theorem isCeil_of {a r : Int} (_h : 0 ≤ a * r) : IsCeilFee a r ((a * r + 999999) / 1000000) := by
  constructor
  · omega
  · intro g hg; omega

theorem isCeil_unique {a r f g : Int} (h : IsCeilFee a r f) (h' : IsCeilFee a r g) : f = g :=
  Int.le_antisymm (h.2 _ h'.1) (h'.2 _ h.1)

theorem isFloor_unique {a r f g : Int} (h : IsFloorFee a r f) (h' : IsFloorFee a r g) : f = g :=
  Int.le_antisymm (h'.2 _ h.1) (h.2 _ h'.1)

theorem isFloor_of {a r : Int} : IsFloorFee a r ((a * r) / 1000000) := by
  constructor
  · omega
  · intro g hg; omega

theorem mul_le_scale {a r : Int} (ha : 0 ≤ a) (hr : r ≤ 1000000) : a * r ≤ a * 1000000 :=
  Int.mul_le_mul_of_nonneg_left hr ha

theorem isCeil_le {a r f : Int} (ha : 0 ≤ a) (hr : r ≤ 1000000) (h : IsCeilFee a r f) : f ≤ a :=
  h.2 a (mul_le_scale ha hr)

theorem isCeil_nonneg {a r f : Int} (ha : 0 ≤ a) (hr : 0 ≤ r) (h : IsCeilFee a r f) : 0 ≤ f := by
  have := h.1; have := Int.mul_nonneg ha hr; omega

theorem isFloor_nonneg {a r f : Int} (ha : 0 ≤ a) (hr : 0 ≤ r) (h : IsFloorFee a r f) : 0 ≤ f :=
  h.2 0 (by have := Int.mul_nonneg ha hr; omega)

theorem isFloor_le_ceil {a r f g : Int} (h : IsFloorFee a r f) (h' : IsCeilFee a r g) : f ≤ g := by
  have := h.1; have := h'.1; omega

theorem isFloor_le {a r f : Int} (ha : 0 ≤ a) (hr : r ≤ 1000000) (h : IsFloorFee a r f) : f ≤ a := by
  have := h.1; have := mul_le_scale ha hr; omega

theorem takerFeesCeil_spec {m : Market} (hv : ValidFees m) {a : Int} (h0 : 0 ≤ a) (h1 : a ≤ u64Max) :
    ∃ f, m.takerFeesCeil a = .ok f ∧ IsCeilFee a m.takerFee f := by
  have hn := Int.mul_nonneg h0 hv.taker.1
  have hc := isCeil_of hn
  have hle := isCeil_le h0 hv.taker.2 hc
  refine ⟨_, ?_, hc⟩
  unfold Market.takerFeesCeil
  rw [ceilFeeDivision_eq hn]
  exact ckU64_eq (by omega) (by omega)

theorem natAbs_pos {x : Int} (h : 0 < x) : (x.natAbs : Int) = x := by omega
theorem natAbs_nonpos {x : Int} (h : ¬ x > 0) : (x.natAbs : Int) = -x := by omega

theorem makerFeesCeilU_spec {m : Market} (hv : ValidFees m) {a : Int} (h0 : 0 ≤ a) (h1 : a ≤ u64Max) :
    ∃ f, m.makerFeesCeilU a = .ok f ∧ IsCeilFee a (max m.makerFee 0) f := by
  unfold Market.makerFeesCeilU
  split
  · rename_i h
    rw [natAbs_pos h, Int.max_eq_left (by omega)]
    have hn := Int.mul_nonneg h0 (Int.le_of_lt h)
    have hc := isCeil_of hn
    have hle := isCeil_le h0 hv.maker.2 hc
    refine ⟨_, ?_, hc⟩
    rw [ceilFeeDivision_eq hn]
    exact ckU64_eq (by omega) (by omega)
  · rename_i h
    refine ⟨0, rfl, ?_⟩
    rw [Int.max_eq_right (by omega)]
    exact ⟨by omega, by intro g; omega⟩

theorem makerFeesCeilI_spec {m : Market} (hv : ValidFees m) {a : Int} (h0 : 0 ≤ a) (h1 : a ≤ i64Max) :
    ∃ f, m.makerFeesCeilI a = .ok f ∧ IsCeilFee a (max m.makerFee 0) f := by
  unfold Market.makerFeesCeilI
  split
  · rename_i h
    rw [natAbs_pos h, Int.max_eq_left (by omega)]
    have hn := Int.mul_nonneg h0 (Int.le_of_lt h)
    have hc := isCeil_of hn
    have hle := isCeil_le h0 hv.maker.2 hc
    refine ⟨_, ?_, hc⟩
    rw [ceilFeeDivision_eq hn]
    have : i64Min ≤ 0 := by decide
    exact ckI64_eq (by omega) (by omega)
  · rename_i h
    refine ⟨0, rfl, ?_⟩
    rw [Int.max_eq_right (by omega)]
    exact ⟨by omega, by intro g; omega⟩

theorem unsignedMakerFeesFloor_spec {m : Market} (hv : ValidFees m) {a : Int} (h0 : 0 ≤ a) (h1 : a ≤ u64Max) :
    ∃ f, m.unsignedMakerFeesFloor a = .ok f ∧ IsFloorFee a m.makerFee.natAbs f := by
  unfold Market.unsignedMakerFeesFloor feesScale
  have hr0 : (0 : Int) ≤ m.makerFee.natAbs := by omega
  have hr : (m.makerFee.natAbs : Int) ≤ 1000000 := by have := hv.maker; omega
  have hn := Int.mul_nonneg h0 hr0
  have hf := @isFloor_of a m.makerFee.natAbs
  have hle := isFloor_le h0 hr hf
  refine ⟨_, ?_, hf⟩
  rw [Int.tdiv_eq_ediv_of_nonneg hn]
  exact ckU64_eq (by omega) (by omega)

theorem makerFeesFloor_spec {m : Market} (hv : ValidFees m) {a : Int} (h0 : 0 ≤ a) (h1 : a ≤ u64Max) :
    ∃ f, m.makerFeesFloor a = .ok f ∧ IsFloorFee a (max m.makerFee 0) f := by
  unfold Market.makerFeesFloor
  split
  · rename_i h
    have := unsignedMakerFeesFloor_spec hv h0 h1
    rw [natAbs_pos h] at this
    rw [Int.max_eq_left (by omega)]; exact this
  · rename_i h
    refine ⟨0, rfl, ?_⟩
    rw [Int.max_eq_right (by omega)]
    exact ⟨by omega, by intro g; omega⟩

theorem makerRebateFloor_spec {m : Market} (hv : ValidFees m) {a : Int} (h0 : 0 ≤ a) (h1 : a ≤ u64Max) :
    ∃ f, m.makerRebateFloor a = .ok f ∧ IsFloorFee a (max (-m.makerFee) 0) f := by
  unfold Market.makerRebateFloor
  split
  · rename_i h
    refine ⟨0, rfl, ?_⟩
    rw [Int.max_eq_right (by omega)]
    exact ⟨by omega, by intro g; omega⟩
  · rename_i h
    have := unsignedMakerFeesFloor_spec hv h0 h1
    rw [natAbs_nonpos h] at this
    rw [Int.max_eq_left (by omega)]; exact this

end OB
