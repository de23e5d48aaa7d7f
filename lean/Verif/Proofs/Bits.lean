import Verif.Proofs.Basic
import Verif.Model.OrderTree
import Mathlib.Data.Nat.Bitwise
/-! Bit lemmas for the crit-bit tree. -/
namespace OB

theorem xor_eq_zero' {x y : Nat} : x ^^^ y = 0 ↔ x = y := by
  constructor
  · intro h
    apply Nat.eq_of_testBit_eq
    intro i
    have := congrArg (fun z => z.testBit i) h
    simp only [Nat.testBit_xor, Nat.zero_testBit] at this
    revert this
    cases x.testBit i <;> cases y.testBit i <;> simp
  · rintro rfl; exact Nat.xor_self x

/-- The top `p` of 128 bits agree. -/
def Share (p x y : Nat) : Prop := x >>> (128 - p) = y >>> (128 - p)

theorem Share.refl (p x : Nat) : Share p x x := rfl
theorem Share.symm {p x y : Nat} (h : Share p x y) : Share p y x := Eq.symm h
theorem Share.trans {p x y z : Nat} (h : Share p x y) (h' : Share p y z) : Share p x z := Eq.trans h h'

theorem Share.mono {p q x y : Nat} (h : Share p x y) (hq : q ≤ p) : Share q x y := by
  unfold Share at *
  have e : 128 - q = (128 - p) + ((128 - q) - (128 - p)) := by omega
  rw [e, Nat.shiftRight_add, Nat.shiftRight_add, h]

theorem Share.testBit {p x y j : Nat} (h : Share p x y) (hj : 128 - p ≤ j) : x.testBit j = y.testBit j := by
  have h1 := congrArg (fun z => z.testBit (j - (128 - p))) h
  simp only [Nat.testBit_shiftRight] at h1
  rwa [show 128 - p + (j - (128 - p)) = j by omega] at h1

theorem Share.critBit {p q x y : Nat} (h : Share p x y) (hq : q < p) (hp : p ≤ 128) : critBit q x = critBit q y := by
  unfold OB.critBit; exact h.testBit (by omega)

theorem shiftRight_eq_zero_iff' {z n : Nat} : z >>> n = 0 ↔ z < 2 ^ n := by
  rw [Nat.shiftRight_eq_div_pow, Nat.div_eq_zero_iff]
  have : 2 ^ n ≠ 0 := Nat.pos_iff_ne_zero.mp (Nat.two_pow_pos n)
  omega

theorem leadingZeros_ge {z p : Nat} (hz : z < 2 ^ 128) (hp : p ≤ 128) : leadingZeros z ≥ p ↔ z < 2 ^ (128 - p) := by
  unfold leadingZeros
  split
  · rename_i h; subst h; simp [hp, Nat.two_pow_pos]
  · rename_i h
    have h1 := (Nat.log2_lt h (k := 128)).mpr hz
    rw [← Nat.log2_lt h]
    omega

theorem leadingZeros_share {x y p : Nat} (hx : x < 2 ^ 128) (hy : y < 2 ^ 128) (hp : p ≤ 128) :
    leadingZeros (x ^^^ y) ≥ p ↔ Share p x y := by
  rw [leadingZeros_ge (Nat.xor_lt_two_pow hx hy) hp, ← shiftRight_eq_zero_iff', Nat.shiftRight_xor_distrib]
  unfold Share
  constructor
  · intro h; exact xor_eq_zero'.mp h
  · intro h; exact xor_eq_zero'.mpr h

theorem leadingZeros_ne {x y : Nat} (hx : x < 2 ^ 128) (hy : y < 2 ^ 128) (hne : x ≠ y) :
    leadingZeros (x ^^^ y) ≤ 127 ∧ Share (leadingZeros (x ^^^ y)) x y ∧
      critBit (leadingZeros (x ^^^ y)) x = !critBit (leadingZeros (x ^^^ y)) y := by
  have hz : x ^^^ y ≠ 0 := fun h => hne (xor_eq_zero'.mp h)
  have hlt := (Nat.log2_lt hz (k := 128)).mpr (Nat.xor_lt_two_pow hx hy)
  have he : leadingZeros (x ^^^ y) = 127 - (x ^^^ y).log2 := by unfold leadingZeros; rw [if_neg hz]
  refine ⟨by omega, (leadingZeros_share hx hy (by omega)).mp (Nat.le_refl _), ?_⟩
  have hb : (x ^^^ y).testBit (x ^^^ y).log2 = true := Nat.testBit_log2 hz
  unfold OB.critBit
  rw [he, show 127 - (127 - (x ^^^ y).log2) = (x ^^^ y).log2 by omega]
  rw [Nat.testBit_xor] at hb
  revert hb
  cases x.testBit (x ^^^ y).log2 <;> cases y.testBit (x ^^^ y).log2 <;> simp

theorem lt_of_critBit {x y p : Nat} (hp : p ≤ 127) (h : Share p x y) (hx : critBit p x = false) (hy : critBit p y = true) :
    x < y := by
  unfold OB.critBit at *
  refine Nat.lt_of_testBit (127 - p) hx hy ?_
  intro j hj
  exact h.testBit (by omega)

end OB
