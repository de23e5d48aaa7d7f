import Verif.Model.Oracle
import Mathlib.Algebra.Order.Field.Rat
/-! The numbers of IEEE 754 binary64 and rounding to nearest, ties to even, as the standard defines them (IEEE 754-2019, 3.3 and 4.3.1). -/
namespace OB.Spec

/-- A finite double: an integer of at most 53 bits times a power of two. -/
def IsDouble (v : Rat) : Prop := ∃ m e : Int, |m| < 2 ^ 53 ∧ -1074 ≤ e ∧ e ≤ 971 ∧ v = m * 2 ^ e

/-- A finite double whose significand is even: in the form with 53 bits, or with the smallest exponent. -/
def EvenDouble (v : Rat) : Prop :=
  ∃ m e : Int, |m| < 2 ^ 53 ∧ (2 ^ 52 ≤ |m| ∨ e = -1074) ∧ -1074 ≤ e ∧ e ≤ 971 ∧ v = m * 2 ^ e ∧ m % 2 = 0

/-- `v` is the double nearest to `q`, and if another one is as near, the even one. -/
structure Nearest (q v : Rat) : Prop where
  double : IsDouble v
  near : ∀ w, IsDouble w → |q - v| ≤ |q - w|
  even : ∀ w, IsDouble w → w ≠ v → |q - w| = |q - v| → EvenDouble v

/-- From here on numbers are rounded to infinity: the largest double and half of the distance to the next power of two. -/
def overflowFrom : Rat := 2 ^ 1024 - 2 ^ 970

/-- `x` is what an exact result `q` is rounded to. -/
def RoundedTo (q : Rat) (x : F64) : Prop :=
  (|q| < overflowFrom ∧ ∃ v, x = .fin v ∧ Nearest q v) ∨ (overflowFrom ≤ |q| ∧ x = .inf (decide (q < 0)))

end OB.Spec
