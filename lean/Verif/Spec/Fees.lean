/-! Exact rounding of a fee `amount * rate / 1 000 000`, stated without division. -/
namespace OB.Spec

/-- `f` is the least integer not below `amount * rate / 10^6`. -/
def IsCeilFee (amount rate f : Int) : Prop :=
  amount * rate ≤ f * 1000000 ∧ ∀ g : Int, amount * rate ≤ g * 1000000 → f ≤ g

/-- `f` is the greatest integer not above `amount * rate / 10^6`. -/
def IsFloorFee (amount rate f : Int) : Prop :=
  f * 1000000 ≤ amount * rate ∧ ∀ g : Int, g * 1000000 ≤ amount * rate → g ≤ f

end OB.Spec
