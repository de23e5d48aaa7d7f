import Verif.Model.Ui
/-! What properties of the conversions for display are about. -/
namespace OB.Spec

/-- The price of one lot as people write it: quote units per base unit. -/
def lotPrice (m : Ui.Mkt) : Rat := 10 ^ ((m.baseDecimals : Int) - m.quoteDecimals) * m.quoteLotSize / m.baseLotSize

/-- The lot sizes of a market are positive and fit i64, the decimals are not extreme. -/
structure UiMarket (m : Ui.Mkt) : Prop where
  base : 1 ≤ m.baseLotSize ∧ m.baseLotSize ≤ 2 ^ 63
  quote : 1 ≤ m.quoteLotSize ∧ m.quoteLotSize ≤ 2 ^ 63
  baseDecimals : m.baseDecimals ≤ 15
  quoteDecimals : m.quoteDecimals ≤ 20

end OB.Spec
