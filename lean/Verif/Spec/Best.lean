import Verif.Spec.Match
/-!
Other ways to fill an order from the same offers.  Used only in statements.
-/
namespace OB.Spec
open OB

/-- A way to trade with the offers of `L`: `a o` lots of offer `o`, at most as many as it has, and none of the orders that the taker
cancels instead. -/
structure Choice (env : Env) (L : List Offer) (a : Offer → Int) : Prop where
  nonneg : ∀ o ∈ L, 0 ≤ a o
  offered : ∀ o ∈ L, a o ≤ o.order.quantity
  own : ∀ o ∈ L, cancelsOwn env o.order → a o = 0

/-- The lots it trades. -/
def choiceQty (L : List Offer) (a : Offer → Int) : Int := (L.map a).sum

/-- The quote lots paid or received for them. -/
def choiceQuote (L : List Offer) (a : Offer → Int) : Int := (L.map (fun o => a o * o.price)).sum

end OB.Spec
