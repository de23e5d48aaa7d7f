import Verif.Spec.Match
/-! Sums over the offers of a book side.  Used only in statements. -/
namespace OB.Spec
open OB

/-- Base lots offered. -/
def offered (L : List Offer) : Int := (L.map (·.order.quantity)).sum

/-- Quote lots needed to take all offers. -/
def costOf (L : List Offer) : Int := (L.map (fun o => o.order.quantity * o.price)).sum

/-- The offers of side `s` that a taker with limit `lim` accepts. -/
def accepted (s : Side) (lim : Option Int) (L : List Offer) : List Offer := L.filter (fun o => decide (acceptable s.invert lim o.price))

end OB.Spec
