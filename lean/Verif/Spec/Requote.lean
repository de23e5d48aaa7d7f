import Verif.Spec.OneByOne
import Verif.Spec.Engine
/-!
What is left of a batch of orders in the book.  Used only in statements.
-/
namespace OB.Spec
open OB

/-- The resting order is what is left of an entry of a batch placed at time `now`: it is on the side of the entry, at its price (a
sliding order may rest at a worse price for the taker), with the position of the entry as client order id, the time until its expiry
as time in force, and what it would trade is worth at most the amount of the entry. -/
structure QuoteOf (t : PlaceOrderType) (now : Int) (e : Side × Nat × MultiArgs) (sd : Side) (c : Comp) (l : LeafNode) : Prop where
  type : t = .limit ∨ t = .postOnly ∨ t = .postOnlySlide
  side : sd = e.1
  comp : c = .fixed
  client : l.clientOrderId = e.2.1
  time : (l.timestamp : Int) = now
  expiry : (e.2.2.expiry = 0 ∧ l.timeInForce = 0) ∨
    (now < e.2.2.expiry ∧ (l.timeInForce : Int) = min (e.2.2.expiry - now) 65535)
  size : 1 ≤ l.quantity
  limit : within sd (l.key / 2 ^ 64 : Nat) e.2.2.priceLots
  exact : t ≠ .postOnlySlide → ((l.key / 2 ^ 64 : Nat) : Int) = e.2.2.priceLots
  budget : l.quantity * (l.key / 2 ^ 64 : Nat) ≤ e.2.2.maxQuoteLots

/-- The orders of an account on one side. -/
def quotes (s : State) (k : Pubkey) (side : Side) : List (Side × Comp × LeafNode) :=
  s.book.resting.filter (fun x => decide (x.2.2.owner = k ∧ x.1 = side))

/-- What a resting order of a fixed price would trade, in quote lots. -/
def worth (x : Side × Comp × LeafNode) : Int := x.2.2.quantity * ((x.2.2.key / 2 ^ 64 : Nat) : Int)

end OB.Spec
