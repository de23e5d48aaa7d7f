import Verif.Spec.Group
/-!
Vocabulary for accounts that keep to prices of their own.  Used only in statements.
-/
namespace OB.Spec
open OB

/-- Price `p` is one at which to buy (at most `B`) or to sell (at least `A`). -/
def inRange (B A : Int) : Side → Int → Prop
  | .bid, p => p ≤ B
  | .ask, p => A ≤ p

/-- The order asked for keeps to the range: it has a limit price within it, or it is pegged, with a peg limit within it, and does not take (the
peg limit is not looked at when an order takes, C35). -/
structure KeepsTo (B A : Int) (q : Asked) : Prop where
  limit : q.type ≠ .market
  fixed : q.pegLimit = none → inRange B A q.side q.price
  pegged : ∀ lim, q.pegLimit = some lim → 1 ≤ lim ∧ inRange B A q.side lim ∧ (q.type = .postOnly ∨ q.type = .postOnlySlide)

/-- The orders of the group that rest on the book can only trade within the range, whatever the time and the oracle price. -/
def OwnRange (K : Pubkey → Bool) (B A : Int) (book : Book) : Prop :=
  ∀ (now : Nat) oracle side c l p, (side, c, l) ∈ book.resting → K l.owner = true → TradableAt now oracle side c l p → inRange B A side p

/-- Rebates that the group pays to makers outside, as the taker of the trades of an instruction. -/
def rebatesPaid (K : Pubkey → Bool) (d : Done) : Int :=
  if byGroup K d.op then sumFills (d.trades.filter (crosses K true)) (fillRebate d.before.g.market) else 0

end OB.Spec
