import Verif.Model.World
/-!
Vocabulary about a deployment.  Used only in statements.
-/
namespace OB.Spec

/-- Open orders account `x` exists, belongs to market `k`, and has the contents `a`. -/
def LivesIn (w : World) (k x : Pubkey) (a : OOA) : Prop := ∃ p, w.markets k = some p ∧ p.g.accts.get? x = some a

/-- The market that an operation is for, if any.  Closing an account names no market: it is for the one the account belongs to. -/
def concerns (w : World) : WOp → Option Pubkey
  | .market k _ => some k
  | .createMarket a _ => some a.marketKey
  | .createOO k _ _ => some k
  | .closeOO x _ => w.home x
  | _ => none

end OB.Spec
