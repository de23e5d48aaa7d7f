import Verif.Spec.Spread
/-!
Vocabulary for trading around the take orders of others.  Used only in statements.
-/
namespace OB.Spec
open OB

/-- The instruction is the group's own (or places no order), or it is a take order, at this time and oracle price and paid from two token
accounts of which none is a vault. -/
def AloneOrTake (K : Pubkey → Bool) (now : Int) (oracle : Option Int) (d : Done) : Prop :=
  ActsAlone K now oracle d.op ∨ ∃ c a, d.op = .placeTakeOrder c a ∧ c.now = now ∧ c.oracle = oracle ∧ Wallets d.before c.userBase c.userQuote

/-- The value of an amount of base and an amount of quote at `P` per lot.  Everything is multiplied by the base lot size, to remain whole. -/
def valued (m : Market) (P base quote : Int) : Int := base * (P * m.quoteLotSize) + quote * m.baseLotSize

/-- What the sender of a take order loses by it, at value `P`: what leaves the token accounts less what arrives in them. -/
def takerLoss (P : Int) (d : Done) : Int :=
  match d.op with
  | .placeTakeOrder c _ => valued d.before.g.market P (tokens d.before c.userBase - tokens d.after c.userBase)
      (tokens d.before c.userQuote - tokens d.after c.userQuote)
  | _ => 0

end OB.Spec
