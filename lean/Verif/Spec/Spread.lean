import Verif.Spec.Group
/-!
Vocabulary for trading against standing orders of others.  Used only in statements.
-/
namespace OB.Spec
open OB

/-- At time `now` and oracle price `oracle` nobody outside group `K` offers to sell for less than `A` or to buy for more than `B`. -/
structure Spread (K : Pubkey → Bool) (s : State) (now : Int) (oracle : Option Int) (B A : Int) : Prop where
  asks : ∀ (n : Nat) c l p, (n : Int) = now → (Side.ask, c, l) ∈ s.book.resting → K l.owner = false → TradableAt n oracle .ask c l p → A ≤ p
  bids : ∀ (n : Nat) c l p, (n : Int) = now → (Side.bid, c, l) ∈ s.book.resting → K l.owner = false → TradableAt n oracle .bid c l p → p ≤ B

/-- The instruction places orders for an account of the group, at this time and oracle price, or none. -/
def ActsAlone (K : Pubkey → Bool) (now : Int) (oracle : Option Int) (op : Op) : Prop :=
  ∀ p, placer op = some p → p.hasOO = true ∧ K p.owner = true ∧ p.now = now ∧ p.oracle = oracle

/-- From `s` to `s'` one trader, with token accounts `ub` and `uq`, sends take orders, at one time and oracle price.  In between others may
do whatever leaves no new order on the book and does not touch these token accounts. -/
inductive ToAndFro (now : Int) (oracle : Option Int) (ub uq : Pubkey) : State → State → Prop
  | nil (s : State) : ToAndFro now oracle ub uq s s
  | take (s s1 s' : State) (c : TakeCtx) (a : PlaceOrderArgs) (h : step s (.placeTakeOrder c a) = .ok s1)
      (hc : c.userBase = ub ∧ c.userQuote = uq ∧ c.now = now ∧ c.oracle = oracle) (hs : ToAndFro now oracle ub uq s1 s') :
      ToAndFro now oracle ub uq s s'
  | other (s s1 s' : State) (op : Op) (h : step s op = .ok s1) (hp : ∀ p, placer op = some p → p.hasOO = false)
      (hk : tokens s1 ub = tokens s ub ∧ tokens s1 uq = tokens s uq) (hs : ToAndFro now oracle ub uq s1 s') : ToAndFro now oracle ub uq s s'

/-- Two token accounts, neither of which is a vault of the market. -/
structure Wallets (s : State) (ub uq : Pubkey) : Prop where
  two : ub ≠ uq
  base : ub ≠ s.g.market.marketBaseVault ∧ ub ≠ s.g.market.marketQuoteVault
  quote : uq ≠ s.g.market.marketBaseVault ∧ uq ≠ s.g.market.marketQuoteVault

end OB.Spec
