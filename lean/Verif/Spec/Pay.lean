import Verif.Spec.Instr
/-!
Vocabulary for how placed orders are paid.  Used only in statements.
-/
namespace OB.Spec
open OB

/-- The token accounts for base and quote that an instruction which places orders for an open orders account pays from.  (`place_order`
and the like come with one token account, of the mint of their side.) -/
def wallets : Op → Option (Pubkey × Pubkey)
  | .placeOrder c _ | .placeOrderPegged c _ | .editOrder c _ _ _ | .editOrderPegged c _ _ _ => some (c.userToken, c.userToken)
  | .placeOrders c _ _ _ _ _ => some (c.userBase, c.userQuote)
  | _ => none

/-- Tokens that arrived in the base vault and in the quote vault. -/
def paidBase (s s' : State) : Int := tokens s' s.g.market.marketBaseVault - tokens s s.g.market.marketBaseVault
def paidQuote (s s' : State) : Int := tokens s' s.g.market.marketQuoteVault - tokens s s.g.market.marketQuoteVault

/-- What arrived in the vaults came from the token accounts `wb` and `wq`; no other token account is touched. -/
structure FromWallets (s s' : State) (wb wq : Pubkey) : Prop where
  base0 : 0 ≤ paidBase s s'
  quote0 : 0 ≤ paidQuote s s'
  tokens : ∀ t, tokens s' t = tokens s t + moved t wb s.g.market.marketBaseVault (paidBase s s') +
    moved t wq s.g.market.marketQuoteVault (paidQuote s s')

end OB.Spec
