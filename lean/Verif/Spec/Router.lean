import Verif.Model.Router
import Verif.Spec.Accept
/-!
Vocabulary for the adapter of the swap router.  Used only in statements.
-/
namespace OB.Spec
open OB Router

/-- Adapter `a` was made from the market account at some earlier time, and was updated any number of times since; now the state is `s`.
With `lives = false` the market was not closed and created again in between. -/
inductive Tracks (lives : Bool) : State → Adapter → Prop
  | made (s : State) (hr : Reachable s) (ho : s.closed = false) : Tracks lives s (fromKeyedAccount s.marketKey s.g.market)
  | later (s s' : State) (a : Adapter) (op : Op) (ht : Tracks lives s a) (h : step s op = .ok s') : Tracks lives s' a
  | again (s s' : State) (a : Adapter) (args : CreateArgs) (now : Int) (hl : lives = true) (ht : Tracks lives s a)
      (h : recreateMarket s args now = .ok s') : Tracks lives s' a
  | updated (s : State) (a a' : Adapter) (o : Outcome) (clock : Int) (oracle : R (Option Int)) (ht : Tracks lives s a)
      (h : update a (accountMap s clock oracle) = .ok (a', o)) : Tracks lives s a'

/-- The accounts are those that the market names (accounts_ix/place_take_order.rs:15-26). -/
structure Named (s : State) (x : TakeAccounts) : Prop where
  market : x.market = s.marketKey
  authority : x.marketAuthority = s.g.market.marketAuthority
  baseVault : x.baseVault = s.g.market.marketBaseVault
  quoteVault : x.quoteVault = s.g.market.marketQuoteVault
  oracleA : x.oracleA = s.g.market.oracleA
  oracleB : x.oracleB = s.g.market.oracleB
  admin : x.admin = s.g.market.openOrdersAdmin

/-- What the user of the router brings to a swap that sells base (`ask`) or quote (`bid`): two wallets of the right mints and a key that
owns them and can pay a penalty. -/
structure Swapper (s : State) (side : Side) (p : SwapParams) : Prop where
  signer : s.g.accts.get? p.authority = none
  notVault : p.authority ≠ s.g.market.marketAuthority
  source : (s.tokens p.source).mint = (s.tokens (vaultFor s side)).mint ∧ (s.tokens p.source).mint ≠ 0
  destination : (s.tokens p.destination).mint = (s.tokens (vaultFor s side.invert)).mint ∧ (s.tokens p.destination).mint ≠ 0
  owned : (s.tokens p.source).owner = p.authority ∧ (s.tokens p.destination).owner = p.authority
  lamports : 500 ≤ s.lamports p.authority ∧ 0 ≤ s.lamports s.marketKey ∧ s.lamports s.marketKey + 500 ≤ u64Max

end OB.Spec
