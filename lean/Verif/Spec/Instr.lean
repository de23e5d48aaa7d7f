import Verif.Spec.Engine
import Verif.Spec.Cancel
import Verif.Spec.Ledger
/-!
Vocabulary about instructions: who signs them, what they are for.  Used only in statements.
-/
namespace OB.Spec

/-- An optional account: 0 stands for none. -/
def ifGiven (k : Pubkey) : List Pubkey := if k = 0 then [] else [k]

/-- The accounts whose signature an instruction requires.  The admin of placing and consuming instructions is an optional account
that signs if given.  What other programs do needs no signature known to this program. -/
def signers : Op → List Pubkey
  | .placeOrder c _ | .placeOrderPegged c _ | .editOrder c _ _ _ | .editOrderPegged c _ _ _ => c.signer :: ifGiven c.admin
  | .placeOrders c _ _ _ _ _ => c.signer :: ifGiven c.admin
  | .placeTakeOrder c _ => c.signer :: c.penaltyPayer :: ifGiven c.admin
  | .consumeEvents admin _ _ | .consumeGivenEvents admin _ _ => ifGiven admin
  | .cancelOrder signer _ _ | .cancelByClientId signer _ _ | .cancelAll signer _ _ _ => [signer]
  | .deposit signer _ _ _ _ _ _ | .refill signer _ _ _ _ _ _ => [signer]
  | .settleFunds c => [c.signer, c.penaltyPayer]
  | .settleFundsExpired admin c _ => [admin, c.signer, c.penaltyPayer]
  | .sweepFees admin _ => [admin]
  | .pruneOrders admin _ _ _ | .setMarketExpired admin _ | .closeMarket admin _ => [admin]
  | .createOO _ owner _ | .closeOO _ owner | .setDelegate _ owner _ => [owner]
  | .externalToken .. | .externalLamports .. => []

/-- What other programs do. -/
def external : Op → Bool
  | .externalToken .. | .externalLamports .. => true
  | _ => false

/-- The instructions that pay out of the vaults. -/
def withdraws : Op → Bool
  | .placeTakeOrder .. | .settleFunds .. | .settleFundsExpired .. | .sweepFees .. => true
  | _ => false

/-- The instructions that take events off the queue. -/
def consuming : Op → Bool
  | .consumeEvents .. | .consumeGivenEvents .. => true
  | _ => false

/-- The clock that an instruction reads, if it depends on the time. -/
def clock : Op → Option Int
  | .placeOrder c _ | .placeOrderPegged c _ | .editOrder c _ _ _ | .editOrderPegged c _ _ _ => some c.now
  | .placeOrders c _ _ _ _ _ => some c.now
  | .placeTakeOrder c _ => some c.now
  | .deposit _ _ _ _ now _ _ | .refill _ _ _ _ now _ _ => some now
  | .settleFundsExpired _ _ now | .pruneOrders _ _ now _ | .setMarketExpired _ now | .closeMarket _ now => some now
  | _ => none

/-- Who places orders in an instruction: the signer; the account that owns the orders (the signer itself for a take order, which
needs no open orders account); clock and oracle price. -/
structure Placer where
  signer : Pubkey
  owner : Pubkey
  hasOO : Bool
  admin : Pubkey
  now : Int
  oracle : Option Int

def placer : Op → Option Placer
  | .placeOrder c _ | .placeOrderPegged c _ | .editOrder c _ _ _ | .editOrderPegged c _ _ _ =>
    some { signer := c.signer, owner := c.ooKey, hasOO := true, admin := c.admin, now := c.now, oracle := c.oracle }
  | .placeOrders c _ _ _ _ _ =>
    some { signer := c.signer, owner := c.ooKey, hasOO := true, admin := c.admin, now := c.now, oracle := c.oracle }
  | .placeTakeOrder c _ =>
    some { signer := c.signer, owner := c.signer, hasOO := false, admin := c.admin, now := c.now, oracle := c.oracle }
  | _ => none

/-- How the charges of the calls `cs`, which left the ledger `g1`, are paid: out of the free balance of the account as far as it
goes, the rest with tokens paid into the vaults.  Nobody else's account changes, and no order of the account.  (A take order has no
account; what it pays is not described here.) -/
structure Paid (s s' : State) (p : Placer) (cs : List (Env × OrderResult)) (g1 : Ledger) : Prop where
  others : ∀ k, p.hasOO = false ∨ k ≠ p.owner → s'.g.accts.get? k = g1.accts.get? k
  account : p.hasOO = true → ∃ a a', g1.accts.get? p.owner = some a ∧ s'.g.accts.get? p.owner = some a' ∧
    a'.owner = a.owner ∧ a'.openOrders = a.openOrders ∧
    a'.position.baseFreeNative = a.position.baseFreeNative - min (chargedBase cs) a.position.baseFreeNative ∧
    a'.position.quoteFreeNative = a.position.quoteFreeNative - min (chargedQuote cs) a.position.quoteFreeNative ∧
    tokens s' s.g.market.marketBaseVault =
      tokens s s.g.market.marketBaseVault + (chargedBase cs - min (chargedBase cs) a.position.baseFreeNative) ∧
    tokens s' s.g.market.marketQuoteVault =
      tokens s s.g.market.marketQuoteVault + (chargedQuote cs - min (chargedQuote cs) a.position.quoteFreeNative)
  rest : p.hasOO = true → ∀ a a', g1.accts.get? p.owner = some a → s'.g.accts.get? p.owner = some a' →
    a' = { a with position := { a.position with
      baseFreeNative := a'.position.baseFreeNative, quoteFreeNative := a'.position.quoteFreeNative
      penaltyHeapCount := a'.position.penaltyHeapCount } }

/-- How a placing instruction gets from `s` to `s'`: first, in `edit_order` and `cancel_all_and_place_orders`, it cancels orders of
its account, which leads to `s1`; then it makes the calls `cs` of the matching engine, in the name of its account and at its time and
oracle price; then they are paid. -/
structure Placement (s s1 s' : State) (p : Placer) (cs : List (Env × OrderResult)) (g1 : Ledger) : Prop where
  start : s1 = s ∨ (p.hasOO = true ∧ ((∃ client, step s (.cancelByClientId p.signer p.owner client) = .ok s1) ∨
    step s (.cancelAll p.signer p.owner none 255) = .ok s1))
  calls : Calls s1.book s1.g cs s'.book g1
  heap : s'.g.heap = g1.heap
  seq : s'.g.market.seqNum = g1.market.seqNum
  ctx : ∀ x ∈ cs, x.1.owner = p.owner ∧ x.1.hasOO = p.hasOO ∧ (x.1.nowTs : Int) = p.now ∧ x.1.oracle = p.oracle
  live : cs ≠ [] → s.g.market.isExpired p.now = false
  isOpen : s.closed = false
  auth : p.hasOO = true → Controls s p.signer p.owner
  admin : s.g.market.openOrdersAdmin = p.admin
  pays : Paid s s' p cs g1

end OB.Spec
