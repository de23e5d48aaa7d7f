import Verif.Model.Program
/-!
The instructions that the two client libraries build, as the operation the program is asked for and the accounts marked as signers:
ts/client/src/client.ts and lib/client/src/client.rs.  The market and open orders accounts that the builders read are the ones on chain
(`m`, `a`); accounts that the program checks against the market (books, heap, vaults, oracles, token program) are passed from the market
by both libraries and are left out, as in `Op`.  The clock and the oracle price are what the program sees when the instruction runs.
-/
namespace OB.Sent

/-- An instruction as built: what it asks for and which accounts must have signed the transaction.  An optional account that was passed
as `null`/`None` is 0 in the operation; the account with the all-zero key passed as a signer is 0 in the operation and among `signers`. -/
structure Ix where
  op : Op
  signers : List Pubkey

/-- A transaction with this instruction, signed with `keys`: the runtime refuses it when a signature is missing. -/
def Ix.run (i : Ix) (s : State) (keys : List Pubkey) : R State := do
  req (i.signers.all (fun k => k ∈ keys) = true) .constraint
  step s i.op

/-- client.ts:601-603 and 991-995: the default key becomes `null`. -/
def given (k : Pubkey) : List Pubkey := if k = 0 then [] else [k]

/-- client.ts:583-628 `placeOrderIx`. -/
def tsPlaceOrder (m : Market) (wallet oo userToken : Pubkey) (args : PlaceOrderArgs) (rem : List Pubkey) (delegate : Option Pubkey)
    (now : Int) (oracle : Option Int) : Ix :=
  let signer := delegate.getD wallet
  { op := .placeOrder { signer, ooKey := oo, admin := m.openOrdersAdmin, userToken, now, oracle, rem } args,
    signers := signer :: given m.openOrdersAdmin }

/-- client.ts:810-832 `cancelOrderByIdIx`: the signer is the owner of the account also when a delegate is given. -/
def tsCancelById (a : OOA) (oo : Pubkey) (id : Nat) (_delegate : Option Pubkey) : Ix :=
  { op := .cancelOrder a.owner oo id, signers := [a.owner] }

/-- client.ts:834-856 `cancelOrderByClientIdIx` -/
def tsCancelByClientId (a : OOA) (oo : Pubkey) (client : Nat) (_delegate : Option Pubkey) : Ix :=
  { op := .cancelByClientId a.owner oo client, signers := [a.owner] }

/-- client.ts:858-881 `cancelAllOrdersIx` -/
def tsCancelAll (a : OOA) (oo : Pubkey) (limit : Nat) (side : Option Side) (_delegate : Option Pubkey) : Ix :=
  { op := .cancelAll a.owner oo side limit, signers := [a.owner] }

/-- client.ts:497-521 `depositIx` -/
def tsDeposit (a : OOA) (oo userBase userQuote : Pubkey) (base quote now : Int) : Ix :=
  { op := .deposit a.owner oo userBase userQuote now base quote, signers := [a.owner] }

/-- client.ts:912-946 `settleFundsIx` -/
def tsSettleFunds (a : OOA) (oo userBase userQuote : Pubkey) (referrer : Option Pubkey) (penaltyPayer : Pubkey)
    (delegate : Option Pubkey) : Ix :=
  let signer := delegate.getD a.owner
  { op := .settleFunds { signer, penaltyPayer, ooKey := oo, userBase, userQuote, referrer }, signers := [signer, penaltyPayer] }

/-- client.ts:978-1006 `consumeEventsIx` -/
def tsConsumeEvents (m : Market) (limit : Nat) (rem : List Pubkey) : Ix :=
  { op := .consumeEvents m.consumeEventsAdmin limit rem, signers := given m.consumeEventsAdmin }

/-- client.ts:1040-1061 `consumeGivenEventsIx` (and 1009-1037): the key of the admin is passed as it is. -/
def tsConsumeGivenEvents (m : Market) (slots : List Nat) (rem : List Pubkey) : Ix :=
  { op := .consumeGivenEvents m.consumeEventsAdmin slots rem, signers := [m.consumeEventsAdmin] }

/-- client.ts:630-675 `placeOrderPeggedIx`: the caller gives the admin, if any.  The key of the oracle is passed as it is, also the default key. -/
def tsPlaceOrderPegged (wallet oo userToken : Pubkey) (admin : Option Pubkey) (args : PlaceOrderPeggedArgs) (rem : List Pubkey)
    (delegate : Option Pubkey) (now : Int) (oracle : Option Int) : Ix :=
  let signer := delegate.getD wallet
  { op := .placeOrderPegged { signer, ooKey := oo, admin := admin.getD 0, userToken, now, oracle, rem } { args with zeroOracle := true },
    signers := signer :: admin.toList }

/-- client.ts:677-722 `placeTakeOrderIx`: the wallet pays the penalty. -/
def tsPlaceTakeOrder (wallet userBase userQuote : Pubkey) (admin : Option Pubkey) (args : PlaceOrderArgs) (rem : List Pubkey)
    (delegate : Option Pubkey) (now : Int) (oracle : Option Int) : Ix :=
  let signer := delegate.getD wallet
  { op := .placeTakeOrder { signer, penaltyPayer := wallet, admin := admin.getD 0, userBase, userQuote, now, oracle, rem } args,
    signers := signer :: wallet :: admin.toList }

/-- client.ts:725-765 `cancelAllAndPlaceOrdersIx` and 768-808 `placeOrdersIx`: no remaining accounts. -/
def tsPlaceOrders (cancel : Bool) (wallet oo userBase userQuote : Pubkey) (admin : Option Pubkey) (t : PlaceOrderType) (bids asks : List MultiArgs)
    (limit : Nat) (delegate : Option Pubkey) (now : Int) (oracle : Option Int) : Ix :=
  let signer := delegate.getD wallet
  { op := .placeOrders { signer, ooKey := oo, admin := admin.getD 0, userBase, userQuote, now, oracle, rem := [] } cancel t bids asks limit,
    signers := signer :: admin.toList }

/-- client.ts:1063-1089 `pruneOrdersIx` -/
def tsPruneOrders (m : Market) (oo : Pubkey) (limit : Nat) (now : Int) : Ix :=
  { op := .pruneOrders m.closeMarketAdmin oo now limit, signers := [m.closeMarketAdmin] }

/-- client.ts:311-338 `closeMarketIx` -/
def tsCloseMarket (m : Market) (now : Int) : Ix :=
  { op := .closeMarket m.closeMarketAdmin now, signers := [m.closeMarketAdmin] }

/-- lib/client/src/client.rs:695-708 `send_and_confirm_owner_tx`: who signs the transactions of the Rust client. -/
def rustKeys (owner payer : Pubkey) : List Pubkey := [owner, payer]

/-- lib/client/src/client.rs:380-433 `place_order`: `open_orders_admin: None`, no remaining accounts. -/
def rustPlaceOrder (owner oo userToken : Pubkey) (args : PlaceOrderArgs) (now : Int) (oracle : Option Int) : Ix :=
  { op := .placeOrder { signer := owner, ooKey := oo, admin := 0, userToken, now, oracle, rem := [] } args, signers := [owner] }

/-- lib/client/src/client.rs:435-489 `place_order_pegged`: `market.oracle_a.into()` is `None` on a market without oracle. -/
def rustPlaceOrderPegged (owner oo userToken : Pubkey) (args : PlaceOrderPeggedArgs) (now : Int) (oracle : Option Int) : Ix :=
  { op := .placeOrderPegged { signer := owner, ooKey := oo, admin := 0, userToken, now, oracle, rem := [] }
      { args with zeroOracle := false },
    signers := [owner] }

/-- lib/client/src/client.rs:491-516 `cancel_order` -/
def rustCancelOrder (owner oo : Pubkey) (id : Nat) : Ix :=
  { op := .cancelOrder owner oo id, signers := [owner] }

/-- lib/client/src/client.rs:518-548 `cancel_all_orders` -/
def rustCancelAll (owner oo : Pubkey) (side : Option Side) (limit : Nat) : Ix :=
  { op := .cancelAll owner oo side limit, signers := [owner] }

/-- lib/client/src/client.rs:550-595 `cancel_all_and_place_orders`: `market.open_orders_admin.into()`. -/
def rustCancelAllAndPlace (m : Market) (owner oo userBase userQuote : Pubkey) (t : PlaceOrderType) (bids asks : List MultiArgs)
    (limit : Nat) (now : Int) (oracle : Option Int) : Ix :=
  { op := .placeOrders { signer := owner, ooKey := oo, admin := m.openOrdersAdmin, userBase, userQuote, now, oracle, rem := [] }
      true t bids asks limit,
    signers := owner :: given m.openOrdersAdmin }

/-- lib/client/src/client.rs:597-630 `deposit` -/
def rustDeposit (owner oo userBase userQuote : Pubkey) (base quote now : Int) : Ix :=
  { op := .deposit owner oo userBase userQuote now base quote, signers := [owner] }

/-- lib/client/src/client.rs:632-668 `settle_funds` -/
def rustSettleFunds (owner oo userBase userQuote : Pubkey) (referrer : Option Pubkey) : Ix :=
  { op := .settleFunds { signer := owner, penaltyPayer := owner, ooKey := oo, userBase, userQuote, referrer },
    signers := [owner, owner] }

/-- lib/client/src/client.rs:670-693 `consume_events`: no remaining accounts. -/
def rustConsumeEvents (m : Market) (limit : Nat) : Ix :=
  { op := .consumeEvents m.consumeEventsAdmin limit [], signers := given m.consumeEventsAdmin }

end OB.Sent
