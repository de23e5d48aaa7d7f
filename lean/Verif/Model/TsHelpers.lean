import Verif.Model.TsSend
import Verif.Model.ClientIx
/-!
The functions of the TypeScript library that send a transaction themselves: which signatures their instructions need, and which signers they
hand to `sendAndConfirmTransaction`.  What the instructions do is in other files (Model/ClientIx, Model/ClientAccounts, Model/TsTrade); their
number in the list of instructions is their `body` here.
-/
namespace OB.TsSend

/-- What a function sends: the instructions and `additionalSigners`. -/
structure Sending where
  ixs : List Ix
  signers : List Nat
  deriving DecidableEq, Repr

/-- client.ts:137-160 `createProgramAccount`.  `SystemProgram.createAccount` must be signed by who pays and by the new account; `address` is
the key pair made for it. -/
def createProgramAccount (authority address : Pubkey) : Sending :=
  ⟨[.call [authority, address] 0], [authority, address]⟩

/-- client.ts:349-363 `createOpenOrdersIndexer`: payer and owner sign (accounts_ix/create_open_orders_indexer.rs:6-8). -/
def createOpenOrdersIndexer (wallet : Pubkey) : Sending :=
  ⟨[.call [wallet, wallet] 0], []⟩

/-- client.ts:472-495 `createOpenOrders` with client.ts:424-470 and 365-377: the wallet is the payer of both instructions
(accounts_ix/create_open_orders_account.rs:6-8).  `hasIndexer`: the owner has an indexer.  `same`: `owner` and `payer` are the same object,
as they are if no owner is given. -/
def createOpenOrders (wallet payer owner : Pubkey) (hasIndexer same : Bool) : Sending :=
  ⟨(if hasIndexer then [] else [.call [wallet, owner] 0]) ++ [.call [wallet, owner] 1],
    payer :: (if same then [] else [owner])⟩

/-- openOrders.ts:183-219 `placeOrder`: the instruction of client.ts:583-628. -/
def sendPlaceOrder (m : Market) (wallet oo userToken : Pubkey) (args : PlaceOrderArgs) (rem : List Pubkey) (delegate : Option Pubkey) : Sending :=
  ⟨[.call (Sent.tsPlaceOrder m wallet oo userToken args rem delegate 0 none).signers 0], delegate.toList⟩

/-- openOrders.ts:221-240 `cancelOrder`, by the order itself or by its client id: the instruction of client.ts:810-832 or 834-856. -/
def sendCancelOrder (a : OOA) (oo : Pubkey) (id : Nat ⊕ Nat) (delegate : Option Pubkey) : Sending :=
  ⟨[match id with
    | .inl id => .call (Sent.tsCancelById a oo id delegate).signers 0
    | .inr client => .call (Sent.tsCancelByClientId a oo client delegate).signers 0], delegate.toList⟩

/-- openOrders.ts:242-303 `cancelAllOrders`: cancel, create the token accounts (signed by who pays for them), settle. -/
def sendCancelAll (a : OOA) (wallet oo userBase userQuote : Pubkey) (referrer delegate : Option Pubkey) (side : Option Side) : Sending :=
  let payer := delegate.getD wallet
  ⟨[.call (Sent.tsCancelAll a oo 24 side delegate).signers 0, .call [payer] 1, .call [payer] 2] ++
    (match referrer with
    | none => []
    | some _ => [.call [payer] 3]) ++
    [.call (Sent.tsSettleFunds a oo userBase userQuote referrer payer delegate).signers 4], delegate.toList⟩

end OB.TsSend
