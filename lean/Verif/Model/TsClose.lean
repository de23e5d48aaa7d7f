import Verif.Model.World
/-!
The two functions of the TypeScript library that close accounts of an owner: `closeOpenOrdersAccountIx` and `closeOpenOrdersIndexerIx`,
ts/client/src/client.ts:883-976.  The program finds the indexer by its address, which is derived from the owner (`idx`).
-/
namespace OB.TsClose

/-- An instruction as built, with the signers returned beside it. -/
structure Built where
  owner : Pubkey
  indexer : Pubkey
  dest : Pubkey
  signers : List Pubkey

/-- client.ts:948-976 `closeOpenOrdersAccountIx`, without the address of the account to close.  `same`: `owner.publicKey` is the very object
that is the key of the wallet (`!==` compares objects). -/
def closeAccountIx (idx : Pubkey → Pubkey) (wallet owner : Pubkey) (dest indexer : Option Pubkey) (same : Bool) : Built :=
  { owner, indexer := indexer.getD (idx owner), dest := dest.getD wallet, signers := if same then [] else [owner] }

/-- client.ts:883-910 `closeOpenOrdersIndexerIx`: the asks of the market as the indexer, the bids as the receiver of the rent.  The indexer
that is given or derived (client.ts:888-890) is not used. -/
def closeIndexerIx (_idx : Pubkey → Pubkey) (owner asks bids : Pubkey) (_indexer : Option Pubkey) (same : Bool) : Built :=
  { owner, indexer := asks, dest := bids, signers := if same then [] else [owner] }

/-- The program on an instruction to close the account `x`, in a transaction signed by the wallet and the signers returned.  The indexer must be
at the address derived from the owner (accounts_ix/close_open_orders_account.rs:7-13). -/
def runCloseAccount (A : Addresses) (idx : Pubkey → Pubkey) (w : World) (wallet x : Pubkey) (b : Built) : R World := do
  req (b.owner ∈ wallet :: b.signers) .constraint
  req (b.indexer = idx b.owner) .constraint
  w.closeOO A x b.owner

/-- The program on an instruction to close an indexer (accounts_ix/close_open_orders_indexer.rs:6-15). -/
def runCloseIndexer (A : Addresses) (idx : Pubkey → Pubkey) (w : World) (wallet : Pubkey) (b : Built) : R World := do
  req (b.owner ∈ wallet :: b.signers) .constraint
  req (b.indexer = idx b.owner) .constraint
  w.closeIndexer A b.owner

end OB.TsClose
