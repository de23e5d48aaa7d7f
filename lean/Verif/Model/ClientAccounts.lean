import Verif.Model.World
/-!
How the two client libraries create and find the open orders accounts of an owner.  Names are numbers here, and the chain is assumed not to
change between what a client reads and what it sends.
-/
namespace OB

/-- The instruction as it is sent, with the address of the account to create: the program accepts only the address derived from the
counter of the indexer, `seeds` in accounts_ix/create_open_orders_account.rs:21-27. -/
def World.createOOAt (A : Addresses) (w : World) (x k owner delegate : Pubkey) : R World := do
  let ix ← okOr .accountMissing (w.indexers owner)
  req (x = A.next owner ix) .constraint
  w.createOO A k owner delegate

namespace Finder

/-- What a client reads of an open orders account, state/open_orders_account.rs:16-25: the address, the market, the name and the number it
was created with. -/
structure Fetched where
  key : Pubkey
  market : Pubkey
  name : Nat
  num : Nat
deriving DecidableEq

/-- The number of the account to create, lib/client/src/client.rs:126-131.  The code sorts by number and takes the last. -/
def nextNum (found : List Fetched) : Nat :=
  match (found.map Fetched.num).max? with
  | some n => n + 1
  | none => 0

/-- find_or_create_account, lib/client/src/client.rs:112-153, with create_open_orders_account, lib/client/src/client.rs:195-248.  After
creating the account the code fetches again and looks for the name; the new account is the only one with that name. -/
def findOrCreate (A : Addresses) (w : World) (market owner : Pubkey) (name : Nat) (found : List Fetched) : R (World × Pubkey) :=
  match found.find? (fun f => f.name == name) with
  | some f => .ok (w, f.key)
  | none => do
    let x := A.ooAddr owner (nextNum found)
    let w' ← w.createOOAt A x market owner 0
    return (w', x)

/-- An instruction that `createOpenOrdersIx` puts together. -/
inductive Ix
  | createIndexer (owner : Pubkey)
  | createOO (x market owner delegate : Pubkey)
deriving DecidableEq

/-- createOpenOrdersIx, ts/client/src/client.ts:426-470: the instructions, and the address of the account. -/
def createIx (A : Addresses) (w : World) (market owner delegate : Pubkey) : List Ix × Pubkey :=
  match w.indexers owner with
  | none =>
    let x := A.ooAddr owner 1
    ([.createIndexer owner, .createOO x market owner delegate], x)
  | some ix =>
    let x := A.ooAddr owner (ix.createdCounter + 1)
    ([.createOO x market owner delegate], x)

def Ix.run (A : Addresses) (w : World) : Ix → R World
  | .createIndexer o => w.createIndexer A o
  | .createOO x k o d => w.createOOAt A x k o d

/-- A transaction with these instructions. -/
def runAll (A : Addresses) : World → List Ix → R World
  | w, [] => .ok w
  | w, i :: l => do runAll A (← i.run A w) l

/-- findAllOpenOrders, ts/client/src/client.ts:379-387 -/
def findAll (w : World) (owner : Pubkey) : List Pubkey :=
  match w.indexers owner with
  | some ix => ix.addresses
  | none => []

/-- findOpenOrdersForMarket, ts/client/src/client.ts:404-421.  The market of the account at `x` is `home x`. -/
def findForMarket (w : World) (owner market : Pubkey) : List Pubkey :=
  (findAll w owner).filter (fun x => w.home x == some market)

/-- loadNullableForMarketAndOwner, ts/client/src/accounts/openOrders.ts:72-91: the first in the index that is of this market. -/
def loadForMarket (w : World) (owner market : Pubkey) : Option Pubkey :=
  (findAll w owner).find? (fun x => w.home x == some market)

/-- loadAllOpenOrders, ts/client/src/accounts/openOrdersIndexer.ts:39-68.  The accounts are fetched, then their markets, and `m!.bids`
throws if there is no account at the address of a market, `none` here.  Markets and sides are left out of the result. -/
def loadAll (w : World) (owner : Pubkey) : Option (List (Pubkey × Pubkey)) :=
  (findAll w owner).mapM (fun x =>
    match w.home x with
    | some k => if w.isOpen k then some (x, k) else none
    | none => none)

end Finder
end OB
