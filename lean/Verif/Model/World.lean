import Verif.Model.Program
import Verif.Spec.Instr
/-!
A whole deployment: any number of markets that share the token accounts and lamports of the chain, and the indexers that list the
open orders accounts of each owner.

Program.lean models the instructions against one market.  Here every instruction names its market, and the parts that Program.lean
takes as given are modelled: the addresses of vaults, authorities and open orders accounts are derived, and an open orders account
is created through, and removed from, its owner's indexer.
-/
namespace OB

/-- Derived addresses, with the collision resistance of the derivation idealised as injectivity.

`authority`: accounts_ix/create_market.rs:17-22, seeds "Market" and the market's address.
`vault`: accounts_ix/create_market.rs:36-49, the associated token account of authority and mint.
`ooAddr`: accounts_ix/create_open_orders_account.rs:21-27, seeds "OpenOrders", owner and counter (the counter is a u32; the type
here is wider, the program never uses a larger one).
`isPda`: derived from this program's id, so there is no private key, and only the program itself signs for it. -/
structure Addresses where
  authority : Pubkey → Pubkey
  vault : Pubkey → Pubkey → Pubkey
  ooAddr : Pubkey → Nat → Pubkey
  isPda : Pubkey → Bool
  authority_inj : ∀ {k k'}, authority k = authority k' → k = k'
  vault_inj : ∀ {a m a' m'}, vault a m = vault a' m' → a = a' ∧ m = m'
  ooAddr_inj : ∀ {o n o' n'}, ooAddr o n = ooAddr o' n' → o = o' ∧ n = n'
  authority_pda : ∀ k, isPda (authority k) = true
  ooAddr_pda : ∀ o n, isPda (ooAddr o n) = true

/-- state/open_orders_indexer.rs:3-9 without the bump. -/
structure Indexer where
  createdCounter : Nat
  addresses : List Pubkey
  deriving DecidableEq, Repr

/-- The accounts of one market: market, event heap, open orders accounts, book. -/
structure Part where
  g : Ledger
  book : Book
  closed : Bool

/-- All accounts of the deployment.  `home` is the field `market` of each open orders account
(state/open_orders_account.rs:18); indexers are found by their owner, from whom their address is derived
(accounts_ix/create_open_orders_indexer.rs:9-15). -/
structure World where
  tokens : Tokens
  lamports : Lamports
  markets : Pubkey → Option Part
  indexers : Pubkey → Option Indexer
  home : Pubkey → Option Pubkey

namespace World

/-- One market as Program.lean sees it. -/
def state (w : World) (k : Pubkey) (p : Part) : State :=
  { g := p.g, book := p.book, tokens := w.tokens, lamports := w.lamports, marketKey := k, closed := p.closed }

/-- Write one market back. -/
def put (w : World) (k : Pubkey) (s : State) : World :=
  { w with tokens := s.tokens, lamports := s.lamports,
           markets := fun j => if j = k then some { g := s.g, book := s.book, closed := s.closed } else w.markets j }

def setIndexer (w : World) (owner : Pubkey) (ix : Option Indexer) : World :=
  { w with indexers := fun o => if o = owner then ix else w.indexers o }

def setHome (w : World) (x : Pubkey) (k : Option Pubkey) : World :=
  { w with home := fun y => if y = x then k else w.home y }

end World

/-- The instructions that go to one market and leave the set of accounts alone. -/
def Op.plain : Op → Bool
  | .createOO .. | .closeOO .. | .externalToken .. | .externalLamports .. => false
  | _ => true

/-- Who signs: a key pair, not a derived address. -/
def Addresses.signerOk (A : Addresses) (k : Pubkey) : Prop := A.isPda k = false
instance (A : Addresses) (k : Pubkey) : Decidable (A.signerOk k) := by unfold Addresses.signerOk; infer_instance

/-- There is an open market at this address. -/
def World.isOpen (w : World) (k : Pubkey) : Bool := (w.markets k).any (fun p => !p.closed)

/-- Everything that can happen. -/
inductive WOp
  | market (k : Pubkey) (op : Op)
  | createMarket (a : CreateArgs) (now : Int)
  | createIndexer (owner : Pubkey)
  | closeIndexer (owner : Pubkey)
  | createOO (k owner delegate : Pubkey)
  | closeOO (x owner : Pubkey)
  | externalToken (k : Pubkey) (t : TokenAcct)
  | externalLamports (k : Pubkey) (x : Int)

/-- An instruction on an existing market, lib.rs.  The open orders accounts named must belong to the market (`has_one = market` in
accounts_ix/*.rs), which is why they are looked up among the market's accounts.  Accounts with data of this program, such as markets, pay
no lamports: the system program refuses (the transfers are in token_utils.rs:65-89). -/
def World.onMarket (A : Addresses) (w : World) (k : Pubkey) (op : Op) : R World := do
  req (op.plain = true) .constraint
  req (∀ x ∈ Spec.signers op, A.signerOk x) .constraint
  let p ← okOr .accountMissing (w.markets k)
  let s ← step (w.state k p) op
  req (∀ x ∈ Spec.signers op, w.isOpen x = true → w.lamports x ≤ s.lamports x) .constraint
  return w.put k s

/-- instructions/create_market.rs:11-126, accounts_ix/create_market.rs:8-68.  The vaults are created (`init`), so they must not exist.
After closing a market its address can be used again, but only with two other mints, as the vaults of a closed market remain.  The open
orders accounts that name this address stay, and are accounts of the new market. -/
def World.newMarket (A : Addresses) (w : World) (a : CreateArgs) (now : Int) : R World := do
  req (A.isPda a.marketKey = false) .constraint
  req (a.marketAuthority = A.authority a.marketKey) .constraint
  req (a.baseVault = A.vault a.marketAuthority a.baseMint ∧ a.quoteVault = A.vault a.marketAuthority a.quoteMint) .constraint
  req ((w.tokens a.baseVault).mint = 0 ∧ (w.tokens a.quoteVault).mint = 0) .constraint
  let s ← match w.markets a.marketKey with
    | none => OB.createMarket a now w.tokens w.lamports
    | some p => OB.recreateMarket (w.state a.marketKey p) a now
  return w.put a.marketKey s

/-- instructions/create_open_orders_indexer.rs:4-11, accounts_ix/create_open_orders_indexer.rs:5-18 -/
def World.createIndexer (A : Addresses) (w : World) (owner : Pubkey) : R World := do
  req (A.signerOk owner) .constraint
  req ((w.indexers owner).isNone) .constraint
  return w.setIndexer owner (some { createdCounter := 0, addresses := [] })

/-- instructions/close_open_orders_indexer.rs:5-14, accounts_ix/close_open_orders_indexer.rs:6-20 -/
def World.closeIndexer (A : Addresses) (w : World) (owner : Pubkey) : R World := do
  req (A.signerOk owner) .constraint
  let ix ← okOr .accountMissing (w.indexers owner)
  req (ix.addresses = []) .indexerActiveOO
  return w.setIndexer owner none

/-- The next open orders account of an owner, accounts_ix/create_open_orders_account.rs:21-27 -/
def Addresses.next (A : Addresses) (owner : Pubkey) (ix : Indexer) : Pubkey := A.ooAddr owner (ix.createdCounter + 1)

/-- instructions/create_open_orders_account.rs:7-28, accounts_ix/create_open_orders_account.rs:5-31.  The counter is a u32; `init`
fails if there is an account at the address.  The name is not modelled. -/
def World.createOO (A : Addresses) (w : World) (k owner delegate : Pubkey) : R World := do
  req (A.signerOk owner) .constraint
  let ix ← okOr .accountMissing (w.indexers owner)
  req (ix.addresses.length < 256) .constraint
  assertR (ix.createdCounter + 1 < 4294967296)
  let x := A.next owner ix
  req ((w.home x).isNone) .constraint
  let p ← okOr .accountMissing (w.markets k)
  let s ← OB.createOO (w.state k p) x owner delegate
  let ix' : Indexer := { createdCounter := ix.createdCounter + 1, addresses := ix.addresses ++ [x] }
  return ((w.put k s).setIndexer owner (some ix')).setHome x (some k)

/-- instructions/close_open_orders_account.rs:5-24, accounts_ix/close_open_orders_account.rs:5-27.  `len() - 1` in `realloc`
underflows, and `unwrap` panics, if the address is not in the index. -/
def World.closeOO (A : Addresses) (w : World) (x owner : Pubkey) : R World := do
  req (A.signerOk owner) .constraint
  let ix ← okOr .accountMissing (w.indexers owner)
  assertR (1 ≤ ix.addresses.length)
  let k ← okOr .accountMissing (w.home x)
  let p ← okOr .accountMissing (w.markets k)
  let s ← OB.closeOO (w.state k p) x owner
  assertR (x ∈ ix.addresses)
  let ix' : Indexer := { ix with addresses := ix.addresses.erase x }
  return ((w.put k s).setIndexer owner (some ix')).setHome x none

/-- What other programs can do to a token account: anything, except that an account owned by an address derived from this program can
only be credited, as nobody else signs for its owner. -/
def World.externalToken (A : Addresses) (w : World) (k : Pubkey) (t : TokenAcct) : R World := do
  req (0 ≤ t.amount ∧ t.amount ≤ u64Max) .constraint
  req ((w.tokens k).mint ≠ 0 ∧ A.isPda (w.tokens k).owner = true →
    t.owner = (w.tokens k).owner ∧ t.mint = (w.tokens k).mint ∧ (w.tokens k).amount ≤ t.amount) .tokenAuth
  return { w with tokens := fun i => if i = k then t else w.tokens i }

/-- Lamport transfers outside the program: the accounts of open markets can only be credited. -/
def World.externalLamports (w : World) (k : Pubkey) (x : Int) : R World := do
  req (0 ≤ x ∧ x ≤ u64Max ∧ (w.isOpen k = true → w.lamports k ≤ x)) .constraint
  return { w with lamports := fun i => if i = k then x else w.lamports i }

def World.step (A : Addresses) (w : World) : WOp → R World
  | .market k op => w.onMarket A k op
  | .createMarket a now => w.newMarket A a now
  | .createIndexer owner => w.createIndexer A owner
  | .closeIndexer owner => w.closeIndexer A owner
  | .createOO k owner delegate => w.createOO A k owner delegate
  | .closeOO x owner => w.closeOO A x owner
  | .externalToken k t => w.externalToken A k t
  | .externalLamports k x => w.externalLamports k x

/-- The chain before the first use of the program. -/
def World.empty (tokens : Tokens) (lamports : Lamports) : World :=
  { tokens, lamports, markets := fun _ => none, indexers := fun _ => none, home := fun _ => none }

/-- Everything that can come about from some initial balances. -/
inductive WReachable (A : Addresses) : World → Prop
  | init (tokens : Tokens) (lamports : Lamports) (ht : ∀ k, 0 ≤ (tokens k).amount ∧ (tokens k).amount ≤ u64Max)
      (hl : ∀ k, 0 ≤ lamports k ∧ lamports k ≤ u64Max) : WReachable A (World.empty tokens lamports)
  | step (w w' : World) (op : WOp) (hw : WReachable A w) (h : w.step A op = .ok w') : WReachable A w'

end OB
