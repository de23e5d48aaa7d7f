import Verif.Model.Client
import Verif.Model.Program
/-!
lib/client/src/jup.rs: the adapter through which a swap router uses a market, from its creation over updates to quotes and the accounts
of a swap.

Not modelled: names and labels; the addresses of the book sides, of the event heap and of the clock (the accounts under the addresses in
the adapter's copy of the market are what `AccountMap` holds); deserialization.  The oracle price is in lots, as in Model/Client.
-/
namespace OB
namespace Router

/-- jup.rs:26-39.  The event heap is kept but never used, hence left out; `related_accounts` and `reserve_mints` are functions of the market. -/
structure Adapter where
  market : Market
  key : Pubkey
  book : Book
  timestamp : Nat
  oracle : Option Int
  permissioned : Bool

/-- jup.rs:60-92.  The zeroed book sides are empty (their side tag is of no consequence as long as they are). -/
def fromKeyedAccount (key : Pubkey) (m : Market) : Adapter :=
  { market := m, key, book := { bids := BookSide.empty .bid, asks := BookSide.empty .ask }, timestamp := 0, oracle := none,
    permissioned := decide (m.openOrdersAdmin ≠ 0) }

/-- The accounts given to `update`: those that do not exist are `none`.  `oracle` is what `Market::oracle_price` (market.rs:243-256)
makes of the oracle accounts at the slot of the clock, `clock` the time of the clock account. -/
structure AccountMap where
  bids : Option BookSide
  asks : Option BookSide
  heap : Option Unit
  oracle : R (Option Int)
  clock : Int

/-- How `update` ends unless it panics: `Ok` or an error. -/
inductive Outcome
  | done
  | failed (e : Err)
  deriving DecidableEq

/-- jup.rs:94-129: the adapter afterwards, and the outcome.  What was assigned before the error stays assigned. -/
def update (a : Adapter) (v : AccountMap) : R (Adapter × Outcome) :=
  if a.permissioned then .ok (a, .done)
  else do
    let bids ← unwrapR v.bids
    let asks ← unwrapR v.asks
    unwrapR v.heap
    let a1 := { a with book := { bids, asks } }
    match v.oracle with
    | .error .panic => .error .panic
    | .error e => return (a1, .failed e)
    | .ok o =>
      let now ← nowU64 v.clock
      return ({ a1 with oracle := o, timestamp := now }, .done)

/-- jup.rs:139-143, 206-212 -/
def Adapter.sideOf (a : Adapter) (mint : Pubkey) : Side := if mint = a.market.quoteMint then .bid else .ask

/-- jup.rs:131-196.  `Client.quote` tests for a permissioned market itself; here the flag is tested, as in the source. -/
def quote (a : Adapter) (inputMint : Pubkey) (inAmount : Nat) : R Client.Quote :=
  if a.permissioned then .ok { inAmount := 0, outAmount := 0, feeAmount := 0, notEnough := true }
  else Client.quote a.book a.market a.oracle (a.sideOf inputMint) inAmount

/-- Part of `jupiter_amm_interface::SwapParams` that is used. -/
structure SwapParams where
  sourceMint : Pubkey
  source : Pubkey
  destination : Pubkey
  authority : Pubkey

/-- accounts_ix/place_take_order.rs:8-59, without the addresses left out of the model of a market and the programs.  0 stands for no
account. -/
structure TakeAccounts where
  signer : Pubkey
  penaltyPayer : Pubkey
  market : Pubkey
  marketAuthority : Pubkey
  userBase : Pubkey
  userQuote : Pubkey
  baseVault : Pubkey
  quoteVault : Pubkey
  oracleA : Pubkey
  oracleB : Pubkey
  admin : Pubkey

/-- jup.rs:214-268: the side, and the accounts with the remaining ones; for a permissioned market there are none. -/
def swap (a : Adapter) (p : SwapParams) : R (Side × Option (TakeAccounts × List Pubkey)) :=
  let side := a.sideOf p.sourceMint
  if a.permissioned then .ok (side, none)
  else do
    let userQuote := if p.sourceMint = a.market.quoteMint then p.source else p.destination
    let userBase := if p.sourceMint = a.market.quoteMint then p.destination else p.source
    let accs : TakeAccounts :=
      { signer := p.authority, penaltyPayer := p.authority, market := a.key, marketAuthority := a.market.marketAuthority, userBase,
        userQuote, baseVault := a.market.marketBaseVault, quoteVault := a.market.marketQuoteVault, oracleA := a.market.oracleA,
        oracleB := a.market.oracleB, admin := 0 }
    let rem ← Client.remainingAccountsToCrank a.book side a.oracle a.timestamp
    return (side, some (accs, rem))

/-- The context of `place_take_order` with these accounts, at time `now` and with the oracle's price then. -/
def TakeAccounts.ctx (x : TakeAccounts) (rem : List Pubkey) (now : Int) (oracle : Option Int) : TakeCtx :=
  { signer := x.signer, penaltyPayer := x.penaltyPayer, admin := x.admin, userBase := x.userBase, userQuote := x.userQuote, now, oracle,
    rem }

/-- What is found in state `s` under the addresses that the adapter asks for (jup.rs:56-58, 66-76): nothing after the market was closed
(close_market.rs closes the three accounts with it).  A market created again at the same address is assumed to have its accounts at the
same addresses too; else they are not found, or are those of another market. -/
def accountMap (s : State) (clock : Int) (oracle : R (Option Int)) : AccountMap :=
  if s.closed then { bids := none, asks := none, heap := none, oracle, clock }
  else { bids := some s.book.bids, asks := some s.book.asks, heap := some (), oracle, clock }

end Router
end OB
