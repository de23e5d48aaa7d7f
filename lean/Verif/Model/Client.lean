import Verif.Model.Book
/-!
lib/client/src/book.rs (amounts a client computes for a take order) and the quote of lib/client/src/jup.rs.

Not modelled: deserialization of the accounts, and the conversion of the oracle price to lots, which is the same function
(`native_price_to_lot`) as in the program; the price in lots is an input, as for the program.  Overflow is a panic, as in the
program (Cargo.toml: `overflow-checks = true` for the whole workspace).
-/
namespace OB
namespace Client

/-- book.rs:10 -/
def maximumTakenOrders : Nat := 45

/-- Mutable variables of `iterate_book` (book.rs:95-107). -/
structure St where
  remBase : Int
  remQuote : Int
  rebates : Int
  limit : Nat
  processed : Nat
  dropped : Nat
  accounts : List Pubkey

/-- book.rs:111-146: one iteration.  `false` is `break`. -/
def iterStep (m : Market) (item : IterItem) (s : St) : R (Bool × St) :=
  if item.state ≠ .valid then
    if s.dropped < dropExpiredOrderLimit then
      .ok (true, { s with accounts := s.accounts ++ [item.leaf.owner], dropped := s.dropped + 1 })
    else .ok (true, s)
  else if s.remBase = 0 ∨ s.remQuote = 0 ∨ s.limit = 0 then .ok (false, s)
  else do
    -- division by zero panics
    assertR (item.priceLots ≠ 0)
    let maxMatchByQuote := s.remQuote.tdiv item.priceLots
    if maxMatchByQuote = 0 then return (false, s)
    else
      let matchBase := min (min s.remBase item.leaf.quantity) maxMatchByQuote
      let matchQuote ← ckI64 (matchBase * item.priceLots)
      let rb ← m.makerRebateFloor (asU64 (← ckI64 (matchQuote * m.quoteLotSize)))
      let rebates ← ckU64 (s.rebates + rb)
      let remBase ← ckI64 (s.remBase - matchBase)
      let remQuote ← ckI64 (s.remQuote - matchQuote)
      assertR (s.limit ≥ 1)
      let s1 := { s with remBase, remQuote, rebates, limit := s.limit - 1 }
      if s.processed < fillEventRemainingLimit then
        return (true, { s1 with accounts := s.accounts ++ [item.leaf.owner], processed := s.processed + 1 })
      else return (true, s1)

/-- book.rs:110-147: the loop over `iter_all_including_invalid`. -/
def iterLoop (m : Market) (t : Nodes) (now : Nat) (oracle : Option Int) : Nat → SideIter → St → R St
  | 0, _, _ => .error .fuel
  | n + 1, it, s => do
    match ← it.next t now oracle with
    | none => return s
    | some (item, it') =>
      let (go, s') ← iterStep m item s
      if go then iterLoop m t now oracle n it' s' else return s'

/-- Result of `iterate_book` (book.rs:157-162), and the accounts collected. -/
structure IterRes where
  baseLots : Int
  quoteLots : Int
  rebates : Int
  notEnough : Bool
  accounts : List Pubkey

/-- book.rs:100-103 -/
def maxQuoteLots (m : Market) (maxQuoteWithFees : Int) : Side → R Int
  | .bid => m.subtractTakerFees maxQuoteWithFees
  | .ask => .ok maxQuoteWithFees

/-- book.rs:84-163 -/
def iterateBook (book : Book) (side : Side) (maxBase maxQuoteWithFees : Int) (m : Market) (oracle : Option Int) (now : Nat) :
    R IterRes := do
  let maxQuote ← maxQuoteLots m maxQuoteWithFees side
  let opp := book.side side.invert
  let it ← opp.iter
  let s ← iterLoop m opp.nodes now oracle (2 * Nodes.fuel) it
    { remBase := maxBase, remQuote := maxQuote, rebates := 0, limit := maximumTakenOrders, processed := 0, dropped := 0, accounts := [] }
  let baseLots ← ckI64 (maxBase - s.remBase)
  let quoteLots ← ckI64 (maxQuote - s.remQuote)
  let notEnough := match side with
    | .ask => decide (s.remBase ≠ 0)
    | .bid => decide (s.remQuote ≠ 0)
  return { baseLots, quoteLots, rebates := s.rebates, notEnough, accounts := s.accounts }

/-- book.rs:13-18 -/
structure Amounts where
  base : Int
  quote : Int
  fee : Int
  notEnough : Bool

/-- book.rs:46-82 -/
def amountsFromBook (book : Book) (side : Side) (maxBase maxQuoteWithFees : Int) (m : Market) (oracle : Option Int) (now : Nat) :
    R Amounts := do
  let r ← iterateBook book side maxBase maxQuoteWithFees m oracle now
  let base := asU64 (← ckI64 (r.baseLots * m.baseLotSize))
  let quote := asU64 (← ckI64 (r.quoteLots * m.quoteLotSize))
  return { base, quote, fee := r.rebates, notEnough := r.notEnough }

/-- Part of `jupiter_amm_interface::Quote` that `quote` fills in. -/
structure Quote where
  inAmount : Int
  outAmount : Int
  feeAmount : Int
  notEnough : Bool

/-- jup.rs:149-158: the lots asked for, given the native amount to spend. -/
def quoteLots (m : Market) (side : Side) (input : Int) : R (Int × Int) :=
  match side with
  | .bid => do return (m.maxBaseLots, ← ckI64 (input + (m.quoteLotSize - 1).tdiv m.quoteLotSize))
  | .ask => do return (← ckI64 (input + (m.baseLotSize - 1).tdiv m.baseLotSize), m.maxQuoteLots)

/-- jup.rs:131-196: buying (`bid`) spends quote, selling spends base.  The time passed to `amounts_from_book` is 0. -/
def quote (book : Book) (m : Market) (oracle : Option Int) (side : Side) (inAmount : Nat) : R Quote :=
  if m.openOrdersAdmin ≠ 0 then .ok { inAmount := 0, outAmount := 0, feeAmount := 0, notEnough := true }
  else do
    req ((inAmount : Int) ≤ i64Max) .someError
    let (maxBase, maxQuote) ← quoteLots m side inAmount
    let a ← amountsFromBook book side maxBase maxQuote m oracle 0
    match side with
    | .bid => do
      let i ← ckU64 (a.quote - a.fee)
      return { inAmount := i, outAmount := a.base, feeAmount := a.fee, notEnough := a.notEnough }
    | .ask => do
      let o ← ckU64 (a.quote + a.fee)
      return { inAmount := a.base, outAmount := o, feeAmount := a.fee, notEnough := a.notEnough }

/-- book.rs:11 -/
def maximumRemainingAccounts : Nat := 3

/-- book.rs:36-40: one iteration for a valid order.  The `HashSet` is a list without duplicates.  `false` is `break`. -/
def crankStep (item : IterItem) (acc : List Pubkey) : Bool × List Pubkey :=
  let acc' := if item.leaf.owner ∈ acc then acc else acc ++ [item.leaf.owner]
  (decide (¬ acc'.length ≥ maximumRemainingAccounts), acc')

/-- book.rs:35-41: the loop over `iter_valid` (bookside.rs:49-55), which skips the invalid items of the iterator. -/
def crankLoop (t : Nodes) (now : Nat) (oracle : Option Int) : Nat → SideIter → List Pubkey → R (List Pubkey)
  | 0, _, _ => .error .fuel
  | n + 1, it, acc => do
    match ← it.next t now oracle with
    | none => return acc
    | some (item, it') =>
      if item.state ≠ .valid then crankLoop t now oracle n it' acc
      else
        let (go, acc') := crankStep item acc
        if go then crankLoop t now oracle n it' acc' else return acc'

/-- book.rs:20-44.  The order of the accounts in the result is not specified in the source (`HashSet`); here it is that of the book. -/
def remainingAccountsToCrank (book : Book) (side : Side) (oracle : Option Int) (now : Nat) : R (List Pubkey) := do
  let opp := book.side side.invert
  let it ← opp.iter
  crankLoop opp.nodes now oracle (2 * Nodes.fuel) it []

end Client
end OB
