import Verif.Spec.Exit
import Verif.Model.TsTrade
/-! Vocabulary for stating what the methods of `OpenOrders` do.  Used only in statements. -/
namespace OB.Spec
open OB

/-- The order is on this side, if one is given. -/
def meantSide (side : Option Side) (x : Side × Comp × LeafNode) : Bool :=
  match side with
  | none => true
  | some t => decide (x.1 = t)

/-- The resting orders of account `k` on this side, if one is given. -/
def ordersOn (s : State) (k : Pubkey) (side : Option Side) : List (Side × Comp × LeafNode) := (ordersOf s k).filter (meantSide side)

/-- What is free in account `a` once these orders are cancelled. -/
def freedBase (m : Market) (a : OOA) (ls : List (Side × Comp × LeafNode)) : Int :=
  a.position.baseFreeNative + sumOver ls (fun sd _ l => lockedBase m sd l)
def freedQuote (m : Market) (a : OOA) (ls : List (Side × Comp × LeafNode)) : Int :=
  a.position.quoteFreeNative + sumOver ls (fun sd c l => heldQuote m sd c l + heldFee m sd c l)

/-- The locked maker fees that are for no order any more once these orders are cancelled, if then no bid is left (roundings). -/
def restFees (m : Market) (a : OOA) (ls : List (Side × Comp × LeafNode)) : Int :=
  if 0 < m.makerFee ∧ a.position.bidsBaseLots = sumOver ls (fun sd _ l => if sd = .bid then l.quantity else 0) then
    a.position.lockedMakerFees - sumOver ls (heldFee m)
  else 0

/-- Token account `k` is one of `owner` for `mint`, or does not exist yet. -/
def AtaReady (s : State) (k owner mint : Pubkey) : Prop :=
  s.g.market.isMarketVault k = false ∧ 0 ≤ tokens s k ∧
    ((s.tokens k).mint = 0 ∧ tokens s k = 0 ∨ (s.tokens k).owner = owner ∧ (s.tokens k).mint = mint)

/-- What `cancelAllOrders` of the owner's wallet takes besides the program. -/
structure CanTakeOut (s : State) (k : Pubkey) (a : OOA) (referrer : Option Pubkey) (ata : Pubkey → Pubkey → Pubkey) : Prop where
  acct : s.g.accts.get? k = some a
  exist : s.g.market.baseMint ≠ 0 ∧ s.g.market.quoteMint ≠ 0
  ready : AtaReady s (ata a.owner s.g.market.baseMint) a.owner s.g.market.baseMint ∧
    AtaReady s (ata a.owner s.g.market.quoteMint) a.owner s.g.market.quoteMint ∧
    ∀ r, referrer = some r → AtaReady s (ata r s.g.market.quoteMint) r s.g.market.quoteMint
  /-- addresses of token accounts of different owners or mints are different -/
  apart : ∀ x ∈ TsTrade.atasOf ata s.g.market a.owner referrer, ∀ y ∈ TsTrade.atasOf ata s.g.market a.owner referrer,
    x.1 = y.1 → x = y
  room : tokens s (ata a.owner s.g.market.baseMint) + s.g.market.baseDepositTotal ≤ u64Max ∧
    tokens s (ata a.owner s.g.market.quoteMint) + s.g.market.quoteDepositTotal ≤ u64Max ∧
    ∀ r, referrer = some r → tokens s (ata r s.g.market.quoteMint) + s.g.market.quoteDepositTotal ≤ u64Max ∧
      s.g.market.feesToReferrers + s.g.market.quoteDepositTotal ≤ u128Max
  penalty : 0 < a.position.penaltyHeapCount → a.position.penaltyHeapCount * 500 ≤ s.lamports a.owner ∧
    0 ≤ s.lamports s.marketKey ∧ s.lamports s.marketKey + a.position.penaltyHeapCount * 500 ≤ u64Max
  /-- the sum of the sizes of its orders, which the program adds up, fits 64 bits -/
  lots : a.position.bidsBaseLots + a.position.asksBaseLots ≤ i64Max

/-- Account `a` at `k` was emptied: the orders on the side were cancelled, all of its free funds went to the token accounts `ub` and `uq`,
the rebate to `referrer` or the market.  Nothing else changed for anyone. -/
structure TakenOut (s s' : State) (k : Pubkey) (a : OOA) (side : Option Side) (ub uq : Pubkey) (referrer : Option Pubkey) (payer : Pubkey) : Prop where
  book : s.book.resting.Perm (ordersOn s k side ++ s'.book.resting)
  cancelled : ordersOn s' k side = []
  acct : ∃ a', s'.g.accts.get? k = some a' ∧ a'.owner = a.owner ∧ a'.position.baseFreeNative = 0 ∧ a'.position.quoteFreeNative = 0 ∧
    a'.position.referrerRebatesAvailable = 0 ∧ a'.position.penaltyHeapCount = 0
  tokens : ∀ t, tokens s' t = tokens s t + moved t s.g.market.marketBaseVault ub (freedBase s.g.market a (ordersOn s k side)) +
    moved t s.g.market.marketQuoteVault uq (freedQuote s.g.market a (ordersOn s k side)) +
    movedIf t s.g.market.marketQuoteVault referrer (a.position.referrerRebatesAvailable +
      restFees s.g.market a (ordersOn s k side))
  lamports : ∀ t, s'.lamports t = s.lamports t + moved t payer s.marketKey (a.position.penaltyHeapCount * 500)
  heap : s'.g.heap = s.g.heap
  others : ∀ j, j ≠ k → DueKept s s' j

end OB.Spec
