import Verif.Spec.Others
import Verif.Spec.Expired
/-!
Vocabulary for leaving a market: what is due to an account, and the instructions that pay it out.  Used only in statements.
-/
namespace OB.Spec
open OB

/-- The resting orders of account `k`. -/
def ordersOf (s : State) (k : Pubkey) : List (Side × Comp × LeafNode) := s.book.resting.filter (fun x => x.2.2.owner = k)

/-- The queued events of account `k`. -/
def eventsOf (s : State) (k : Pubkey) : List Event := s.g.heap.events.filter (fun e => eventAccount e = k)

/-- Base due to account `k`, which is `a`: free; bought or released by events not yet delivered; locked in resting asks. -/
def dueBase (s : State) (k : Pubkey) (a : OOA) : Int :=
  a.position.baseFreeNative + total (eventsOf s k) (creditBase s.g.market) +
    sumOver (ordersOf s k) (fun sd _ l => lockedBase s.g.market sd l)

/-- Quote due to account `k`, which is `a`: free; proceeds, rebates and releases of events not yet delivered; locked in resting bids,
with the maker fees locked for them. -/
def dueQuote (s : State) (k : Pubkey) (a : OOA) : Int :=
  a.position.quoteFreeNative + total (eventsOf s k) (creditQuote s.g.market a) +
    sumOver (ordersOf s k) (fun sd c l => heldQuote s.g.market sd c l + heldFee s.g.market sd c l)

/-- Account `k` stays, and what is due to it stays the same. -/
def DueKept (s s' : State) (k : Pubkey) : Prop :=
  ∀ a, s.g.accts.get? k = some a →
    ∃ a', s'.g.accts.get? k = some a' ∧ a'.owner = a.owner ∧ dueBase s' k a' = dueBase s k a ∧ dueQuote s' k a' = dueQuote s k a

/-- Deliver every queued event, first come first served, one at a time.  If the market has an admin for this, it has to sign. -/
def consumeOps (s : State) : List Op :=
  s.g.heap.events.map (fun e => .consumeEvents s.g.market.consumeEventsAdmin 1 [eventAccount e])

/-- The settlement of account `k` by `signer` to given token accounts, without a referrer. -/
def settleTo (signer payer k ub uq : Pubkey) : SettleCtx :=
  { signer := signer, penaltyPayer := payer, ooKey := k, userBase := ub, userQuote := uq, referrer := none }

/-- How the owner of account `k` (which is `a`) leaves: after the queued events are delivered, every resting order is cancelled, the
account is settled and closed. -/
def exitOps (s : State) (k : Pubkey) (a : OOA) (payer ub uq : Pubkey) : List Op :=
  consumeOps s ++ (ordersOf s k).map (fun x => .cancelOrder a.owner k x.2.2.key) ++
    [.settleFunds (settleTo a.owner payer k ub uq), .closeOO k a.owner]

/-- No counter of traded volume or fees has reached a quarter of its range of 128 bits.  (A fill adds less than 2^63.) -/
structure CountersFresh (s : State) : Prop where
  volume : s.g.market.makerVolume < 2 ^ 126
  fees : s.g.market.feesAccrued < 2 ^ 126
  accts : ∀ k a, s.g.accts.get? k = some a → a.position.makerVolume < 2 ^ 126

/-- What leaving takes besides the program: token accounts of the owner for both mints, with room for all the deposits of the market;
lamports for the penalties; and a market that is not astronomically old. -/
structure CanExit (s : State) (k : Pubkey) (a : OOA) (payer ub uq : Pubkey) : Prop where
  acct : s.g.accts.get? k = some a
  notVault : payer ≠ s.g.market.marketAuthority
  exist : s.g.market.baseMint ≠ 0 ∧ s.g.market.quoteMint ≠ 0
  owned : (s.tokens ub).owner = a.owner ∧ (s.tokens uq).owner = a.owner
  mints : (s.tokens ub).mint = s.g.market.baseMint ∧ (s.tokens uq).mint = s.g.market.quoteMint
  amounts : 0 ≤ tokens s ub ∧ 0 ≤ tokens s uq
  room : tokens s ub + s.g.market.baseDepositTotal ≤ u64Max ∧ tokens s uq + s.g.market.quoteDepositTotal ≤ u64Max
  penalty : 0 < a.position.penaltyHeapCount → a.position.penaltyHeapCount * 500 ≤ s.lamports payer ∧
    0 ≤ s.lamports s.marketKey ∧ s.lamports s.marketKey + a.position.penaltyHeapCount * 500 ≤ u64Max
  orders : s.g.market.seqNum < 2 ^ 63
  counters : CountersFresh s

end OB.Spec
