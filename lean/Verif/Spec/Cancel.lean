import Verif.Spec.Deliver
/-!
Vocabulary for cancellation.  Used only in statements.
-/
namespace OB.Spec

/-- Sum of `f` over a list of resting orders. -/
def sumOver (ls : List (Side × Comp × LeafNode)) (f : Side → Comp → LeafNode → Int) : Int := (ls.map (fun x => f x.1 x.2.1 x.2.2)).sum

/-- Native quote that a resting order holds besides fees: a bid holds the remaining quantity at its locked price. -/
def heldQuote (m : Market) (s : Side) (c : Comp) (l : LeafNode) : Int := if s = .bid then bidValue m l.quantity (lockedAt c l) else 0

/-- Maker fee that a resting bid holds, rounded up. -/
def heldFee (m : Market) (s : Side) (c : Comp) (l : LeafNode) : Int := if s = .bid then bidFee m l.quantity (lockedAt c l) else 0

/-- `a'` is account `a` after its resting orders `ls` were cancelled: everything they held is free, their slots are empty, nothing
else is different. -/
structure Released (m : Market) (ls : List (Side × Comp × LeafNode)) (a a' : OOA) : Prop where
  owner : a'.owner = a.owner
  delegate : a'.delegate = a.delegate
  base : a'.position.baseFreeNative = a.position.baseFreeNative + sumOver ls (fun s _ l => lockedBase m s l)
  quote : a'.position.quoteFreeNative = a.position.quoteFreeNative + sumOver ls (fun s c l => heldQuote m s c l + heldFee m s c l)
  bids : a'.position.bidsBaseLots = a.position.bidsBaseLots - sumOver ls (fun s _ l => if s = .bid then l.quantity else 0)
  asks : a'.position.asksBaseLots = a.position.asksBaseLots - sumOver ls (fun s _ l => if s = .ask then l.quantity else 0)
  bidsQuote : a'.position.bidsQuoteLots = a.position.bidsQuoteLots -
    sumOver ls (fun s c l => if s = .bid then l.quantity * lockedAt c l else 0)
  fees : a'.position.lockedMakerFees = a.position.lockedMakerFees - sumOver ls (heldFee m)
  rebates : a'.position.referrerRebatesAvailable = a.position.referrerRebatesAvailable
  penalty : a'.position.penaltyHeapCount = a.position.penaltyHeapCount
  makerVolume : a'.position.makerVolume = a.position.makerVolume
  takerVolume : a'.position.takerVolume = a.position.takerVolume
  slots : ∀ (i : Nat), a'.openOrders[i]? =
    a.openOrders[i]?.map (fun oo => if ls.any (fun x => x.2.2.ownerSlot = i) then OpenOrder.default else oo)

/-- From `s` to `s'` exactly the resting orders `ls`, all of account `k`, are cancelled.  Every other order stays as it is, every
other account, the market, the event queue, all tokens stay as they are. -/
structure Cancels (s s' : State) (k : Pubkey) (ls : List (Side × Comp × LeafNode)) : Prop where
  book : s.book.resting.Perm (ls ++ s'.book.resting)
  owner : ∀ x ∈ ls, x.2.2.owner = k
  acct : ∃ a a', s.g.accts.get? k = some a ∧ s'.g.accts.get? k = some a' ∧ Released s.g.market ls a a'
  others : ∀ j, j ≠ k → s'.g.accts.get? j = s.g.accts.get? j
  market : s'.g.market = s.g.market
  heap : s'.g.heap = s.g.heap
  tokens : s'.tokens = s.tokens
  lamports : s'.lamports = s.lamports
  closed : s'.closed = s.closed

/-- The order is of account `k` and passes the filters of a cancel instruction. -/
def Matches (k : Pubkey) (side : Option Side) (client : Option Nat) (x : Side × Comp × LeafNode) : Prop :=
  x.2.2.owner = k ∧ (∀ s, side = some s → x.1 = s) ∧ (∀ c, client = some c → x.2.2.clientOrderId = c)

/-- The signer is the owner or the delegate of account `k`. -/
def Controls (s : State) (signer k : Pubkey) : Prop :=
  ∃ a, s.g.accts.get? k = some a ∧ (signer = a.owner ∨ (a.delegate ≠ 0 ∧ signer = a.delegate))

end OB.Spec
