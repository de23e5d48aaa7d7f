import Verif.Model.Market
import Verif.Model.Heap
/-!
state/open_orders_account.rs
-/
namespace OB

/-- open_orders_account.rs:12 -/
def maxOpenOrders : Nat := 24

/-- open_orders_account.rs:350-375 -/
structure Position where
  bidsBaseLots : Int := 0
  asksBaseLots : Int := 0
  baseFreeNative : Int := 0
  quoteFreeNative : Int := 0
  lockedMakerFees : Int := 0
  referrerRebatesAvailable : Int := 0
  penaltyHeapCount : Int := 0
  makerVolume : Int := 0
  takerVolume : Int := 0
  bidsQuoteLots : Int := 0
  deriving DecidableEq, Repr

/-- open_orders_account.rs:426-435; `side_and_tree` (order_type.rs:181-211) is split into side and component. -/
structure OpenOrder where
  isFree : Bool
  side : Side
  comp : Comp
  id : Nat
  clientId : Nat
  lockedPrice : Int
  deriving DecidableEq, Repr

/-- open_orders_account.rs:440-451 -/
def OpenOrder.default : OpenOrder :=
  { isFree := true, side := .bid, comp := .fixed, id := 0, clientId := 0, lockedPrice := 0 }

/-- open_orders_account.rs:16-37.  The market field is implicit (the model holds the accounts of one market);
name, account number and bump are dropped; version is 1 (as set by create_open_orders_account.rs:24). -/
structure OOA where
  owner : Pubkey
  delegate : Pubkey
  position : Position
  openOrders : List OpenOrder
  deriving DecidableEq, Repr

/-- open_orders_account.rs:411-421 with version 1 -/
def Position.isEmpty (p : Position) : Bool :=
  p.bidsBaseLots = 0 ∧ p.asksBaseLots = 0 ∧ p.baseFreeNative = 0 ∧ p.quoteFreeNative = 0 ∧
  p.lockedMakerFees = 0 ∧ p.referrerRebatesAvailable = 0 ∧ p.penaltyHeapCount = 0 ∧ p.bidsQuoteLots = 0

namespace OOA

/-- create_open_orders_account.rs:18-25 -/
def fresh (owner delegate : Pubkey) : OOA :=
  { owner, delegate, position := {}, openOrders := List.replicate maxOpenOrders OpenOrder.default }

/-- open_orders_account.rs:80-86 (a zero delegate is `None`) -/
def isOwnerOrDelegate (a : OOA) (signer : Pubkey) : Bool :=
  if a.delegate ≠ 0 then a.owner = signer ∨ a.delegate = signer else a.owner = signer

/-- open_orders_account.rs:88-97 -/
def isSettleDestinationAllowed (a : OOA) (signer accountOwner : Pubkey) : Bool :=
  if a.delegate ≠ 0 ∧ signer = a.delegate then a.owner = accountOwner else signer = a.owner

/-- open_orders_account.rs:126-132 -/
def openOrder (a : OOA) (slot : Nat) : R OpenOrder := unwrapR (a.openOrders[slot]?)

/-- open_orders_account.rs:111-115 -/
def nextOrderSlot (a : OOA) : R Nat :=
  okOr .openOrdersFull (a.openOrders.findIdx? (fun o => o.isFree))

/-- open_orders_account.rs:305-323 -/
def removeOrder (a : OOA) (slot : Nat) (baseQuantity lockedPrice : Int) : R OOA := do
  let oo ← a.openOrder slot
  assertR (oo.isFree = false)
  let p := a.position
  let p' ← (match oo.side with
    | .bid => do
      let b ← ckI64 (p.bidsBaseLots - baseQuantity)
      let q ← ckI64 (p.bidsQuoteLots - (← ckI64 (baseQuantity * lockedPrice)))
      return { p with bidsBaseLots := b, bidsQuoteLots := q }
    | .ask => do
      let b ← ckI64 (p.asksBaseLots - baseQuantity)
      return { p with asksBaseLots := b } : R Position)
  return { a with position := p', openOrders := a.openOrders.set slot OpenOrder.default }

/-- open_orders_account.rs:325-344 -/
def cancelOrder (a : OOA) (slot : Nat) (baseQuantity : Int) (m : Market) : R OOA := do
  let oo ← a.openOrder slot
  let price := oo.lockedPrice
  let baseNative := asU64 (← ckI64 (baseQuantity * m.baseLotSize))
  let quoteNative := asU64 (← ckI64 ((← ckI64 (baseQuantity * price)) * m.quoteLotSize))
  let fees ← m.makerFeesCeilU quoteNative
  let p := a.position
  let p' ← (match oo.side with
    | .bid => do
      let q ← ckU64 (p.quoteFreeNative + (← ckU64 (quoteNative + fees)))
      let l ← ckU64 (p.lockedMakerFees - fees)
      return { p with quoteFreeNative := q, lockedMakerFees := l }
    | .ask => do
      let b ← ckU64 (p.baseFreeNative + baseNative)
      return { p with baseFreeNative := b } : R Position)
  ({ a with position := p' }).removeOrder slot baseQuantity price

/-- open_orders_account.rs:279-303 -/
def addOrder (a : OOA) (side : Side) (comp : Comp) (order : LeafNode) (clientOrderId : Nat) (lockedPrice : Int) :
    R OOA := do
  let p := a.position
  let p' ← (match side with
    | .bid => do
      let b ← ckI64 (p.bidsBaseLots + order.quantity)
      let q ← ckI64 (p.bidsQuoteLots + (← ckI64 (order.quantity * lockedPrice)))
      return { p with bidsBaseLots := b, bidsQuoteLots := q }
    | .ask => do
      let b ← ckI64 (p.asksBaseLots + order.quantity)
      return { p with asksBaseLots := b } : R Position)
  let _ ← a.openOrder order.ownerSlot
  let oo : OpenOrder := { isFree := false, side, comp, id := order.key, clientId := clientOrderId, lockedPrice }
  return { a with position := p', openOrders := a.openOrders.set order.ownerSlot oo }

/-- open_orders_account.rs:152-166: for a pegged bid the amounts locked at the peg limit that exceed the fill.
Returns (locked price, locked maker fees to release, amount to free). -/
def lockedAmounts (m : Market) (fill : FillEvent) (side : Side) (quoteNative makerFees : Int) : R (Int × Int × Int) :=
  if fill.pegLimit ≠ -1 ∧ side = .bid then do
    let quoteAtLock := asU64 (← ckI64 ((← ckI64 (fill.quantity * fill.pegLimit)) * m.quoteLotSize))
    let quoteToFree ← ckU64 (quoteAtLock - quoteNative)
    let feesAtLock ← m.makerFeesFloor quoteAtLock
    let feesToFree ← ckU64 (feesAtLock - makerFees)
    let above ← ckU64 (quoteToFree + feesToFree)
    return (fill.pegLimit, feesAtLock, above)
  else .ok (fill.price, makerFees, 0)

/-- open_orders_account.rs:134-241.  Logging is dropped except for the taker fee it computes (202-206),
which could panic. -/
def executeMaker (a : OOA) (m : Market) (fill : FillEvent) : R (OOA × Market) := do
  let side := fill.takerSide.invert
  let quoteNative := asU64 (← ckI64 ((← ckI64 (fill.quantity * fill.price)) * m.quoteLotSize))
  let makerFees ← if fill.maker = fill.taker then .ok 0 else m.makerFeesFloor quoteNative
  let makerRebate ← if fill.maker = fill.taker then .ok 0 else m.makerRebateFloor quoteNative
  let (lockedPrice, lockedMakerFees, above) ← lockedAmounts m fill side quoteNative makerFees
  let p := a.position
  let p1 ← (match side with
    | .bid => do
      let b ← ckU64 (p.baseFreeNative + asU64 (← ckI64 (fill.quantity * m.baseLotSize)))
      let q ← ckU64 (p.quoteFreeNative + (← ckU64 (makerRebate + above)))
      let l ← ckU64 (p.lockedMakerFees - lockedMakerFees)
      return { p with baseFreeNative := b, quoteFreeNative := q, lockedMakerFees := l }
    | .ask => do
      let q ← ckU64 (p.quoteFreeNative + (← ckU64 ((← ckU64 (quoteNative + makerRebate)) - makerFees)))
      return { p with quoteFreeNative := q } : R Position)
  let mv ← ckU128 (p1.makerVolume + quoteNative)
  let rr ← ckU64 (p1.referrerRebatesAvailable + makerFees)
  let p2 := { p1 with makerVolume := mv, referrerRebatesAvailable := rr }
  let mrr ← ckU64 (m.referrerRebatesAccrued + makerFees)
  let mmv ← ckU128 (m.makerVolume + quoteNative)
  let mfa ← ckU128 (m.feesAccrued + makerFees)
  let m' := { m with referrerRebatesAccrued := mrr, makerVolume := mmv, feesAccrued := mfa }
  let a1 := { a with position := p2 }
  let a2 ← (if fill.makerOut then a1.removeOrder fill.makerSlot fill.quantity lockedPrice
    else match side with
      | .bid => do
        let b ← ckI64 (p2.bidsBaseLots - fill.quantity)
        let q ← ckI64 (p2.bidsQuoteLots - (← ckI64 (fill.quantity * lockedPrice)))
        return { a1 with position := { p2 with bidsBaseLots := b, bidsQuoteLots := q } }
      | .ask => do
        let b ← ckI64 (p2.asksBaseLots - fill.quantity)
        return { a1 with position := { p2 with asksBaseLots := b } } : R OOA)
  let _ ← if quoteNative > 0 ∧ fill.maker ≠ fill.taker then m'.takerFeesCeil quoteNative else .ok 0
  return (a2, m')

/-- open_orders_account.rs:244-277 -/
def executeTaker (a : OOA) (m : Market) (takerSide : Side) (baseNative quoteNative takerFees referrerAmount : Int) :
    R (OOA × Market) := do
  let p := a.position
  let p1 ← (match takerSide with
    | .bid => do
      let b ← ckU64 (p.baseFreeNative + baseNative)
      return { p with baseFreeNative := b }
    | .ask => do
      let q ← ckU64 (p.quoteFreeNative + (← ckU64 (quoteNative - takerFees)))
      return { p with quoteFreeNative := q } : R Position)
  let tv ← ckU128 (p1.takerVolume + quoteNative)
  let rr ← ckU64 (p1.referrerRebatesAvailable + referrerAmount)
  let mrr ← ckU64 (m.referrerRebatesAccrued + referrerAmount)
  return ({ a with position := { p1 with takerVolume := tv, referrerRebatesAvailable := rr } },
          { m with referrerRebatesAccrued := mrr })

end OOA

/-- The open orders accounts of the market, keyed by address. -/
abbrev Accts := List (Pubkey × OOA)

namespace Accts

/-- Load an open orders account by address (`AccountLoader::try_from` + `load_mut`). -/
def get? (as : Accts) (k : Pubkey) : Option OOA := (as.find? (fun x => x.1 = k)).map (·.2)

/-- Same, failing when the account does not exist. -/
def get (as : Accts) (k : Pubkey) : R OOA := okOr .accountMissing (as.get? k)

/-- Write back the account at `k` (first and only occurrence). -/
def set (as : Accts) (k : Pubkey) (a : OOA) : Accts :=
  match as with
  | [] => []
  | x :: xs => if x.1 = k then (k, a) :: xs else x :: Accts.set xs k a

/-- Remove the account at `k`. -/
def del (as : Accts) (k : Pubkey) : Accts :=
  match as with
  | [] => []
  | x :: xs => if x.1 = k then xs else x :: Accts.del xs k

end Accts
end OB
