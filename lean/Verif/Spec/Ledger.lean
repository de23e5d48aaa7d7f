import Verif.Model.Program
import Verif.Spec.Observe
/-!
Vocabulary for stating the accounting properties.  Everything is read off the accounts: book, event queue and open orders
accounts.  Used only in statements.
-/
namespace OB.Spec

/-- Sum of `f` over all open orders accounts. -/
def sumAccts (s : State) (f : OOA → Int) : Int := (s.g.accts.map (fun x => f x.2)).sum

/-- Free balances of account `k`. -/
def freeBase (s : State) (k : Pubkey) : Int := ((s.g.accts.get? k).map (fun a => a.position.baseFreeNative)).getD 0
def freeQuote (s : State) (k : Pubkey) : Int := ((s.g.accts.get? k).map (fun a => a.position.quoteFreeNative)).getD 0

/-- Balance of token account `k`. -/
def tokens (s : State) (k : Pubkey) : Int := (s.tokens k).amount

/-- Change of the balance of `k` when `x` tokens are transferred from `src` to `dst`. -/
def moved (k src dst : Pubkey) (x : Int) : Int := (if k = dst then x else 0) - (if k = src then x else 0)

/-- From `s` to `s'` nobody loses any funds except account `k` with token account `tok`, which pay at most `amount` native quote
together. -/
structure PaysQuote (s s' : State) (k tok : Pubkey) (amount : Int) : Prop where
  total : (tokens s tok - tokens s' tok) + (freeQuote s k - freeQuote s' k) ≤ amount
  token : ∀ j, j ≠ tok → tokens s j ≤ tokens s' j
  quote : ∀ j, j ≠ k → freeQuote s j ≤ freeQuote s' j
  base : ∀ j, freeBase s j ≤ freeBase s' j

/-- The same for base. -/
structure PaysBase (s s' : State) (k tok : Pubkey) (amount : Int) : Prop where
  total : (tokens s tok - tokens s' tok) + (freeBase s k - freeBase s' k) ≤ amount
  token : ∀ j, j ≠ tok → tokens s j ≤ tokens s' j
  base : ∀ j, j ≠ k → freeBase s j ≤ freeBase s' j
  quote : ∀ j, freeQuote s j ≤ freeQuote s' j

/-- A bid placed by an account, alone: the account, the token account it pays from and its budget in quote lots (an order that is
already expired may come with a negative budget; it is not placed). -/
def bidBudget : Op → Option (Pubkey × Pubkey × Int)
  | .placeOrder c a | .editOrder c _ _ a => if a.side = .bid then some (c.ooKey, c.userToken, max a.maxQuoteLots 0) else none
  | .placeOrderPegged c a | .editOrderPegged c _ _ a => if a.side = .bid then some (c.ooKey, c.userToken, max a.maxQuoteLots 0) else none
  | _ => none

/-- An ask placed by an account, alone: the account, the token account it pays from and its size in base lots. -/
def askBudget : Op → Option (Pubkey × Pubkey × Int)
  | .placeOrder c a | .editOrder c _ _ a => if a.side = .ask then some (c.ooKey, c.userToken, max a.maxBaseLots 0) else none
  | .placeOrderPegged c a | .editOrderPegged c _ _ a => if a.side = .ask then some (c.ooKey, c.userToken, max a.maxBaseLots 0) else none
  | _ => none

/-- Sum of `f` over the queued events. -/
def sumEvents (s : State) (f : Event → Int) : Int := (s.g.heap.events.map f).sum

/-- Sum of `f` over the resting orders. -/
def sumOrders (s : State) (f : Side → Comp → LeafNode → Int) : Int := (s.book.resting.map (fun x => f x.1 x.2.1 x.2.2)).sum

/-- Quote value of a fill, in native units. -/
def fillQuote (m : Market) (f : FillEvent) : Int := f.quantity * f.price * m.quoteLotSize

/-- The rebate the maker of a fill receives: the floor of value * (-maker fee) / 10^6 if the maker fee is negative; none on a
trade with oneself. -/
def fillRebate (m : Market) (f : FillEvent) : Int :=
  if f.maker = f.taker then 0 else fillQuote m f * max (-m.makerFee) 0 / 1000000

/-- Base moved by the taker of a fill and not yet booked for the maker.  A taker ask has already paid the base in, a taker bid has
already received the base that the maker's account still shows as locked. -/
def undeliveredBase (m : Market) : Event → Int
  | .fill f => match f.takerSide with
    | .ask => f.quantity * m.baseLotSize
    | .bid => -(f.quantity * m.baseLotSize)
  | .out _ => 0

/-- Quote moved by the taker of a fill and not yet booked for the maker.  A taker bid has already paid value and rebate in; a taker
ask has paid the rebate in, and has received the value that the maker's account still shows as locked. -/
def undeliveredQuote (m : Market) : Event → Int
  | .fill f => match f.takerSide with
    | .bid => fillQuote m f + fillRebate m f
    | .ask => fillRebate m f - fillQuote m f
  | .out _ => 0

/-- The price at which the funds of a resting bid were locked: its limit price, or the peg limit of a pegged order. -/
def lockedAt (c : Comp) (l : LeafNode) : Int :=
  match c with
  | .fixed => l.priceData
  | .pegged => l.pegLimit

/-- The price at which the quote funds of the maker of an event were locked.  `a` is the maker's account: the order of an out event
is still recorded there.  The maker of a fill is either a fixed order (peg limit -1) or a pegged order. -/
def eventLockedAt (a : OOA) : Event → Int
  | .out e => match a.openOrders[e.ownerSlot]? with
    | some oo => oo.lockedPrice
    | none => 0
  | .fill f => if f.pegLimit = -1 then f.price else f.pegLimit

/-- Resting orders of account `k` which occupy its slot `i`. -/
def restingIn (s : State) (k : Pubkey) (i : Nat) : List (Side × Comp × LeafNode) :=
  s.book.resting.filter (fun x => x.2.2.owner = k ∧ x.2.2.ownerSlot = i)

/-- The event frees slot `i` of account `k` when it is consumed: a cancellation, or a fill that takes the maker order out. -/
def frees (k : Pubkey) (i : Nat) : Event → Bool
  | .out e => e.owner = k ∧ e.ownerSlot = i
  | .fill f => f.makerOut = true ∧ f.maker = k ∧ f.makerSlot = i

/-- Queued events that will free slot `i` of account `k`. -/
def freeing (s : State) (k : Pubkey) (i : Nat) : List Event := s.g.heap.events.filter (frees k i)

/-- The account an event is for. -/
def eventAccount : Event → Pubkey
  | .out e => e.owner
  | .fill f => f.maker

/-- The side of the maker order an event is about. -/
def eventSide : Event → Side
  | .out e => e.side
  | .fill f => f.takerSide.invert

def eventQuantity : Event → Int
  | .out e => e.quantity
  | .fill f => f.quantity

/-- Native base locked by a resting order. -/
def lockedBase (m : Market) (s : Side) (l : LeafNode) : Int := if s = .ask then l.quantity * m.baseLotSize else 0

end OB.Spec
