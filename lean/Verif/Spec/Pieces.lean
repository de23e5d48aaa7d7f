import Verif.Spec.Match
import Verif.Spec.Engine
/-! An order in pieces.  Used only in statements. -/
namespace OB.Spec
open OB

/-- The fills lot by lot: account and slot of the order taken from, and the price. -/
def lotsTaken (fs : List FillEvent) : List (Pubkey × Nat × Int) :=
  fs.flatMap (fun f => List.replicate f.quantity.toNat (f.maker, f.makerSlot, f.price))

/-- `e` is an order like `env` but for its size, its budget, the number of orders it may fill, and what becomes of the rest: the same
trader, side, limit price and self-trade behaviour, at the same time and oracle price; and it trades. -/
structure PieceOf (env e : Env) : Prop where
  side : e.order.side = env.order.side
  limitPrice : limitOf e.order e.oracle = limitOf env.order env.oracle
  self : e.order.selfTradeBehavior = env.order.selfTradeBehavior
  owner : e.owner = env.owner ∧ e.hasOO = env.hasOO
  world : e.nowTs = env.nowTs ∧ e.oracle = env.oracle
  trades : ¬ PostsOnly e.order

/-- The quote limit of `e` is enough for its size at price `p`. -/
def Covers (takerFee : Int) (e : Env) (p : Int) : Prop := e.order.maxBaseLots * p ≤ spendable e.order takerFee

/-- The quote limit of `e` is enough for its size at every price offered in `book`. -/
def CoversAll (takerFee : Int) (book : Book) (e : Env) : Prop :=
  ∀ c l p, (e.order.side.invert, c, l) ∈ book.resting → TradableAt e.nowTs e.oracle e.order.side.invert c l p → Covers takerFee e p

/-- The same orders rest on side `s`. -/
def SameOffers (s : Side) (book book1 : Book) : Prop := ∀ c l, (s, c, l) ∈ book.resting ↔ (s, c, l) ∈ book1.resting

/-- The orders `cs` are pieces of `env`, placed one after the other, the first in a book with the offers of `book`.  Whatever happens in
between leaves the offers alone: nobody else trades with them, cancels or adds any. -/
inductive InPieces (env : Env) (m : Market) : Book → List (Env × OrderResult) → Prop
  | nil (book : Book) : InPieces env m book []
  | cons (e : Env) (r : OrderResult) (cs : List (Env × OrderResult)) (book0 book book' : Book) (g g' : Ledger)
      (same : SameOffers env.order.side.invert book0 book) (piece : PieceOf env e) (call : EngineCall e book g r book' g')
      (fee : g.market.takerFee = m.takerFee) (lot : g.market.quoteLotSize = m.quoteLotSize) (more : InPieces env m book' cs) :
      InPieces env m book0 ((e, r) :: cs)

end OB.Spec
