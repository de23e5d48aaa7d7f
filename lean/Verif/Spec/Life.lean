import Verif.Spec.Fate
import Verif.Spec.Wealth
import Verif.Spec.TsCancel
/-! Vocabulary for the life of an order, from its posting to its end.  Used only in statements. -/
namespace OB.Spec
open OB

/-- `F` are all the trades on the way from `s` to a later state, in order. -/
inductive RunFills (s : State) : State → List FillEvent → Prop
  | now : RunFills s s []
  | other (s1 s2 : State) (op : Op) (F : List FillEvent) (hF : RunFills s s1 F) (h : step s1 op = .ok s2) (hp : placer op = none) : RunFills s s2 F
  | placing (s1 s2 : State) (op : Op) (F : List FillEvent) (hF : RunFills s s1 F) (h : step s1 op = .ok s2) (p : Placer) (hp : placer op = some p)
      (sx : State) (cs : List (Env × OrderResult)) (g1 : Ledger) (hP : Placement s1 sx s2 p cs g1) : RunFills s s2 (F ++ tradesOf cs)

/-- Lots traded in these fills. -/
def lotsOf (fs : List FillEvent) : Int := (fs.map (·.quantity)).sum

/-- `f` is a fill of the order `l`, or of what was left of it when the fill was made. -/
def FillOfOrder (sd : Side) (c : Comp) (l : LeafNode) (f : FillEvent) : Prop :=
  ∃ (env : Env) (r : OrderResult) (book book1 : Book) (g g1 : Ledger) (l1 : LeafNode),
    EngineCall env book g r book1 g1 ∧ f ∈ r.fills ∧ sd = env.order.side.invert ∧ LeftOf l l1 ∧ IsFillOf env book c l1 f

/-- Why the matching engine takes an order off the book without trading it. -/
inductive Withdrawn (env : Env) (book : Book) (r : OrderResult) (book' : Book) (g' : Ledger) (s : Side) (c : Comp) (l : LeafNode) : Prop
  /-- an order of the taker, cancelled instead of trading with itself -/
  | selfTrade (p : Int) (hs : s = env.order.side.invert) (own : l.owner = env.owner) (stb : env.order.selfTradeBehavior = .cancelProvide)
      (tradable : TradableAt env.nowTs env.oracle s c l p)
  /-- its time in force is over -/
  | expired (h : expired env.nowTs l)
  /-- beyond its peg limit -/
  | beyondPeg (p : Int) (hs : s = env.order.side.invert) (hc : c = .pegged) (hp : priceOf env.oracle c l = some p) (h : beyondPeg s p l)
  /-- the worst order of a full side, evicted by a new order with a strictly better price -/
  | evicted (hs : s = env.order.side) (E kept : List (Side × Comp × LeafNode)) (c' : Comp) (new : LeafNode) (p : Int)
      (h : MadeRoom env book r book' g' E [(s, c, l)] kept c' new p)

/-- The instruction `op`, which leads from `s` to `s'`, takes the last `rest` lots of the order `l` off the book without trading them. -/
inductive TakenOff (s s' : State) (op : Op) (sd : Side) (c : Comp) (l : LeafNode) (rest : Int) : Prop
  /-- cancelled by the owner or the delegate of its account -/
  | cancelled (l1 : LeafNode) (there : (sd, c, l1) ∈ s.book.resting) (left : LeftOf l l1) (signer : Pubkey) (hs : signer ∈ signers op)
      (auth : Controls s signer l.owner) (all : l1.quantity = rest)
  /-- pruned by the close market admin after the market expired -/
  | pruned (l1 : LeafNode) (there : (sd, c, l1) ∈ s.book.resting) (left : LeftOf l l1) (now : Int) (limit : Nat)
      (hop : op = .pruneOrders s.g.market.closeMarketAdmin l.owner now limit) (exp : s.g.market.isExpired now = true) (all : l1.quantity = rest)
  /-- taken off by the matching engine while the instruction places orders -/
  | engine (p : Placer) (hp : placer op = some p) (sx : State) (cs : List (Env × OrderResult)) (g1 : Ledger) (hP : Placement s sx s' p cs g1)
      (env : Env) (r : OrderResult) (hr : (env, r) ∈ cs) (book book1 : Book) (g g2 : Ledger) (l1 : LeafNode)
      (call : EngineCall env book g r book1 g2) (left : LeftOf l l1) (why : Withdrawn env book r book1 g2 sd c l1) (all : l1.quantity = rest)

end OB.Spec
