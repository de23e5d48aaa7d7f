import Verif.Spec.Instr
import Verif.Spec.Room
/-!
What can become of a resting order.  Used only in statements.
-/
namespace OB.Spec
open OB

/-- No order with the id of `l` rests on this side and component. -/
def Gone (book' : Book) (s : Side) (c : Comp) (l : LeafNode) : Prop := ∀ l', (s, c, l') ∈ book'.resting → l'.key ≠ l.key

/-- Why an order leaves the book in a call of the matching engine. -/
inductive Leaves (env : Env) (book : Book) (r : OrderResult) (book' : Book) (g' : Ledger) (s : Side) (c : Comp) (l : LeafNode) : Prop
  /-- completely filled by the incoming order of the other side -/
  | filled (f : FillEvent) (hs : s = env.order.side.invert) (hf : f ∈ r.fills) (fill : IsFillOf env book c l f) (out : f.makerOut = true)
  /-- an order of the taker, cancelled instead of trading with itself -/
  | selfTrade (p : Int) (hs : s = env.order.side.invert) (own : l.owner = env.owner) (stb : env.order.selfTradeBehavior = .cancelProvide)
      (tradable : TradableAt env.nowTs env.oracle s c l p)
  /-- its time in force is over -/
  | expired (h : expired env.nowTs l)
  /-- beyond its peg limit -/
  | beyondPeg (p : Int) (hs : s = env.order.side.invert) (hc : c = .pegged) (hp : priceOf env.oracle c l = some p)
      (h : beyondPeg s p l)
  /-- the worst order of a full side, evicted by a new order with a strictly better price -/
  | evicted (hs : s = env.order.side) (E kept : List (Side × Comp × LeafNode)) (c' : Comp) (new : LeafNode) (p : Int)
      (h : MadeRoom env book r book' g' E [(s, c, l)] kept c' new p)

/-- How an order that stays in the book changes in a call of the matching engine: not at all, or by the quantity of a fill. -/
inductive Keeps (env : Env) (book : Book) (r : OrderResult) (s : Side) (c : Comp) (l : LeafNode) : LeafNode → Prop
  | same : Keeps env book r s c l l
  | partly (f : FillEvent) (hs : s = env.order.side.invert) (hf : f ∈ r.fills) (fill : IsFillOf env book c l f) (out : f.makerOut = false) :
      Keeps env book r s c l { l with quantity := l.quantity - f.quantity }

/-- The order `l` through a sequence of calls of the matching engine: what is left of it, or `none` if one of the calls removed it
for one of the reasons above. -/
inductive Through (s : Side) (c : Comp) : Book → Ledger → List (Env × OrderResult) → LeafNode → Option LeafNode → Prop
  | done (book : Book) (g : Ledger) (l : LeafNode) : Through s c book g [] l (some l)
  | leaves (env : Env) (r : OrderResult) (cs : List (Env × OrderResult)) (book book1 : Book) (g g1 : Ledger) (l : LeafNode)
      (h : EngineCall env book g r book1 g1) (why : Leaves env book r book1 g1 s c l) : Through s c book g ((env, r) :: cs) l none
  | keeps (env : Env) (r : OrderResult) (cs : List (Env × OrderResult)) (book book1 : Book) (g g1 : Ledger) (l l1 : LeafNode)
      (o : Option LeafNode) (h : EngineCall env book g r book1 g1) (hk : Keeps env book r s c l l1) (rest : Through s c book1 g1 cs l1 o) :
      Through s c book g ((env, r) :: cs) l o

/-- In the end what is left of the order rests in the book; if nothing is left, its id is not in the book. -/
def Remains (book' : Book) (s : Side) (c : Comp) (l : LeafNode) : Option LeafNode → Prop
  | some l' => (s, c, l') ∈ book'.resting
  | none => Gone book' s c l

/-- What becomes of the order `(side, c, l)` of `s` in the instruction `op`, which leads to `s'`. -/
inductive Explained (s s' : State) (op : Op) (side : Side) (c : Comp) (l : LeafNode) : Prop
  /-- nothing -/
  | same (h : (side, c, l) ∈ s'.book.resting)
  /-- cancelled by the owner or the delegate of its account -/
  | cancelled (signer : Pubkey) (hs : signer ∈ signers op) (auth : Controls s signer l.owner) (gone : Gone s'.book side c l)
  /-- pruned by the close market admin after the market expired -/
  | pruned (now : Int) (limit : Nat) (hop : op = .pruneOrders s.g.market.closeMarketAdmin l.owner now limit)
      (adm : s.g.market.closeMarketAdmin ≠ 0) (exp : s.g.market.isExpired now = true) (gone : Gone s'.book side c l)
  /-- the instruction places orders, and the order meets them in the matching engine -/
  | met (p : Placer) (hp : placer op = some p) (s1 : State) (cs : List (Env × OrderResult)) (g1 : Ledger)
      (hP : Placement s s1 s' p cs g1) (o : Option LeafNode) (through : Through side c s1.book s1.g cs l o)
      (after : Remains s'.book side c l o)

end OB.Spec
