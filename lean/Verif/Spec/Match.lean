import Verif.Spec.Engine
import Mathlib.Data.List.Forall2
/-!
The matching engine as a specification: what an order takes from a sorted list of offers.  Used only in statements.
-/
namespace OB.Spec
open OB

/-- A resting order that can trade, and its price. -/
structure Offer where
  comp : Comp
  order : LeafNode
  price : Int

/-- `L` is what side `s` of the book offers at time `now` and oracle price `oracle`: the resting orders that can trade, in price-time
priority. -/
structure Ladder (book : Book) (s : Side) (now : Nat) (oracle : Option Int) (L : List Offer) : Prop where
  mem : ∀ o : Offer, o ∈ L ↔ (s, o.comp, o.order) ∈ book.resting ∧ TradableAt now oracle s o.comp o.order o.price
  sorted : L.Pairwise (fun o o' => Before s o.price o.order o'.price o'.order)

/-- Price `p` is acceptable to a taker on side `s`; without limit every price is. -/
def acceptable (s : Side) (lim : Option Int) (p : Int) : Prop := ∀ x, lim = some x → within s p x

instance (s : Side) (lim : Option Int) (p : Int) : Decidable (acceptable s lim p) := by
  unfold acceptable
  cases lim with
  | none => exact isTrue (fun x hx => by cases hx)
  | some y => exact decidable_of_iff (within s p y) ⟨fun h x hx => by cases hx; exact h, fun h => h y rfl⟩

/-- The taker `env` cancels this order of its own instead of trading with it. -/
def cancelsOwn (env : Env) (l : LeafNode) : Prop :=
  env.hasOO = true ∧ l.owner = env.owner ∧ env.order.selfTradeBehavior = .cancelProvide

instance (env : Env) (l : LeafNode) : Decidable (cancelsOwn env l) := by unfold cancelsOwn; infer_instance

/-- What a taker gets: offer by offer in their order, each time as much as wanted, offered and affordable, until nothing more is
wanted, the price is not acceptable, `n` orders are filled, or not even one lot is affordable.  `b` base lots are still wanted, `q`
quote lots available. -/
def greedy (env : Env) : Nat → Int → Int → List Offer → List (Offer × Int)
  | _, _, _, [] => []
  | n, b, q, o :: L =>
    if b = 0 ∨ ¬ acceptable env.order.side (limitOf env.order env.oracle) o.price ∨ n = 0 ∨ q < o.price then []
    else if cancelsOwn env o.order then greedy env n b q L
    else
      let x := min (min b o.order.quantity) (q / o.price)
      (o, x) :: greedy env (n - 1) (b - x) (q - x * o.price) L

/-- The quote lots a taker can spend on offers: a bid sets aside the taker fee. -/
def spendable (o : Order) (takerFee : Int) : Int :=
  match o.side with
  | .bid => o.maxQuoteLotsIncludingFees * 1000000 / (1000000 + takerFee)
  | .ask => o.maxQuoteLotsIncludingFees

/-- The fills of a call are those of the list: order, price and quantity. -/
def FillsAre (env : Env) (book : Book) (xs : List (Offer × Int)) (fs : List FillEvent) : Prop :=
  List.Forall₂ (fun x f => IsFillOf env book x.1.comp x.1.order f ∧ f.price = x.1.price ∧ f.quantity = x.2) xs fs

/-- Quotient rounded up. -/
def ceilDiv (a b : Int) : Int := -((-a) / b)

/-- Quote lots of the budget left after trading and paying the taker fee. -/
def quoteLeft (m : Market) (o : Order) (r : OrderResult) : Int :=
  o.maxQuoteLotsIncludingFees - sumQuote r.fills - ceilDiv r.takerFees m.quoteLotSize

/-- The price an order resting at `p` reserves for: a pegged bid its peg limit. -/
def reservedPrice (o : Order) (p : Int) : Int :=
  match o.params, o.side with
  | .oraclePegged _ _ lim, .bid => lim
  | _, _ => p

/-- The size left to post at price `p`: what was not traded, as far as the rest of the budget without the maker fee suffices. -/
def restSize (m : Market) (o : Order) (r : OrderResult) (p : Int) : Int :=
  min (o.maxBaseLots - sumQty r.fills)
    ((quoteLeft m o r - if 0 < m.makerFee then ceilDiv (quoteLeft m o r * m.makerFee) 1000000 else 0) / reservedPrice o p)

/-- A pegged order at price `p` is beyond its own peg limit. -/
def beyondOwnLimit (o : Order) (p : Int) : Prop :=
  match o.params with
  | .oraclePegged _ _ lim => (match o.side with | .bid => lim < p | .ask => p < lim)
  | _ => False

end OB.Spec
