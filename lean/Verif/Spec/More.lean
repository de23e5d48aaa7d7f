import Verif.Spec.Match
/-! Comparing orders and books.  Used only in statements. -/
namespace OB.Spec
open OB

/-- `env1` is the order `env`, but asks for at least as much, pays at least as much, accepts every price that `env` accepts, and may fill
as many orders. -/
structure AsksMore (env env1 : Env) : Prop where
  side : env1.order.side = env.order.side
  accepts : ∀ p, acceptable env.order.side (limitOf env.order env.oracle) p → acceptable env.order.side (limitOf env1.order env1.oracle) p
  base : env.order.maxBaseLots ≤ env1.order.maxBaseLots
  quote : env.order.maxQuoteLotsIncludingFees ≤ env1.order.maxQuoteLotsIncludingFees
  limit : env.limit ≤ env1.limit
  self : env1.order.selfTradeBehavior = env.order.selfTradeBehavior
  owner : env1.owner = env.owner ∧ env1.hasOO = env.hasOO
  world : env1.nowTs = env.nowTs ∧ env1.oracle = env.oracle

/-- Side `s` of `book1` offers all that side `s` of `book` offers. -/
def OffersMore (s : Side) (book book1 : Book) : Prop := ∀ c l, (s, c, l) ∈ book.resting → (s, c, l) ∈ book1.resting

end OB.Spec
