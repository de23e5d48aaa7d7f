import Verif.Spec.Exit
/-!
Vocabulary for what a trade is worth to its maker and its taker.  Used only in statements.
-/
namespace OB.Spec
open OB

/-- Base the maker of a fill receives (a bid was filled) or gives (an ask was filled). -/
def makerBase (m : Market) (f : FillEvent) : Int :=
  if f.takerSide = .ask then f.quantity * m.baseLotSize else -(f.quantity * m.baseLotSize)

/-- Quote the maker of a fill receives or pays: the value of the trade, plus rebate, minus maker fee. -/
def makerQuote (m : Market) (f : FillEvent) : Int :=
  (if f.takerSide = .ask then -fillQuote m f else fillQuote m f) + fillRebate m f - fillMakerFee m f

/-- The most a maker can lose on a fill beyond price and fee.  A bid reserves the maker fee rounded up, a fill releases it rounded
down: one native unit per fill of a bid; and the fee itself if the bid traded with its own account, which is charged no maker fee. -/
def makerSlack (m : Market) (f : FillEvent) : Int :=
  if f.takerSide = .ask ∧ 0 < m.makerFee then
    1 + (if f.maker = f.taker then fillQuote m f * m.makerFee / 1000000 else 0)
  else 0

/-- Sum of `v` over the fills whose maker is account `k`. -/
def sumMaker (fs : List FillEvent) (k : Pubkey) (v : FillEvent → Int) : Int := ((fs.filter (fun f => f.maker = k)).map v).sum

/-- Sum of `v` over all fills. -/
def sumFills (fs : List FillEvent) (v : FillEvent → Int) : Int := (fs.map v).sum

/-- Base the taker of a fill receives (bid) or gives (ask). -/
def takerBase (m : Market) (f : FillEvent) : Int :=
  if f.takerSide = .bid then f.quantity * m.baseLotSize else -(f.quantity * m.baseLotSize)

/-- Quote the taker of a fill pays (bid) or receives (ask), without the taker fee. -/
def takerQuote (m : Market) (f : FillEvent) : Int := if f.takerSide = .bid then -fillQuote m f else fillQuote m f

/-- The fills of calls of the matching engine. -/
def tradesOf (cs : List (Env × OrderResult)) : List FillEvent := cs.flatMap (fun x => x.2.fills)

/-- The taker fees charged by calls of the matching engine. -/
def takerFeesOf (cs : List (Env × OrderResult)) : Int := (cs.map (fun x => x.2.takerFees)).sum

/-- Account `k` stays, and what is due to it changes by `b` base and `q` quote. -/
def DueMoves (s s' : State) (k : Pubkey) (b q : Int) : Prop :=
  ∀ a, s.g.accts.get? k = some a →
    ∃ a', s'.g.accts.get? k = some a' ∧ a'.owner = a.owner ∧ dueBase s' k a' = dueBase s k a + b ∧ dueQuote s' k a' = dueQuote s k a + q

/-- The account that an instruction pays into, pays out or closes. -/
def fundsAccount : Op → Option Pubkey
  | .deposit _ k .. | .refill _ k .. | .closeOO k _ => some k
  | .settleFunds c | .settleFundsExpired _ c _ => some c.ooKey
  | _ => none

end OB.Spec
