import Verif.Spec.Wealth
import Verif.Spec.Settle
import Verif.Spec.Asked
/-!
Vocabulary for what a group of accounts has on the books of a market, and for its trades with others.  Used only in statements.
-/
namespace OB.Spec
open OB

/-- Quote that a trade is worth to its maker before maker fees: the price received or paid, plus the rebate. -/
def makerWorth (m : Market) (f : FillEvent) : Int :=
  (if f.takerSide = .ask then -fillQuote m f else fillQuote m f) + fillRebate m f

/-- Quote that a queued event still adds to the books of its account. -/
def queuedWorth (m : Market) : Event → Int
  | .fill f => makerWorth m f
  | .out _ => 0

/-- Quote that account `k`, which is `a`, has on the books: free, locked in bids, locked for maker fees, referrer rebates not yet
paid, and the value of its trades not yet delivered. -/
def stakeQuote (s : State) (k : Pubkey) (a : OOA) : Int :=
  a.position.quoteFreeNative + a.position.bidsQuoteLots * s.g.market.quoteLotSize + a.position.lockedMakerFees +
    a.position.referrerRebatesAvailable + total (eventsOf s k) (queuedWorth s.g.market)

/-- Base that the accounts of group `K` have on the books together. -/
def groupBase (K : Pubkey → Bool) (s : State) : Int :=
  ((s.g.accts.filter (fun x => K x.1)).map (fun x => dueBase s x.1 x.2)).sum

/-- Quote that they have on the books together. -/
def groupQuote (K : Pubkey → Bool) (s : State) : Int :=
  ((s.g.accts.filter (fun x => K x.1)).map (fun x => stakeQuote s x.1 x.2)).sum

/-- The account that an instruction trades for, pays into, pays out or closes.  A take order has none. -/
def actsFor (op : Op) : Option Pubkey :=
  match placer op with
  | some p => if p.hasOO then some p.owner else none
  | none => fundsAccount op

/-- The instruction acts for an account of the group. -/
def byGroup (K : Pubkey → Bool) (op : Op) : Bool :=
  match actsFor op with
  | some k => K k
  | none => false

/-- The trades of an instruction: the fills of its calls of the matching engine. -/
def TradesIn (s : State) (op : Op) (s' : State) (ts : List FillEvent) : Prop :=
  match placer op with
  | some p => ∃ s1 cs g1, Placement s s1 s' p cs g1 ∧ Serves op p.now cs ∧ ts = tradesOf cs
  | none => ts = []

/-- One executed instruction, with its trades. -/
structure Done where
  before : State
  op : Op
  after : State
  trades : List FillEvent

/-- An execution. -/
inductive Ran : State → List Done → State → Prop
  | nil (s : State) : Ran s [] s
  | cons (d : Done) (l : List Done) (s' : State) (h : step d.before d.op = .ok d.after)
      (ht : TradesIn d.before d.op d.after d.trades) (hs : Ran d.after l s') : Ran d.before (d :: l) s'

/-- Base that the group pays in with an instruction: the tokens that arrive in the vault, if the instruction acts for the group.
Negative if tokens are paid out. -/
def broughtBase (K : Pubkey → Bool) (d : Done) : Int :=
  if byGroup K d.op then
    tokens d.after d.before.g.market.marketBaseVault - tokens d.before d.before.g.market.marketBaseVault
  else 0

/-- The same for quote.  What goes to the fees of the market remains in the vault and is lost to the group. -/
def broughtQuote (K : Pubkey → Bool) (d : Done) : Int :=
  if byGroup K d.op then
    tokens d.after d.before.g.market.marketQuoteVault - tokens d.before d.before.g.market.marketQuoteVault -
      (d.after.g.market.feesAvailable - d.before.g.market.feesAvailable)
  else 0

/-- A trade between the group and others.  `T` tells if the taker is in the group. -/
def crosses (K : Pubkey → Bool) (T : Bool) (f : FillEvent) : Bool := T != K f.maker

/-- Base that the group gets from others in the trades of an instruction. -/
def wonBase (K : Pubkey → Bool) (d : Done) : Int :=
  sumFills (d.trades.filter (crosses K (byGroup K d.op)))
    (fun f => if byGroup K d.op then takerBase d.before.g.market f else makerBase d.before.g.market f)

/-- Quote that the group gets from others in the trades of an instruction: the price of the trade and the maker's rebate, which the
taker pays. -/
def wonQuote (K : Pubkey → Bool) (d : Done) : Int :=
  sumFills (d.trades.filter (crosses K (byGroup K d.op)))
    (fun f => if byGroup K d.op then takerQuote d.before.g.market f - fillRebate d.before.g.market f
      else makerWorth d.before.g.market f)

/-- Sum over an execution. -/
def sumDone (l : List Done) (f : Done → Int) : Int := (l.map f).sum

/-- The instruction settles an account to a vault of the market itself: such tokens are lost to the account. -/
def intoVault (s : State) : Op → Prop
  | .settleFunds c | .settleFundsExpired _ c _ =>
    c.userBase = s.g.market.marketBaseVault ∨ c.userQuote = s.g.market.marketQuoteVault ∨
      c.referrer = some s.g.market.marketQuoteVault
  | _ => False

end OB.Spec
