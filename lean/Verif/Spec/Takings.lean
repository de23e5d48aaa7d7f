import Verif.Spec.Statement
import Verif.Spec.Group
/-! Vocabulary for what a market takes in.  Used only in statements. -/
namespace OB.Spec
open OB

/-- Quote due to all accounts together. -/
def dueToAccounts (s : State) : Int := (s.g.accts.map (fun x => dueQuote s x.1 x.2)).sum

/-- Quote on the books of the market that is due to no account: fees, and rebates for referrers. -/
def keptQuote (s : State) : Int := s.g.market.quoteDepositTotal - dueToAccounts s

/-- The till of a market: taker fees charged to accounts, the trades that accounts took, the trades of take orders, and what was swept or
paid to referrers. -/
structure Till where
  fees : Int := 0
  byAccounts : List FillEvent := []
  byTakes : List FillEvent := []
  paid : Int := 0

/-- The till from `s` to a later state, kept instruction by instruction. -/
inductive Takings (s : State) : State → Till → Prop
  | now : Takings s s {}
  /-- orders sent with an account -/
  | order (s1 s2 : State) (op : Op) (t : Till) (hs : Takings s s1 t) (h : step s1 op = .ok s2) (p : Placer) (hp : placer op = some p)
      (hk : p.hasOO = true) (sx : State) (cs : List (Env × OrderResult)) (g1 : Ledger) (hP : Placement s1 sx s2 p cs g1) :
      Takings s s2 { t with fees := t.fees + takerFeesOf cs, byAccounts := t.byAccounts ++ tradesOf cs }
  /-- take orders -/
  | take (s1 s2 : State) (op : Op) (t : Till) (hs : Takings s s1 t) (h : step s1 op = .ok s2) (p : Placer) (hp : placer op = some p)
      (hk : p.hasOO = false) (sx : State) (cs : List (Env × OrderResult)) (g1 : Ledger) (hP : Placement s1 sx s2 p cs g1) :
      Takings s s2 { t with byTakes := t.byTakes ++ tradesOf cs }
  /-- fees swept -/
  | sweep (s1 s2 : State) (t : Till) (hs : Takings s s1 t) (admin receiver : Pubkey) (h : step s1 (.sweepFees admin receiver) = .ok s2) :
      Takings s s2 { t with paid := t.paid + s1.g.market.feesAvailable }
  /-- rebates paid to a referrer by a settlement -/
  | settle (s1 s2 : State) (op : Op) (t : Till) (hs : Takings s s1 t) (h : step s1 op = .ok s2) (admin : Pubkey) (c : SettleCtx) (now : Int)
      (hop : op = .settleFunds c ∨ op = .settleFundsExpired admin c now) (a : OOA) (hS : Settles s1 s2 c a) :
      Takings s s2 { t with paid := t.paid + (if c.referrer = none then 0 else rebateOf s1.g.market a) }
  /-- nothing to write down -/
  | other (s1 s2 : State) (op : Op) (t : Till) (hs : Takings s s1 t) (h : step s1 op = .ok s2) (hp : placer op = none)
      (h1 : ∀ admin receiver, op ≠ .sweepFees admin receiver) (h2 : ∀ c, op ≠ .settleFunds c)
      (h3 : ∀ admin c now, op ≠ .settleFundsExpired admin c now) : Takings s s2 t

end OB.Spec
