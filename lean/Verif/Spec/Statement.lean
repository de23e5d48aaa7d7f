import Verif.Spec.Instr
import Verif.Spec.Settle
import Verif.Spec.Wealth
import Verif.Spec.Fees
/-! Vocabulary for the statement of an account over any stretch of time.  Used only in statements. -/
namespace OB.Spec
open OB

/-- Later states up to which account `k` is not closed. -/
inductive Unclosed (k : Pubkey) (s : State) : State → Prop
  | now : Unclosed k s s
  | step (s1 s2 : State) (op : Op) (hs : Unclosed k s s1) (h : step s1 op = .ok s2) (hc : ∀ owner, op ≠ .closeOO k owner) : Unclosed k s s2

/-- A statement of account: tokens paid in and paid out, base and quote; the trades in which the account was maker, those in which it was
taker, the taker fees, and the number of orders it sent to the matching engine. -/
structure Sheet where
  inBase : Int := 0
  inQuote : Int := 0
  outBase : Int := 0
  outQuote : Int := 0
  made : List FillEvent := []
  took : List FillEvent := []
  fees : Int := 0
  sent : Nat := 0

/-- Tokens that arrived in the vaults. -/
def baseArrived (s s' : State) : Int := tokens s' s.g.market.marketBaseVault - tokens s s.g.market.marketBaseVault
def quoteArrived (s s' : State) : Int := tokens s' s.g.market.marketQuoteVault - tokens s s.g.market.marketQuoteVault

/-- The statement of account `k` from `s` to a later state, kept instruction by instruction. -/
inductive Statement (k : Pubkey) (s : State) : State → Sheet → Prop
  | now : Statement k s s {}
  /-- nothing to write down -/
  | other (s1 s2 : State) (op : Op) (t : Sheet) (hs : Statement k s s1 t) (h : step s1 op = .ok s2) (hp : placer op = none)
      (hf : fundsAccount op ≠ some k) : Statement k s s2 t
  /-- tokens paid into the vaults by a deposit -/
  | deposit (s1 s2 : State) (op : Op) (t : Sheet) (hs : Statement k s s1 t) (h : step s1 op = .ok s2) (signer ub uq : Pubkey) (now b q : Int)
      (hop : op = .deposit signer k ub uq now b q ∨ op = .refill signer k ub uq now b q) :
      Statement k s s2 { t with inBase := t.inBase + baseArrived s1 s2, inQuote := t.inQuote + quoteArrived s1 s2 }
  /-- the free balances paid out by a settlement -/
  | settle (s1 s2 : State) (op : Op) (t : Sheet) (hs : Statement k s s1 t) (h : step s1 op = .ok s2) (admin : Pubkey) (c : SettleCtx) (now : Int)
      (hop : op = .settleFunds c ∨ op = .settleFundsExpired admin c now) (hk : c.ooKey = k) (a : OOA) (paid : Settles s1 s2 c a) :
      Statement k s s2 { t with outBase := t.outBase + a.position.baseFreeNative, outQuote := t.outQuote + a.position.quoteFreeNative }
  /-- orders of others, which may trade with orders of the account -/
  | others (s1 s2 : State) (op : Op) (t : Sheet) (hs : Statement k s s1 t) (h : step s1 op = .ok s2) (p : Placer) (hp : placer op = some p)
      (hk : p.hasOO = false ∨ p.owner ≠ k) (sx : State) (cs : List (Env × OrderResult)) (g1 : Ledger) (hP : Placement s1 sx s2 p cs g1) :
      Statement k s s2 { t with made := t.made ++ (tradesOf cs).filter (fun f => f.maker = k) }
  /-- orders of the account, with the tokens the owner had to add -/
  | own (s1 s2 : State) (op : Op) (t : Sheet) (hs : Statement k s s1 t) (h : step s1 op = .ok s2) (p : Placer) (hp : placer op = some p)
      (hk : p.hasOO = true) (ho : p.owner = k) (sx : State) (cs : List (Env × OrderResult)) (g1 : Ledger) (hP : Placement s1 sx s2 p cs g1) :
      Statement k s s2 { t with
        inBase := t.inBase + baseArrived s1 s2, inQuote := t.inQuote + quoteArrived s1 s2
        made := t.made ++ (tradesOf cs).filter (fun f => f.maker = k), took := t.took ++ tradesOf cs
        fees := t.fees + takerFeesOf cs, sent := t.sent + cs.length }

/-- What the statement says should have been added to what is due to the account. -/
def Sheet.base (t : Sheet) (m : Market) : Int := t.inBase - t.outBase + sumFills t.made (makerBase m) + sumFills t.took (takerBase m)
def Sheet.quote (t : Sheet) (m : Market) : Int :=
  t.inQuote - t.outQuote + sumFills t.made (makerQuote m) + sumFills t.took (takerQuote m) - t.fees

end OB.Spec
