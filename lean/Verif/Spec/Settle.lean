import Verif.Spec.Instr
/-!
Vocabulary for settling, sweeping and closing.  Used only in statements.
-/
namespace OB.Spec

/-- The account holds nothing: no free and no locked funds, no rebates, no order in any slot. -/
structure HoldsNothing (a : OOA) : Prop where
  freeBase : a.position.baseFreeNative = 0
  freeQuote : a.position.quoteFreeNative = 0
  bids : a.position.bidsBaseLots = 0 ∧ a.position.bidsQuoteLots = 0
  asks : a.position.asksBaseLots = 0
  fees : a.position.lockedMakerFees = 0
  rebates : a.position.referrerRebatesAvailable = 0
  slots : ∀ oo ∈ a.openOrders, oo.isFree = true

/-- What is left of the maker fees locked by an account when it has no more bids, on a market that charges maker fees.  Fees are
locked rounded up and charged rounded down; the difference remains. -/
def feeRemainder (m : Market) (a : OOA) : Int :=
  if 0 < m.makerFee ∧ a.position.bidsBaseLots = 0 then a.position.lockedMakerFees else 0

/-- What settling account `a` pays to the referrer, or to the fees of the market if there is none. -/
def rebateOf (m : Market) (a : OOA) : Int := a.position.referrerRebatesAvailable + feeRemainder m a

/-- Account `a` with nothing left to pay out. -/
def paidOut (m : Market) (a : OOA) : OOA :=
  { a with position := { a.position with
      baseFreeNative := 0, quoteFreeNative := 0, referrerRebatesAvailable := 0
      lockedMakerFees := a.position.lockedMakerFees - feeRemainder m a, penaltyHeapCount := 0 } }

/-- Change of token account `k` by a transfer to `dst`, if there is one. -/
def movedIf (k src : Pubkey) (dst : Option Pubkey) (x : Int) : Int :=
  match dst with
  | some d => moved k src d x
  | none => 0

/-- Settlement of account `a` with token accounts `toBase`, `toQuote` and an optional referrer: exactly the free base goes from the
base vault to `toBase`, exactly the free quote from the quote vault to `toQuote`, the rebate from the quote vault to the referrer or
into the fees of the market.  The totals follow.  Nothing else changes, except that the penalties of the account are paid in lamports. -/
structure Settles (s s' : State) (c : SettleCtx) (a : OOA) : Prop where
  before : s.g.accts.get? c.ooKey = some a
  after : s'.g.accts.get? c.ooKey = some (paidOut s.g.market a)
  others : ∀ j, j ≠ c.ooKey → s'.g.accts.get? j = s.g.accts.get? j
  tokens : ∀ k, tokens s' k = tokens s k + moved k s.g.market.marketBaseVault c.userBase a.position.baseFreeNative +
    moved k s.g.market.marketQuoteVault c.userQuote a.position.quoteFreeNative +
    movedIf k s.g.market.marketQuoteVault c.referrer (rebateOf s.g.market a)
  owners : ∀ k, (s'.tokens k).owner = (s.tokens k).owner ∧ (s'.tokens k).mint = (s.tokens k).mint
  mints : (s.tokens c.userBase).mint = s.g.market.baseMint ∧ (s.tokens c.userQuote).mint = s.g.market.quoteMint ∧
    ∀ r, c.referrer = some r → (s.tokens r).mint = s.g.market.quoteMint
  market : s'.g.market = { s.g.market with
    baseDepositTotal := s.g.market.baseDepositTotal - a.position.baseFreeNative
    quoteDepositTotal := s.g.market.quoteDepositTotal - a.position.quoteFreeNative -
      (if c.referrer = none then 0 else rebateOf s.g.market a)
    feesAvailable := s.g.market.feesAvailable + (if c.referrer = none then rebateOf s.g.market a else 0)
    feesToReferrers := s.g.market.feesToReferrers + (if c.referrer = none then 0 else rebateOf s.g.market a)
    referrerRebatesAccrued := s.g.market.referrerRebatesAccrued - a.position.referrerRebatesAvailable }
  book : s'.book = s.book
  heap : s'.g.heap = s.g.heap
  closed : s'.closed = s.closed
  lamports : ∀ k, s'.lamports k = s.lamports k + moved k c.penaltyPayer s.marketKey (a.position.penaltyHeapCount * 500)

/-- Fees taken out of the market by an instruction. -/
def sweptBy (s : State) : Op → Int
  | .sweepFees .. => s.g.market.feesAvailable
  | _ => 0

/-- Fee remainder collected by an instruction. -/
def remainderBy (s : State) : Op → Int
  | .settleFunds c | .settleFundsExpired _ c _ => ((s.g.accts.get? c.ooKey).map (feeRemainder s.g.market)).getD 0
  | _ => 0

/-- A market history, since its creation or its last re-creation after it was closed, ends in a state, with the total fees swept and
the total fee remainders collected on the way. -/
inductive History : State → Int → Int → Prop
  | init (a : CreateArgs) (now : Int) (tokens : Tokens) (lamports : Lamports) (s : State)
      (h : createMarket a now tokens lamports = .ok s) : History s 0 0
  | again (s s' : State) (a : CreateArgs) (now : Int) (hs : Reachable s) (h : recreateMarket s a now = .ok s') : History s' 0 0
  | step (s s' : State) (op : Op) (swept remainders : Int) (hs : History s swept remainders) (h : step s op = .ok s') :
      History s' (swept + sweptBy s op) (remainders + remainderBy s op)

end OB.Spec
