import Verif.Spec.Exit
/-!
Vocabulary for winding down an expired market.  Used only in statements.
-/
namespace OB.Spec
open OB

/-- What the admins supply: who pays the penalties, where each account is paid out to, where the fees go, and the time. -/
structure Winding where
  payer : Pubkey
  base : Pubkey → Pubkey
  quote : Pubkey → Pubkey
  receiver : Pubkey
  now : Int

/-- How the admins wind down and close a market: after the queued events are delivered, the orders of every account are pruned,
every account is settled, the fees are swept, and the market is closed. -/
def windOps (s : State) (w : Winding) : List Op :=
  consumeOps s ++ s.g.accts.map (fun x => .pruneOrders s.g.market.closeMarketAdmin x.1 w.now 255) ++
    s.g.accts.map (fun x => .settleFundsExpired s.g.market.closeMarketAdmin
      (settleTo s.g.market.closeMarketAdmin w.payer x.1 (w.base x.1) (w.quote x.1)) w.now) ++
    [.sweepFees s.g.market.collectFeeAdmin w.receiver, .closeMarket s.g.market.closeMarketAdmin w.now]

/-- Unpaid penalties of all accounts, in lamports. -/
def penalties (s : State) : Int := (s.g.accts.map (fun x => x.2.position.penaltyHeapCount * 500)).sum

/-- Sum of what is due to all accounts. -/
def allDueBase (s : State) : Int := (s.g.accts.map (fun x => dueBase s x.1 x.2)).sum
def allDueQuote (s : State) : Int := (s.g.accts.map (fun x => dueQuote s x.1 x.2)).sum

/-- What winding down takes besides the program: an expired market with an admin for closing; for every account token accounts of its
owner for both mints, with room for all the deposits of the market; a token account for the fees; lamports for the penalties; no
account with 2^63 lots in the book, since pruning adds them up in 64 bits; and a market that is not astronomically old. -/
structure CanWind (s : State) (w : Winding) : Prop where
  admin : s.g.market.closeMarketAdmin ≠ 0
  expired : s.g.market.isExpired w.now = true
  payer : w.payer ≠ s.g.market.marketAuthority
  exist : s.g.market.baseMint ≠ 0 ∧ s.g.market.quoteMint ≠ 0
  owned : ∀ x ∈ s.g.accts, (s.tokens (w.base x.1)).owner = x.2.owner ∧ (s.tokens (w.quote x.1)).owner = x.2.owner
  mints : ∀ x ∈ s.g.accts, (s.tokens (w.base x.1)).mint = s.g.market.baseMint ∧ (s.tokens (w.quote x.1)).mint = s.g.market.quoteMint
  amounts : ∀ x ∈ s.g.accts, 0 ≤ tokens s (w.base x.1) ∧ 0 ≤ tokens s (w.quote x.1)
  room : ∀ x ∈ s.g.accts, tokens s (w.base x.1) + s.g.market.baseDepositTotal ≤ u64Max ∧
    tokens s (w.quote x.1) + s.g.market.quoteDepositTotal ≤ u64Max
  receiver : (s.tokens w.receiver).mint = s.g.market.quoteMint ∧ w.receiver ≠ s.g.market.marketQuoteVault ∧ 0 ≤ tokens s w.receiver ∧
    tokens s w.receiver + s.g.market.quoteDepositTotal ≤ u64Max
  penalty : penalties s ≤ s.lamports w.payer ∧ 0 ≤ s.lamports s.marketKey ∧ s.lamports s.marketKey + penalties s ≤ u64Max
  lots : ∀ x ∈ s.g.accts, x.2.position.bidsBaseLots + x.2.position.asksBaseLots < 2 ^ 63
  counters : CountersFresh s

end OB.Spec
