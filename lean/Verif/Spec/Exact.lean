import Verif.Spec.Cancel
import Verif.Spec.Settle
/-!
Vocabulary for the conditions under which an instruction succeeds.  Used only in statements.
-/
namespace OB.Spec

/-- The market has ended at time `now`. -/
def Ended (s : State) (now : Int) : Prop := s.g.market.timeExpiry ≠ 0 ∧ s.g.market.timeExpiry < now

/-- A fact about the SPL token program: the supply of a mint is a 64-bit number, and it is the sum of all balances.  So balances are not
negative, and two accounts of one mint together fit in 64 bits.  It is stated for the accounts that an instruction names. -/
def SupplyFits (s : State) (ks : List Pubkey) : Prop :=
  (∀ i ∈ ks, 0 ≤ tokens s i) ∧
  ∀ i ∈ ks, ∀ j ∈ ks, i ≠ j → (s.tokens i).mint = (s.tokens j).mint → tokens s i + tokens s j ≤ u64Max

/-- The same for lamports. -/
def LamportsFit (s : State) (payer : Pubkey) : Prop :=
  0 ≤ s.lamports payer ∧ s.lamports payer ≤ u64Max ∧ 0 ≤ s.lamports s.marketKey ∧
  (payer ≠ s.marketKey → s.lamports payer + s.lamports s.marketKey ≤ u64Max)

/-- The signer can pay `n` from token account `t` (nothing is needed to pay nothing). -/
def CanPay (s : State) (signer t : Pubkey) (n : Int) : Prop := 0 < n → (s.tokens t).owner = signer ∧ n ≤ tokens s t

/-- The market owes nothing to the account. -/
def NothingOwed (a : OOA) : Prop :=
  a.position.baseFreeNative = 0 ∧ a.position.quoteFreeNative = 0 ∧ a.position.lockedMakerFees = 0 ∧ a.position.referrerRebatesAvailable = 0

/-- The admin who may end the market, if there is one. -/
def IsCloser (s : State) (admin : Pubkey) : Prop := s.g.market.closeMarketAdmin ≠ 0 ∧ s.g.market.closeMarketAdmin = admin

/-- The token accounts of a settlement are of the right mints, and whoever pays the penalties of the account has the lamports. -/
structure RightAccounts (s : State) (c : SettleCtx) (a : OOA) : Prop where
  base : (s.tokens c.userBase).mint = s.g.market.baseMint
  quote : (s.tokens c.userQuote).mint = s.g.market.quoteMint
  referrer : ∀ r, c.referrer = some r → (s.tokens r).mint = s.g.market.quoteMint
  penalty : 0 < a.position.penaltyHeapCount → 500 * a.position.penaltyHeapCount ≤ s.lamports c.penaltyPayer

end OB.Spec
