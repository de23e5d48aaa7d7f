import Verif.Spec.Settle
/-!
Vocabulary for expired markets.  Used only in statements.
-/
namespace OB.Spec

/-- From `s` to `s'`, the market only winds down: every order that rests rested before, unchanged; every queued event was queued
before, in the same order; no deposit was added. -/
structure WindsDown (s s' : State) : Prop where
  orders : ∀ x ∈ s'.book.resting, x ∈ s.book.resting
  events : s'.g.heap.events.Sublist s.g.heap.events
  base : s'.g.market.baseDepositTotal ≤ s.g.market.baseDepositTotal
  quote : s'.g.market.quoteDepositTotal ≤ s.g.market.quoteDepositTotal

/-- The state `s'` is reached from `s` by instructions that do not run before time `now`. -/
inductive Later (now : Int) (s : State) : State → Prop
  | refl : Later now s s
  | step {s1 s2 : State} (op : Op) : Later now s s1 → (∀ t, clock op = some t → now ≤ t) → step s1 op = .ok s2 → Later now s s2

/-- Everything outside the market that a settlement needs: a signature of the owner or delegate of the account, the right token
accounts (owned by the owner, if the delegate signs) with room for the amounts, and lamports for the penalties. -/
structure CanSettle (s : State) (c : SettleCtx) (a : OOA) : Prop where
  acct : s.g.accts.get? c.ooKey = some a
  signer : c.signer = a.owner ∨ (a.delegate ≠ 0 ∧ c.signer = a.delegate)
  owned : c.signer ≠ a.owner ∨ (a.delegate ≠ 0 ∧ c.signer = a.delegate) →
    (s.tokens c.userBase).owner = a.owner ∧ (s.tokens c.userQuote).owner = a.owner
  notVaults : c.signer ≠ s.g.market.marketAuthority ∧ c.penaltyPayer ≠ s.g.market.marketAuthority
  exist : s.g.market.baseMint ≠ 0 ∧ s.g.market.quoteMint ≠ 0
  mintB : (s.tokens c.userBase).mint = s.g.market.baseMint
  mintQ : (s.tokens c.userQuote).mint = s.g.market.quoteMint
  mintR : ∀ r, c.referrer = some r → (s.tokens r).mint = s.g.market.quoteMint
  amounts : 0 ≤ tokens s c.userBase ∧ 0 ≤ tokens s c.userQuote ∧ ∀ r, c.referrer = some r → 0 ≤ tokens s r
  roomB : tokens s c.userBase + a.position.baseFreeNative ≤ u64Max
  roomQ : tokens s c.userQuote + a.position.quoteFreeNative + rebateOf s.g.market a ≤ u64Max
  roomR : ∀ r, c.referrer = some r → tokens s r + rebateOf s.g.market a ≤ u64Max
  statistics : c.referrer ≠ none → s.g.market.feesToReferrers + rebateOf s.g.market a ≤ u128Max
  penalty : 0 < a.position.penaltyHeapCount → a.position.penaltyHeapCount * 500 ≤ s.lamports c.penaltyPayer ∧
    0 ≤ s.lamports s.marketKey ∧ s.lamports s.marketKey + a.position.penaltyHeapCount * 500 ≤ u64Max

end OB.Spec
