import Verif.Proofs.Extra
import Verif.Spec.Settle
import Verif.Props.C13_Conservation
import Verif.Props.Scenario
/-!
C24 — A market can only be closed with no user funds left in it.
C25 — An open orders account can only be closed when nothing is owed to it or by it.
-/
namespace OB
open Spec

/-- When a market is closed, it is expired; no order rests, no event is queued; the deposit totals, the fees not yet collected and
the rebates not yet paid are zero; and every account of the market holds nothing.  Closing changes nothing else. -/
theorem C24_closed_empty {s s' : State} {op : Op} (hr : Reachable s) (h : step s op = .ok s') (h0 : s.closed = false)
    (h1 : s'.closed = true) :
    s.book.resting = [] ∧ s.g.heap.events = [] ∧ s.g.market.baseDepositTotal = 0 ∧ s.g.market.quoteDepositTotal = 0 ∧
    s.g.market.feesAvailable = 0 ∧ s.g.market.referrerRebatesAccrued = 0 ∧ (∀ x ∈ s.g.accts, HoldsNothing x.2) ∧
    (∃ now, clock op = some now ∧ s.g.market.isExpired now = true) ∧ s' = { s with closed := true } := by
  have hi := reachable_Inv hr
  rcases step_closed hi h with e | ⟨admin, now, rfl, P⟩
  · rw [h0, h1] at e; cases e
  have hb := resting_nil hi.core.bookOk P.bids P.asks
  have he := events_nil hi.core.linv P.heap
  have hm := P.empty
  unfold Market.isEmpty at hm
  simp only [decide_eq_true_eq] at hm
  exact ⟨hb, he, by omega, by omega, by omega, by omega, accts_hold_nothing hi hb he P.empty, ⟨now, rfl, P.expired⟩, P.res⟩

/-- Only a closed market of this kind is left when the market accounts are gone: a closed market stays closed, without orders and
events. -/
theorem C24_stays_closed {s s' : State} {op : Op} (hr : Reachable s) (h : step s op = .ok s') (h0 : s.closed = true) :
    s'.closed = true ∧ s'.book.resting = [] ∧ s'.g.heap.events = [] := by
  have h1 : s'.closed = true := by
    rcases step_closed (reachable_Inv hr) h with e | ⟨admin, now, rfl, P⟩
    · rw [e]; exact h0
    · rw [P.res]
  exact ⟨h1, (reachable_Extra (.step _ _ _ hr h)).closed h1⟩

/-- When an open orders account disappears, its owner has signed; the account holds nothing; no order of the account rests, no queued
event is to be delivered to it; nothing else changes. -/
theorem C25_account_closed {s s' : State} {op : Op} (hr : Reachable s) (h : step s op = .ok s') {k : Pubkey} {a : OOA}
    (ha : s.g.accts.get? k = some a) (hg : s'.g.accts.get? k = none) :
    a.owner ∈ signers op ∧ HoldsNothing a ∧ a.position.penaltyHeapCount = 0 ∧
    (∀ x ∈ s.book.resting, x.2.2.owner ≠ k) ∧ (∀ e ∈ s.g.heap.events, eventAccount e ≠ k) ∧
    s'.book = s.book ∧ s'.g.heap = s.g.heap ∧ s'.g.market = s.g.market ∧ s'.tokens = s.tokens ∧
    (∀ j, j ≠ k → s'.g.accts.get? j = s.g.accts.get? j) := by
  have hi := reachable_Inv hr
  rcases (step_accts hi h).old k a ha with ⟨a', h1, _⟩ | ⟨_, rfl, he⟩
  · rw [hg] at h1; cases h1
  obtain ⟨O, q, hl⟩ := hi.core.linv
  have hn := hl.ginv.noObl ha he.bids he.asks
  refine ⟨List.mem_singleton_self _, ⟨he.base, he.quote, ⟨he.bids, he.bidsQ⟩, he.asks, he.fees, he.refs, slots_free (hl.ginv.acct k a ha) hn⟩,
    he.pen, ?_, ?_, ?_⟩
  · intro x hx ho
    obtain ⟨oo, h1⟩ := hl.mem_rest hx
    exact hn _ h1 ho
  · intro e hx ho
    obtain ⟨o, h1, h2⟩ := hl.mem_ev hx
    refine hn o h1 ?_
    cases o <;> cases h2 <;> exact ho
  · obtain ⟨a1, k1, k2, k3, res⟩ := closeOO_inv h
    rw [res]
    exact ⟨rfl, rfl, rfl, rfl, fun j hj => by simp only [Accts.get?_del hl.ginv.nodup, if_neg hj]⟩

/-! Closing: all orders cancelled and events consumed, everything settled and swept, expired; then the market is closed, and an
account with past trades is closed. -/
namespace CloseCase
open Scenario

def settleOf (i : Nat) : Op :=
  .settleFunds { signer := 31 + i, penaltyPayer := 31 + i, ooKey := 41 + i, userBase := 51 + i, userQuote := 61 + i, referrer := none }

def unwind : List Op := ops1 ++ [.cancelAll 31 41 none 10, .cancelAll 32 42 none 10, .cancelAll 33 43 none 10,
  .consumeEvents 0 8 [41, 42], settleOf 0, settleOf 1, settleOf 2, .sweepFees 1 61, .setMarketExpired 2 1000]

example : ∃ (s s' : State), Reachable s ∧ step s (.closeMarket 2 1000) = .ok s' ∧
    decide (s.closed = false ∧ s'.closed = true ∧ s.g.accts.length = 3) = true :=
  step_spec (a := args) (ops := unwind)
    (p := fun s s' => decide (s.closed = false ∧ s'.closed = true ∧ s.g.accts.length = 3)) (by decide +kernel)

example : ∃ (s s' : State), Reachable s ∧ step s (.closeOO 42 32) = .ok s' ∧
    decide ((s.g.accts.get? 42).isSome ∧ s'.g.accts.get? 42 = none ∧ s'.g.accts.length = 2) = true :=
  step_spec (a := args) (ops := unwind)
    (p := fun s s' => decide ((s.g.accts.get? 42).isSome ∧ s'.g.accts.get? 42 = none ∧ s'.g.accts.length = 2)) (by decide +kernel)

end CloseCase

end OB
