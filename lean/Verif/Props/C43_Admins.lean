import Verif.Proofs.Chain
import Verif.Proofs.MarketStep
import Verif.Props.Scenario
/-!
C43 — Administrative powers are limited to the named admins.
The statements are about effects: what can be different after an instruction that the admin did not sign.  0 means that no admin is
set; a market without a close market admin can never be expired by hand or closed.
-/
namespace OB
open Spec

theorem ifGiven_mem {k : Pubkey} (h : k ≠ 0) : k ∈ ifGiven k := by unfold ifGiven; rw [if_neg h]; exact List.mem_singleton_self _

/-- The expiry of a market is only changed, and a market is only closed, with the signature of its close market admin. -/
theorem C43_expire_close {s s' : State} {op : Op} (hr : Reachable s) (h : step s op = .ok s')
    (hx : s'.g.market.timeExpiry ≠ s.g.market.timeExpiry ∨ s'.closed ≠ s.closed) :
    s.g.market.closeMarketAdmin ≠ 0 ∧ s.g.market.closeMarketAdmin ∈ signers op := by
  have hi := reachable_Inv hr
  rcases hx with hx | hx
  · rcases (step_cfg hi h).2 with e | ⟨admin, now, rfl, _⟩
    · exact absurd e hx
    · obtain ⟨h1, _, _⟩ := setMarketExpired_inv h
      obtain ⟨_, h2, h3⟩ := authClose_ok h1
      exact ⟨h2, by rw [h3]; exact List.mem_singleton_self _⟩
  · rcases step_closed hi h with e | ⟨admin, now, rfl, P⟩
    · exact absurd e hx
    · obtain ⟨_, h2, h3⟩ := authClose_ok P.auth
      exact ⟨h2, by rw [h3]; exact List.mem_singleton_self _⟩

/-- The instructions for expired markets, pruning and settling for others, need the signature of the close market admin and an
expired market. -/
theorem C43_prune_settle {s s' : State} {op : Op} {now : Int} (h : step s op = .ok s')
    (hop : (∃ admin k limit, op = .pruneOrders admin k now limit) ∨ ∃ admin c, op = .settleFundsExpired admin c now) :
    s.g.market.closeMarketAdmin ≠ 0 ∧ s.g.market.closeMarketAdmin ∈ signers op ∧ s.g.market.isExpired now = true := by
  rcases hop with ⟨admin, k, limit, rfl⟩ | ⟨admin, c, rfl⟩
  · obtain ⟨h1, h2, _⟩ := pruneOrders_inv h
    obtain ⟨_, h3, h4⟩ := authClose_ok h1
    exact ⟨h3, by rw [h4]; exact List.mem_singleton_self _, h2⟩
  · obtain ⟨_, _, h3, h4, h5, _⟩ := settleFundsExpired_inv h
    exact ⟨h3, by rw [h4]; exact List.mem_cons_self, h5⟩

/-- The collected fees only decrease with the signature of the fee admin. -/
theorem C43_fees {s s' : State} {op : Op} (hr : Reachable s) (h : step s op = .ok s')
    (hx : s'.g.market.feesAvailable < s.g.market.feesAvailable) : s.g.market.collectFeeAdmin ∈ signers op := by
  have hi := reachable_Inv hr
  cases step_mkt hi h with
  | trade avail => omega
  | settled c a hop acct res =>
    exfalso
    obtain ⟨_, _, k3, k4, _⟩ := hi.core.linv.acctOk acct
    have : 0 ≤ sweepOf s.g.market a.position := by
      unfold sweepOf; split
      · exact k3.1
      · exact Int.le_refl _
    rw [res] at hx
    simp only [Market.settled] at hx
    have := k4.1
    split at hx <;> omega
  | swept receiver hop res => rw [hop]; exact List.mem_singleton_self _

/-- If the market has an open orders admin, then without its signature nothing is placed: every resting order was resting before,
no event is new. -/
theorem C43_placing {s s' : State} {op : Op} (hr : Reachable s) (h : step s op = .ok s') (ha : s.g.market.openOrdersAdmin ≠ 0)
    (hn : s.g.market.openOrdersAdmin ∉ signers op) :
    s'.book.resting ⊆ s.book.resting ∧ s'.g.heap.events.Sublist s.g.heap.events := by
  have hi := reachable_Inv hr
  cases hp : placer op with
  | none =>
    have hn := step_other hr h hp
    refine ⟨?_, hn.events⟩
    rcases hn.book with e | ⟨k, ls, hc, _⟩
    · rw [e]; exact fun _ hx => hx
    · exact fun x hx => hc.book.symm.subset (List.mem_append_right _ hx)
  | some p =>
    exfalso
    obtain ⟨s1, cs, g1, P⟩ := placement_full hr h hp
    have e := P.admin
    apply hn
    rw [e] at ha ⊢
    cases op <;> simp only [placer] at hp <;> cases hp <;> simp only [signers] <;>
      first
      | exact List.mem_cons_of_mem _ (ifGiven_mem ha)
      | exact List.mem_cons_of_mem _ (List.mem_cons_of_mem _ (ifGiven_mem ha))

theorem calls_events {book book' : Book} {g g' : Ledger} {cs : List (Env × OrderResult)} (h : Calls book g cs book' g') :
    g.heap.events <+: g'.heap.events := by
  induction h with
  | nil => exact List.prefix_refl _
  | cons env r cs book book1 book' g g1 g' h hs ih =>
    obtain ⟨C⟩ := callRun h
    obtain ⟨E, e, _⟩ := C.events
    have h1 : g.heap.events <+: g1.heap.events := ⟨E, e.symm⟩
    exact h1.trans ih

/-- If the market has a consume events admin, then without its signature no event leaves the queue. -/
theorem C43_consuming {s s' : State} {op : Op} (hr : Reachable s) (h : step s op = .ok s') (ha : s.g.market.consumeEventsAdmin ≠ 0)
    (hn : s.g.market.consumeEventsAdmin ∉ signers op) : s.g.heap.events <+: s'.g.heap.events := by
  have hi := reachable_Inv hr
  cases hp : placer op with
  | none =>
    cases hc : consuming op with
    | false => rw [(step_other hr h hp).heap hc]; exact List.prefix_refl _
    | true =>
      exfalso
      cases op <;> try cases hc
      · rw [(consumeEvents_inv h).2.1] at hn ha
        exact hn (ifGiven_mem ha)
      · simp only [step, consumeGivenEvents, bind_ok, req_ok] at h
        obtain ⟨_, _, h⟩ := h
        rw [(consumeEvents_inv h).2.1] at hn ha
        exact hn (ifGiven_mem ha)
  | some p =>
    obtain ⟨s1, cs, g1, P⟩ := placement_full hr h hp
    have he := calls_events P.calls
    rw [P.heap]
    rcases P.first hr with e | ⟨_, _, _, ls, hc⟩
    · rw [e] at he; exact he
    · rw [hc.heap] at he; exact he

/-- No instruction changes who the admins are. -/
theorem C43_admins_fixed {s s' : State} {op : Op} (hr : Reachable s) (h : step s op = .ok s') :
    s'.g.market.closeMarketAdmin = s.g.market.closeMarketAdmin ∧ s'.g.market.collectFeeAdmin = s.g.market.collectFeeAdmin ∧
    s'.g.market.openOrdersAdmin = s.g.market.openOrdersAdmin ∧ s'.g.market.consumeEventsAdmin = s.g.market.consumeEventsAdmin := by
  have hc := (step_cfg (reachable_Inv hr) h).1
  exact ⟨hc.close, hc.collect, hc.ooAdmin, hc.consume⟩

/-! A market with all admins: orders of two traders countersigned by admin 5, events consumed by admin 6, expired by admin 2. -/
namespace AdminCase
open Scenario

def adminArgs : CreateArgs := { args with openOrdersAdmin := 5, consumeEventsAdmin := 6 }

def placed (i : Nat) (side : Side) (price qty : Int) : Op :=
  .placeOrder { ctx i side [] with admin := 5 } (limitOrder side price qty 1)

def ops : List Op := [.createOO 41 31 0, .createOO 42 32 0, placed 0 .ask 1010 5, placed 1 .bid 1010 3]

example : ∃ (s s' : State), Reachable s ∧ step s (placed 0 .ask 1015 2) = .ok s' ∧
    decide (s.g.market.openOrdersAdmin = 5 ∧ s.book.resting.length = 1 ∧ s'.book.resting.length = 2) = true :=
  step_spec (a := adminArgs) (ops := ops)
    (p := fun s s' => decide (s.g.market.openOrdersAdmin = 5 ∧ s.book.resting.length = 1 ∧ s'.book.resting.length = 2)) (by decide +kernel)

example : ∃ (s s' : State), Reachable s ∧ step s (.consumeEvents 6 8 [41, 42]) = .ok s' ∧
    decide (s.g.market.consumeEventsAdmin = 6 ∧ s.g.heap.events.length = 1 ∧ s'.g.heap.events.length = 0) = true :=
  step_spec (a := adminArgs) (ops := ops)
    (p := fun s s' => decide (s.g.market.consumeEventsAdmin = 6 ∧ s.g.heap.events.length = 1 ∧ s'.g.heap.events.length = 0))
    (by decide +kernel)

/-- Without the admins' signatures other instructions succeed. -/
example : ∃ (s s' : State), Reachable s ∧ step s (.cancelAll 31 41 none 5) = .ok s' ∧
    decide (s.g.market.consumeEventsAdmin = 6 ∧ s.g.market.openOrdersAdmin = 5 ∧ s.book.resting.length = 1 ∧ s'.book.resting.length = 0 ∧
      s'.g.heap.events.length = 1) = true :=
  step_spec (a := adminArgs) (ops := ops)
    (p := fun s s' => decide (s.g.market.consumeEventsAdmin = 6 ∧ s.g.market.openOrdersAdmin = 5 ∧ s.book.resting.length = 1 ∧
      s'.book.resting.length = 0 ∧ s'.g.heap.events.length = 1)) (by decide +kernel)

example : ∃ (s s' : State), Reachable s ∧ step s (.setMarketExpired 2 1000) = .ok s' ∧
    decide (s.g.market.timeExpiry = 0 ∧ s'.g.market.timeExpiry = -1) = true :=
  step_spec (a := adminArgs) (ops := ops)
    (p := fun s s' => decide (s.g.market.timeExpiry = 0 ∧ s'.g.market.timeExpiry = -1)) (by decide +kernel)

/-- After the taker's account is settled, there are fees, which admin 1 sweeps. -/
example : ∃ (s s' : State), Reachable s ∧ step s (.sweepFees 1 61) = .ok s' ∧
    decide (s.g.market.feesAvailable > 0 ∧ s'.g.market.feesAvailable = 0) = true :=
  step_spec (a := adminArgs)
    (ops := ops ++ [.settleFunds { signer := 32, penaltyPayer := 32, ooKey := 42, userBase := 52, userQuote := 62, referrer := none }])
    (p := fun s s' => decide (s.g.market.feesAvailable > 0 ∧ s'.g.market.feesAvailable = 0)) (by decide +kernel)

/-- Pruning by admin 2 after the market has expired. -/
example : ∃ (s s' : State), Reachable s ∧ step s (.pruneOrders 2 41 1000 5) = .ok s' ∧
    decide (s.g.market.isExpired 1000 = true ∧ s.book.resting.length = 1 ∧ s'.book.resting.length = 0) = true :=
  step_spec (a := adminArgs) (ops := ops ++ [.setMarketExpired 2 1000])
    (p := fun s s' => decide (s.g.market.isExpired 1000 = true ∧ s.book.resting.length = 1 ∧ s'.book.resting.length = 0)) (by decide +kernel)

end AdminCase

end OB
