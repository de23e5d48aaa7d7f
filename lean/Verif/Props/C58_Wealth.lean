import Verif.Proofs.WealthIx
import Verif.Props.C26_Settle
import Verif.Props.C27_SelfTrade
import Verif.Props.Scenario
/-!
C58  What is due to an account changes only by its trades, deposits and settlements.

`dueBase`, `dueQuote` (Spec/Exit) count everything that an account will be able to withdraw: its free balance, what its resting orders
have locked, and what events not yet delivered will credit.  (C46 proves that the owner can always take it out.)
-/
namespace OB
open Spec

/-- An instruction that places orders makes calls `cs` of the matching engine (`Placement`, `Serves`).  Whatever account `k` is looked
at, including those of makers whose events are only queued and that of the trader: what is due to it changes by the base and quote of the
fills in which it is maker, at the price of the fill, with the maker fee or rebate; and for the trader by the fills in which it is taker,
minus the taker fee, plus the tokens that arrived in the vaults.  Nothing else: placing, replacing, posting, reserving, evicting and
cancelling are free.  The exception is `loss`: of a filled bid at most one native unit per fill, and the maker fee it had reserved if it
traded with itself (C17, C27). -/
theorem C58_trades {s s' : State} {op : Op} {p : Placer} (hr : Reachable s) (h : step s op = .ok s') (hp : placer op = some p) :
    ∃ s1 cs g1, Placement s s1 s' p cs g1 ∧ Serves op p.now cs ∧
      (∀ x ∈ cs, IsCeilFee (othersQuote x.2.fills * s.g.market.quoteLotSize) s.g.market.takerFee x.2.takerFees) ∧
      ∀ k a, s.g.accts.get? k = some a →
        ∃ a' loss, s'.g.accts.get? k = some a' ∧ 0 ≤ loss ∧ loss ≤ sumMaker (tradesOf cs) k (makerSlack s.g.market) ∧
          dueBase s' k a' = dueBase s k a + sumMaker (tradesOf cs) k (makerBase s.g.market) +
            (if k = p.owner ∧ p.hasOO = true then sumFills (tradesOf cs) (takerBase s.g.market) +
              (tokens s' s.g.market.marketBaseVault - tokens s s.g.market.marketBaseVault) else 0) ∧
          dueQuote s' k a' = dueQuote s k a + sumMaker (tradesOf cs) k (makerQuote s.g.market) - loss +
            (if k = p.owner ∧ p.hasOO = true then sumFills (tradesOf cs) (takerQuote s.g.market) - takerFeesOf cs +
              (tokens s' s.g.market.marketQuoteVault - tokens s s.g.market.marketQuoteVault) else 0) := by
  obtain ⟨s1, cs, g1, P, hs⟩ := placement_serves hr h hp
  have hm := (step_cfg (reachable_Inv hr) h).1
  refine ⟨s1, cs, g1, P, hs, fun x hx => ?_, P.due hr hm.lots⟩
  obtain ⟨_, _, _, gx, _, _, _, hpre, hc, _⟩ := calls_split P.calls x hx
  have := (C27_no_fee_on_self_trades_partial hc).1
  rw [hpre.lots.quote, hpre.taker, P.market1 hr] at this
  exact this

/-- Somebody who neither places the orders nor made the orders that trade. -/
theorem C58_bystanders {s s' : State} {op : Op} {p : Placer} (hr : Reachable s) (h : step s op = .ok s') (hp : placer op = some p) :
    ∃ s1 cs g1, Placement s s1 s' p cs g1 ∧ ∀ k, p.hasOO = false ∨ k ≠ p.owner → (∀ f ∈ tradesOf cs, f.maker ≠ k) →
      ∀ a, s.g.accts.get? k = some a → ∃ a', s'.g.accts.get? k = some a' ∧ dueBase s' k a' = dueBase s k a ∧ dueQuote s' k a' = dueQuote s k a := by
  obtain ⟨s1, cs, g1, P, _, _, hd⟩ := C58_trades hr h hp
  refine ⟨s1, cs, g1, P, fun k hk hf a ha => ?_⟩
  obtain ⟨a', loss, h1, h2, h3, h4, h5⟩ := hd k a ha
  have hz : ∀ v, sumMaker (tradesOf cs) k v = 0 := fun v => by
    unfold sumMaker
    rw [List.filter_eq_nil_iff.mpr (fun f hm hc => hf f hm (of_decide_eq_true hc))]
    rfl
  have hn : ¬ (k = p.owner ∧ p.hasOO = true) := by
    rintro ⟨e1, e2⟩
    rcases hk with hk | hk
    · rw [hk] at e2; cases e2
    · exact hk e1
  rw [hz] at h3 h4 h5
  rw [if_neg hn] at h4 h5
  exact ⟨a', h1, by omega, by omega⟩

/-- No instruction that neither places orders nor moves funds of the account changes what is due to it: not delivering events, not
cancelling or pruning orders, not deposits and settlements of others, not collecting fees, not the expiry or closing of the market. -/
theorem C58_kept {s s' : State} {op : Op} (hr : Reachable s) (h : step s op = .ok s') (hp : placer op = none) {k : Pubkey}
    (hk : fundsAccount op ≠ some k) : DueKept s s' k := by
  have hi := reachable_Inv hr
  have hi' : Inv s' := reachable_Inv (.step _ _ _ hr h)
  have hst := h
  cases step_run h with
  | idle _ c hop _ _ => cases op <;> simp [Op.placeCtx] at hop <;> simp [placer] at hp
  | place _ c o limit r hop P => cases hop <;> cases hp
  | edit _ c client e o limit r hop P => cases hop <;> cases hp
  | multi => cases hp
  | take => cases hp
  | consume _ admin limit slots rem hop h =>
    rcases hop with ⟨rfl, rfl⟩ | ⟨rfl, rfl⟩
    · exact (consumeEvents_front hi h).2.due_part hi' (consume_perm hi h) k
    · simp only [step, consumeGivenEvents, bind_ok, req_ok] at hst
      obtain ⟨_, hlt, hst⟩ := hst
      obtain ⟨_, _, _, _, _, _, _, h7, h8⟩ := consumeEvents_given hi (by simpa using hlt) hst
      exact h8.due_part hi' h7 k
  | cancelOne signer j id h =>
    obtain ⟨x, _, hc, _⟩ := cancelOrderIx_full hi h
    exact hc.due hi' k
  | cancel _ signer j limit so co a q hop auth h =>
    obtain ⟨ls, hc, _⟩ := cancelAllFor_full hi (reachable_Extra hr) h
    exact hc.due hi' k
  | prune admin j now limit q auth exp h1 =>
    obtain ⟨ls, hc, _⟩ := cancelAllFor_full hi (reachable_Extra hr) h1
    exact hc.due hi' k
  | deposit _ signer j ub uq now b q b0 q0 hop P =>
    refine (P.due hi).2.2.2 k (fun e => hk ?_)
    rcases hop with rfl | rfl <;> rw [e] <;> rfl
  | settle c h P => exact (P.spec hr).due (fun e => hk (by rw [e]; rfl))
  | settleExpired admin c now h P => exact (P.spec hr).due (fun e => hk (by rw [e]; rfl))
  | sweep admin receiver h =>
    obtain ⟨_, _, _, t, _, rfl⟩ := sweepFees_inv h
    exact due_same rfl (List.Perm.refl _) rfl rfl rfl rfl
  | setExpired admin now auth live res => rw [res]; exact due_same rfl (List.Perm.refl _) rfl rfl rfl rfl
  | close admin now P => rw [P.res]; exact due_same rfl (List.Perm.refl _) rfl rfl rfl rfl
  | createOO j owner d isOpen own new res =>
    rw [res]
    intro a ha
    refine ⟨a, ?_, rfl, rfl, rfl⟩
    show Accts.get? (s.g.accts ++ _) k = some a
    rw [Accts.get?_append, ha]; rfl
  | closeOO j owner a acct own empty res =>
    obtain ⟨O, q, hw⟩ := hi.core.linv
    have hj : k ≠ j := fun e => hk (by rw [e]; rfl)
    rw [res]
    exact due_same (by simp only; rw [Accts.get?_del hw.ginv.nodup, if_neg hj]) (List.Perm.refl _) rfl rfl rfl rfl
  | delegate j owner d a acct own res =>
    rw [res]
    by_cases hj : k = j
    · subst hj
      exact (due_free (b := 0) (q := 0) (s' := { s with g := { s.g with accts := s.g.accts.set k { a with delegate := d } } }) acct
        (Accts.get?_set_self _ acct) rfl rfl (by simp) (by simp) rfl rfl ⟨rfl, rfl, rfl⟩).kept
    · exact due_same (by simp only; rw [Accts.get?_set_ne _ hj]) (List.Perm.refl _) rfl rfl rfl rfl
  | token j t le vault res => rw [res]; exact due_same rfl (List.Perm.refl _) rfl rfl rfl rfl
  | lamports j x le mkt res => rw [res]; exact due_same rfl (List.Perm.refl _) rfl rfl rfl rfl

/-- A deposit adds to what is due to the account exactly the tokens that arrived in the vaults. -/
theorem C58_deposit {s s' : State} {op : Op} {signer k ub uq : Pubkey} {now b q : Int} (hr : Reachable s) (h : step s op = .ok s')
    (hop : op = .deposit signer k ub uq now b q ∨ op = .refill signer k ub uq now b q) :
    DueMoves s s' k (tokens s' s.g.market.marketBaseVault - tokens s s.g.market.marketBaseVault)
      (tokens s' s.g.market.marketQuoteVault - tokens s s.g.market.marketQuoteVault) := by
  have hi := reachable_Inv hr
  have main : ∀ {b' q'}, DepositRun s signer k ub uq now b' q' s' →
      DueMoves s s' k (tokens s' s.g.market.marketBaseVault - tokens s s.g.market.marketBaseVault)
        (tokens s' s.g.market.marketQuoteVault - tokens s s.g.market.marketQuoteVault) := by
    intro b' q' P
    obtain ⟨h1, h2, h3, _⟩ := P.due hi
    rw [← h2, ← h3]; exact h1
  cases step_run h with
  | deposit _ signer' k' ub' uq' now' b1 q1 b0 q0 hop' P =>
    rcases hop with rfl | rfl <;> rcases hop' with e | e <;> cases e <;> exact main P
  | idle _ c hop' _ _ => rcases hop with rfl | rfl <;> cases hop'
  | place _ c o limit r hop' P => rcases hop with rfl | rfl <;> cases hop'
  | edit _ c client e o limit r hop' P => rcases hop with rfl | rfl <;> cases hop'
  | consume _ admin limit slots rem hop' h => rcases hop with rfl | rfl <;> rcases hop' with ⟨e, _⟩ | ⟨e, _⟩ <;> cases e
  | cancel _ signer j limit so co a q hop' auth h => rcases hop with rfl | rfl <;> rcases hop' with ⟨e, _⟩ | ⟨e, _⟩ <;> cases e
  | _ => rcases hop with e | e <;> cases e

/-- A settlement takes from what is due to the account exactly its free balances, which are paid to the given token accounts
(`Settles`). -/
theorem C58_settle {s s' : State} {op : Op} {admin : Pubkey} {c : SettleCtx} {now : Int} (hr : Reachable s) (h : step s op = .ok s')
    (hop : op = .settleFunds c ∨ op = .settleFundsExpired admin c now) :
    ∃ a, Settles s s' c a ∧ DueMoves s s' c.ooKey (-a.position.baseFreeNative) (-a.position.quoteFreeNative) := by
  have main : SettleRun s c s' →
      ∃ a, Settles s s' c a ∧ DueMoves s s' c.ooKey (-a.position.baseFreeNative) (-a.position.quoteFreeNative) := by
    intro P
    have hS := P.spec hr
    refine ⟨P.a, hS, due_free hS.before hS.after rfl rfl ?_ ?_ hS.book hS.heap (by rw [hS.market]; exact ⟨rfl, rfl, rfl⟩)⟩
    · show (0 : Int) = _; omega
    · show (0 : Int) = _; omega
  rcases hop with rfl | rfl
  · cases step_run h with
    | settle _ _ P => exact main P
    | idle _ c hop' _ _ => cases hop'
    | place _ c o limit r hop' P => cases hop'
    | edit _ c client e o limit r hop' P => cases hop'
    | consume _ admin limit slots rem hop' h => rcases hop' with ⟨e, _⟩ | ⟨e, _⟩ <;> cases e
    | cancel _ signer j limit so co a q hop' auth h => rcases hop' with ⟨e, _⟩ | ⟨e, _⟩ <;> cases e
    | deposit _ signer' k' ub' uq' now' b1 q1 b0 q0 hop' P => rcases hop' with e | e <;> cases e
  · cases step_run h with
    | settleExpired _ _ _ _ P => exact main P
    | idle _ c hop' _ _ => cases hop'
    | place _ c o limit r hop' P => cases hop'
    | edit _ c client e o limit r hop' P => cases hop'
    | consume _ admin limit slots rem hop' h => rcases hop' with ⟨e, _⟩ | ⟨e, _⟩ <;> cases e
    | cancel _ signer j limit so co a q hop' auth h => rcases hop' with ⟨e, _⟩ | ⟨e, _⟩ <;> cases e
    | deposit _ signer' k' ub' uq' now' b1 q1 b0 q0 hop' P => rcases hop' with e | e <;> cases e

/-- Nothing is due to an account that is closed. -/
theorem C58_close {s s' : State} {k owner : Pubkey} (hr : Reachable s) (h : step s (.closeOO k owner) = .ok s') :
    ∃ a, s.g.accts.get? k = some a ∧ ordersOf s k = [] ∧ eventsOf s k = [] ∧ dueBase s k a = 0 ∧ dueQuote s k a = 0 := by
  obtain ⟨a, ha, _, he, _⟩ := closeOO_inv h
  exact ⟨a, ha, he.due (reachable_Inv hr) ha⟩

/-! The hypotheses are met. -/

namespace WealthCase
open Scenario

/-- Base and quote due to every account. -/
def dues (s : State) : List (Pubkey × Int × Int) := s.g.accts.map (fun x => (x.1, dueBase s x.1 x.2, dueQuote s x.1 x.2))

end WealthCase

/-- Trader 33 buys 2 lots at 1007 from account 42 and 2 lots at 1010 from account 41.  Both makers have sold 200 base, for 20140 and
20200 quote minus fees of 4 each; the events that credit them are still queued.  The taker has bought 400 base; the 40340 quote and the
taker fee of 17 came from the wallet. -/
example : ∃ s s' : State, Reachable s ∧ step s (Scenario.place 2 .bid 1010 4 6) = .ok s' ∧
    WealthCase.dues s = [(41, 5000, 500000), (42, 500, 0), (43, 0, 0)] ∧
    WealthCase.dues s' = [(41, 4800, 500000 + 20200 - 4), (42, 300, 20140 - 4), (43, 400, 0)] ∧
    tokens s' s.g.market.marketQuoteVault - tokens s s.g.market.marketQuoteVault = 40340 + 17 ∧ s'.g.heap.events.length = 2 := by
  obtain ⟨s, s', h1, h2, h3⟩ := Scenario.step_spec (a := Scenario.args) (ops := Scenario.ops0) (op := Scenario.place 2 .bid 1010 4 6)
    (p := fun s s' => decide (WealthCase.dues s = [(41, 5000, 500000), (42, 500, 0), (43, 0, 0)] ∧
    WealthCase.dues s' = [(41, 4800, 500000 + 20200 - 4), (42, 300, 20140 - 4), (43, 400, 0)] ∧
    tokens s' s.g.market.marketQuoteVault - tokens s s.g.market.marketQuoteVault = 40340 + 17 ∧ s'.g.heap.events.length = 2))
    (by decide +kernel)
  exact ⟨s, s', h1, h2, of_decide_eq_true h3⟩

/-- Account 41 cancels its three orders: nothing changes in what is due to it. -/
example : ∃ s s' : State, Reachable s ∧ step s (.cancelAll 31 41 none 24) = .ok s' ∧ WealthCase.dues s' = WealthCase.dues s ∧
    s'.book.resting.length + 3 = s.book.resting.length ∧ freeQuote s 41 < freeQuote s' 41 := by
  obtain ⟨s, s', h1, h2, h3⟩ := Scenario.step_spec (a := Scenario.args) (ops := Scenario.ops1) (op := .cancelAll 31 41 none 24)
    (p := fun s s' => decide (WealthCase.dues s' = WealthCase.dues s ∧
    s'.book.resting.length + 3 = s.book.resting.length ∧ freeQuote s 41 < freeQuote s' 41)) (by decide +kernel)
  exact ⟨s, s', h1, h2, of_decide_eq_true h3⟩

/-- The next deposit, and a settlement. -/
example : ∃ s s' : State, Reachable s ∧ step s (.deposit 31 41 51 61 1000 7 9) = .ok s' ∧
    WealthCase.dues s' = [(41, 4807, 520205), (42, 300, 20136), (43, 400, 0)] := by
  obtain ⟨s, s', h1, h2, h3⟩ := Scenario.step_spec (a := Scenario.args) (ops := Scenario.ops1) (op := .deposit 31 41 51 61 1000 7 9)
    (p := fun _ s' => decide (WealthCase.dues s' = [(41, 4807, 520205), (42, 300, 20136), (43, 400, 0)])) (by decide +kernel)
  exact ⟨s, s', h1, h2, of_decide_eq_true h3⟩

example : ∃ s s' : State, Reachable s ∧ step s (.settleFunds (settleTo 33 33 43 53 63)) = .ok s' ∧
    WealthCase.dues s = [(41, 4800, 520196), (42, 300, 20136), (43, 400, 0)] ∧
    WealthCase.dues s' = [(41, 4800, 520196), (42, 300, 20136), (43, 0, 0)] ∧ tokens s' 53 = tokens s 53 + 400 := by
  obtain ⟨s, s', h1, h2, h3⟩ := Scenario.step_spec (a := Scenario.args) (ops := Scenario.ops1)
    (op := .settleFunds (settleTo 33 33 43 53 63))
    (p := fun s s' => decide (WealthCase.dues s = [(41, 4800, 520196), (42, 300, 20136), (43, 400, 0)] ∧
    WealthCase.dues s' = [(41, 4800, 520196), (42, 300, 20136), (43, 0, 0)] ∧ tokens s' 53 = tokens s 53 + 400)) (by decide +kernel)
  exact ⟨s, s', h1, h2, of_decide_eq_true h3⟩

end OB
