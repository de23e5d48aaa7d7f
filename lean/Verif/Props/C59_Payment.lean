import Verif.Proofs.WealthIx
import Verif.Spec.Pay
import Verif.Props.Scenario
/-!
C59  Orders are paid from the free balance first, and exactly what is missing comes from the wallet.
-/
namespace OB
open Spec

theorem from_bid {s s' : State} {w signer : Pubkey} {dep : Int} (hi : Inv s) (hs : signer ≠ s.g.market.marketAuthority) (h0 : 0 ≤ dep)
    (h : tokenTransfer s.tokens dep w s.g.market.marketQuoteVault signer = .ok s'.tokens) : FromWallets s s' w w := by
  have tB := transfer_in (k := s.g.market.marketBaseVault) h h0 (by rw [hi.vb.owner]; exact hs)
  have tQ := transfer_in (k := s.g.market.marketQuoteVault) h h0 (by rw [hi.vq.owner]; exact hs)
  rw [if_neg hi.vaults] at tB
  rw [if_pos rfl] at tQ
  have e1 : paidBase s s' = 0 := by unfold paidBase tokens; omega
  have e2 : paidQuote s s' = dep := by unfold paidQuote tokens; omega
  refine ⟨by omega, by omega, fun t => ?_⟩
  have := (tokenTransfer_spec h h0 t).2.2
  rw [e1, e2]
  unfold moved tokens
  simp only [ite_self]
  omega

theorem from_ask {s s' : State} {w signer : Pubkey} {dep : Int} (hi : Inv s) (hs : signer ≠ s.g.market.marketAuthority) (h0 : 0 ≤ dep)
    (h : tokenTransfer s.tokens dep w s.g.market.marketBaseVault signer = .ok s'.tokens) : FromWallets s s' w w := by
  have tB := transfer_in (k := s.g.market.marketBaseVault) h h0 (by rw [hi.vb.owner]; exact hs)
  have tQ := transfer_in (k := s.g.market.marketQuoteVault) h h0 (by rw [hi.vq.owner]; exact hs)
  rw [if_neg (Ne.symm hi.vaults)] at tQ
  rw [if_pos rfl] at tB
  have e1 : paidBase s s' = dep := by unfold paidBase tokens; omega
  have e2 : paidQuote s s' = 0 := by unfold paidQuote tokens; omega
  refine ⟨by omega, by omega, fun t => ?_⟩
  have := (tokenTransfer_spec h h0 t).2.2
  rw [e1, e2]
  unfold moved tokens
  simp only [ite_self]
  omega

theorem from_both {s s' : State} {wb wq signer : Pubkey} {depB depQ : Int} {t1 : Tokens} (hi : Inv s)
    (hs : signer ≠ s.g.market.marketAuthority) (hb : 0 ≤ depB) (hq : 0 ≤ depQ)
    (h1 : tokenTransfer s.tokens depQ wq s.g.market.marketQuoteVault signer = .ok t1)
    (h2 : tokenTransfer t1 depB wb s.g.market.marketBaseVault signer = .ok s'.tokens) : FromWallets s s' wb wq := by
  have tB := transfer_in (k := s.g.market.marketBaseVault) h1 hq (by rw [hi.vb.owner]; exact hs)
  have tQ := transfer_in (k := s.g.market.marketQuoteVault) h1 hq (by rw [hi.vq.owner]; exact hs)
  have uB := transfer_in (k := s.g.market.marketBaseVault) h2 hb (by rw [tB.2, hi.vb.owner]; exact hs)
  have uQ := transfer_in (k := s.g.market.marketQuoteVault) h2 hb (by rw [tQ.2, hi.vq.owner]; exact hs)
  rw [if_neg hi.vaults] at tB
  rw [if_pos rfl] at tQ uB
  rw [if_neg (Ne.symm hi.vaults)] at uQ
  have e1 : paidBase s s' = depB := by unfold paidBase tokens; omega
  have e2 : paidQuote s s' = depQ := by unfold paidQuote tokens; omega
  refine ⟨by omega, by omega, fun t => ?_⟩
  have a1 := (tokenTransfer_spec h1 hq t).2.2
  have a2 := (tokenTransfer_spec h2 hb t).2.2
  rw [e1, e2]
  unfold moved tokens
  omega

theorem from_none {s s' : State} {wb wq : Pubkey} (h : s'.tokens = s.tokens) : FromWallets s s' wb wq := by
  have e1 : paidBase s s' = 0 := by unfold paidBase tokens; rw [h]; omega
  have e2 : paidQuote s s' = 0 := by unfold paidQuote tokens; rw [h]; omega
  refine ⟨by omega, by omega, fun t => ?_⟩
  rw [e1, e2]; unfold moved tokens; rw [h]; simp

theorem PlaceRun.wallet {s s' : State} {c : PlaceCtx} {o : Order} {limit : Nat} {r : OrderResult} (P : PlaceRun s c o limit r s')
    (hi : Inv s) (ho : OrderTyped o) : FromWallets s s' c.userToken c.userToken := by
  have fx := P.fx hi ho
  have et : s'.tokens = P.tokens := congrArg State.tokens P.res
  have tr := P.transfer
  rw [← et] at tr
  cases hs : o.side with
  | bid => rw [hs] at tr; exact from_bid hi P.signer fx.dep0 tr
  | ask => rw [hs] at tr; exact from_ask hi P.signer fx.dep0 tr

/-- The tokens that arrive in the vaults come out of the token accounts named in the instruction, one by one; no other token account
is touched, and none is touched more than that. -/
theorem C59_from_wallets {s s' : State} {op : Op} {wb wq : Pubkey} (hr : Reachable s) (h : step s op = .ok s')
    (hw : wallets op = some (wb, wq)) : FromWallets s s' wb wq := by
  have hi := reachable_Inv hr
  cases step_run h with
  | idle _ c hop auth same => subst same; exact from_none rfl
  | place _ c o limit r hop P =>
    have hx := P.wallet hi hop.typed
    cases hop <;> cases hw <;> exact hx
  | edit _ c client e o limit r hop P =>
    have hx : FromWallets s s' c.userToken c.userToken := by
      obtain ⟨q, s1, h1, _, h⟩ := P.run
      have hs := cancelByClient_step h1
      obtain ⟨_, _, ls, hc⟩ := step_cancelByClient hr hs
      rcases h with ⟨e1, _, r1, rfl, h4⟩ | ⟨_, _, rfl⟩
      · obtain ⟨P⟩ := placeOrder_inv h4
        have hx := P.wallet (reachable_Inv (.step _ _ _ hr hs)) (hop.typed.less e1)
        have ht : ∀ t, tokens s1 t = tokens s t := fun t => by unfold tokens; rw [hc.tokens]
        have b1 : paidBase s1 s' = paidBase s s' := by unfold paidBase; rw [hc.market, ht]
        have b2 : paidQuote s1 s' = paidQuote s s' := by unfold paidQuote; rw [hc.market, ht]
        refine ⟨by rw [← b1]; exact hx.base0, by rw [← b2]; exact hx.quote0, fun t => ?_⟩
        have := hx.tokens t
        rw [b1, b2, ht, hc.market] at this
        exact this
      · exact from_none hc.tokens
    cases hop <;> cases hw <;> exact hx
  | multi c cancel t bids asks limit now bs as rs hn hb has P =>
    cases hw
    obtain ⟨_, l1⟩ := lockAsk_inv P.lockB
    obtain ⟨_, l2⟩ := lockBid_inv P.lockQ
    obtain ⟨_, _, _, hsig, _⟩ := authPlace_ok P.auth
    have et : s'.tokens = P.t2 := congrArg State.tokens P.res
    have t2 := P.tr2
    rw [← et] at t2
    exact from_both hi hsig l1.dep0 l2.dep0 P.tr1 t2
  | consume _ _ _ _ _ h => rcases h with ⟨rfl, _⟩ | ⟨rfl, _⟩ <;> cases hw
  | cancel _ _ _ _ _ _ _ _ h => rcases h with ⟨rfl, _⟩ | ⟨rfl, _⟩ <;> cases hw
  | deposit _ _ _ _ _ _ _ _ _ _ h => rcases h with rfl | rfl <;> cases hw
  | _ => cases hw

/-- The wallet pays base (quote) only if afterwards no free base (quote) is left in the account of the trader: the free balance,
including what the order itself has just bought or released, is used first. -/
theorem C59_free_first {s s' : State} {op : Op} {p : Placer} (hr : Reachable s) (h : step s op = .ok s') (hp : placer op = some p)
    (ho : p.hasOO = true) :
    (0 < paidBase s s' → freeBase s' p.owner = 0) ∧ (0 < paidQuote s s' → freeQuote s' p.owner = 0) := by
  obtain ⟨s1, cs, g1, P⟩ := placement_full hr h hp
  obtain ⟨a, a', _, h2, _, _, h5, h6, h7, h8⟩ := P.pays.account ho
  unfold freeBase freeQuote paidBase paidQuote
  rw [h2]
  simp only [Option.map_some, Option.getD_some]
  constructor <;> intro <;> omega

/-! The hypotheses are met. -/

/-- Trader 31 buys for more than the quote that is free: the free balance is used up and the rest comes from token account 61. -/
example : ∃ s s' : State, Reachable s ∧ step s (Scenario.place 0 .bid 1000 50 9) = .ok s' ∧
    wallets (Scenario.place 0 .bid 1000 50 9) = some (61, 61) ∧ 0 < freeQuote s 41 ∧ 0 < paidQuote s s' ∧ freeQuote s' 41 = 0 ∧
    tokens s' 61 = tokens s 61 - paidQuote s s' := by
  obtain ⟨s, s', h1, h2, h3⟩ := Scenario.step_spec (a := Scenario.args) (ops := Scenario.ops1) (op := Scenario.place 0 .bid 1000 50 9)
    (p := fun s s' => decide (0 < freeQuote s 41 ∧ 0 < paidQuote s s' ∧ freeQuote s' 41 = 0 ∧
    tokens s' 61 = tokens s 61 - paidQuote s s')) (by decide +kernel)
  exact ⟨s, s', h1, h2, rfl, of_decide_eq_true h3⟩

/-- A smaller order needs no tokens. -/
example : ∃ s s' : State, Reachable s ∧ step s (Scenario.place 0 .bid 1000 5 9) = .ok s' ∧ paidQuote s s' = 0 ∧ 0 < freeQuote s' 41 ∧
    freeQuote s' 41 < freeQuote s 41 := by
  obtain ⟨s, s', h1, h2, h3⟩ := Scenario.step_spec (a := Scenario.args) (ops := Scenario.ops1) (op := Scenario.place 0 .bid 1000 5 9)
    (p := fun s s' => decide (paidQuote s s' = 0 ∧ 0 < freeQuote s' 41 ∧ freeQuote s' 41 < freeQuote s 41)) (by decide +kernel)
  exact ⟨s, s', h1, h2, of_decide_eq_true h3⟩

end OB
