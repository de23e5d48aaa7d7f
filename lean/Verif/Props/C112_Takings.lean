import Verif.Proofs.Takings
import Verif.Proofs.TsCancel
import Verif.Props.Scenario
/-!
C112  What the market keeps are exactly the fees.

`keptQuote` (Spec/Takings) is the quote on the books of the market that is due to no account.  It grows by the taker fees charged to accounts
less the rebates of their makers, by the maker fees, and by what makers lose in rounding; it shrinks by what is swept or paid to referrers.
A take order brings the market no taker fee.
-/
namespace OB
open Spec

variable {s s' : State}

theorem fees_same {m m' : Market} (h : SameCfg m m') : fillRebate m' = fillRebate m ∧ fillMakerFee m' = fillMakerFee m := by
  constructor <;> funext f <;> simp only [fillRebate, fillMakerFee, fillQuote, h.qls, h.maker]

theorem since_cfg (hr : Reachable s) (h : Since s s') : SameCfg s.g.market s'.g.market := by
  induction h with
  | now => exact SameCfg.refl _
  | step s1 s2 op hs h ih => exact ih.trans (step_cfg (reachable_Inv (hs.reachable hr)) h).1

/-- Over any stretch of time.  Rebates never exceed the taker fees they come from, so nothing but sweeps and referrers takes from what the
market keeps. -/
theorem C112_takings (hr : Reachable s) (h : Since s s') :
    ∃ t, Takings s s' t ∧ ∃ loss, 0 ≤ loss ∧ loss ≤ sumFills (t.byAccounts ++ t.byTakes) (makerSlack s.g.market) ∧
      0 ≤ sumFills t.byAccounts (fillRebate s.g.market) ∧ sumFills t.byAccounts (fillRebate s.g.market) ≤ t.fees ∧
      keptQuote s' + t.paid = keptQuote s + (t.fees - sumFills t.byAccounts (fillRebate s.g.market)) +
        sumFills (t.byAccounts ++ t.byTakes) (fillMakerFee s.g.market) + loss := by
  induction h with
  | now => exact ⟨{}, .now, 0, by simp [sumFills]⟩
  | step s1 s2 op hs h ih =>
    obtain ⟨t, ht, l, h0, h1, r0, r1, hk⟩ := ih
    have hr1 := hs.reachable hr
    obtain ⟨_, _, e3, _, _⟩ := values_same (since_cfg hr hs)
    obtain ⟨e1, e2⟩ := fees_same (since_cfg hr hs)
    simp only [sumFills_append] at h1 hk
    have set : ∀ admin c now, (op = .settleFunds c ∨ op = .settleFundsExpired admin c now) →
        ∃ t, Takings s s2 t ∧ ∃ loss, 0 ≤ loss ∧ loss ≤ sumFills (t.byAccounts ++ t.byTakes) (makerSlack s.g.market) ∧
          0 ≤ sumFills t.byAccounts (fillRebate s.g.market) ∧ sumFills t.byAccounts (fillRebate s.g.market) ≤ t.fees ∧
          keptQuote s2 + t.paid = keptQuote s + (t.fees - sumFills t.byAccounts (fillRebate s.g.market)) +
            sumFills (t.byAccounts ++ t.byTakes) (fillMakerFee s.g.market) + loss := by
      intro admin c now hop
      obtain ⟨a, hS, hq⟩ := kept_settle hr1 h hop
      refine ⟨_, .settle s1 s2 op t ht h admin c now hop a hS, l, h0, ?_, r0, r1, ?_⟩ <;> simp only [sumFills_append] <;> omega
    cases hp : placer op with
    | some p =>
      obtain ⟨sx, cs, g1, P, l2, b1, b2, b3⟩ := kept_trades hr1 h hp
      obtain ⟨c1, c2⟩ := rebates_le hr1 P
      rw [e1] at b3 c1 c2
      rw [e2] at b3
      rw [e3] at b2
      cases hh : p.hasOO with
      | true =>
        rw [hh, if_pos rfl] at b3
        refine ⟨_, .order s1 s2 op t ht h p hp hh sx cs g1 P, l + l2, by omega, ?_, ?_, ?_, ?_⟩ <;> simp only [sumFills_append] <;> omega
      | false =>
        rw [hh, if_neg (by intro e; cases e)] at b3
        refine ⟨_, .take s1 s2 op t ht h p hp hh sx cs g1 P, l + l2, by omega, ?_, r0, r1, ?_⟩ <;> simp only [sumFills_append] <;> omega
    | none =>
      have oth : (∀ admin receiver, op ≠ .sweepFees admin receiver) → (∀ c, op ≠ .settleFunds c) →
          (∀ admin c now, op ≠ .settleFundsExpired admin c now) →
          ∃ t, Takings s s2 t ∧ ∃ loss, 0 ≤ loss ∧ loss ≤ sumFills (t.byAccounts ++ t.byTakes) (makerSlack s.g.market) ∧
            0 ≤ sumFills t.byAccounts (fillRebate s.g.market) ∧ sumFills t.byAccounts (fillRebate s.g.market) ≤ t.fees ∧
            keptQuote s2 + t.paid = keptQuote s + (t.fees - sumFills t.byAccounts (fillRebate s.g.market)) +
              sumFills (t.byAccounts ++ t.byTakes) (fillMakerFee s.g.market) + loss := by
        intro g1 g2 g3
        have := kept_other hr1 h hp g1 g2 g3
        exact ⟨t, .other s1 s2 op t ht h hp g1 g2 g3, l, h0, by simp only [sumFills_append]; omega, r0, r1, by simp only [sumFills_append]; omega⟩
      cases op with
      | settleFunds c => exact set 0 c 0 (.inl rfl)
      | settleFundsExpired admin c now => exact set admin c now (.inr rfl)
      | sweepFees admin receiver =>
        have := kept_sweep hr1 h
        refine ⟨_, .sweep s1 s2 t ht admin receiver h, l, h0, ?_, r0, r1, ?_⟩ <;> simp only [sumFills_append] <;> omega
      | _ => exact oth (fun _ _ e => by cases e) (fun _ e => by cases e) (fun _ _ _ e => by cases e)

/-- Nobody but those who sweep the fees, and the referrers, takes from what the market keeps. -/
theorem C112_never_less {op : Op} (hr : Reachable s) (h : step s op = .ok s') (h1 : ∀ admin receiver, op ≠ .sweepFees admin receiver)
    (h2 : ∀ c, op = .settleFunds c → c.referrer = none) (h3 : ∀ admin c now, op = .settleFundsExpired admin c now → c.referrer = none) :
    keptQuote s ≤ keptQuote s' := by
  cases hp : placer op with
  | some p =>
    obtain ⟨sx, cs, g1, P, l2, b1, b2, b3⟩ := kept_trades hr h hp
    obtain ⟨c1, c2⟩ := rebates_le hr P
    have hf : 0 ≤ sumFills (tradesOf cs) (fillMakerFee s.g.market) := by
      exact sum_nonneg_fills (fun f hf => maker_fee_nonneg hr P hf)
    split at b3 <;> omega
  | none =>
    have set : ∀ admin c now, (op = .settleFunds c ∨ op = .settleFundsExpired admin c now) → c.referrer = none → keptQuote s ≤ keptQuote s' := by
      intro admin c now hop hn
      obtain ⟨a, hS, hq⟩ := kept_settle hr h hop
      rw [if_pos hn] at hq
      omega
    cases op with
    | settleFunds c => exact set 0 c 0 (.inl rfl) (h2 c rfl)
    | settleFundsExpired admin c now => exact set admin c now (.inr rfl) (h3 admin c now rfl)
    | _ => exact Int.le_of_eq (kept_other hr h hp h1 (fun _ e => by cases e) (fun _ _ _ e => by cases e)).symm

/-- What is available for sweeping is at most what the market keeps: sweeping never touches what is due to an account. -/
theorem C112_available (hr : Reachable s) : s.g.market.feesAvailable ≤ keptQuote s := by
  have h := total_split hr
  unfold keptQuote
  have : dueToAccounts s ≤ groupQuote (fun _ => true) s := by
    unfold dueToAccounts groupQuote
    rw [List.filter_eq_self.mpr (fun _ _ => rfl)]
    have hget : ∀ x ∈ s.g.accts, dueQuote s x.1 x.2 ≤ stakeQuote s x.1 x.2 := fun x hx =>
      (C69_worth hr (acct_get (keys_once (reachable_Inv hr)) hx)).2.2
    generalize s.g.accts = A at hget
    induction A with
    | nil => exact Int.le_refl _
    | cons x A ih =>
      simp only [List.map_cons, List.sum_cons]
      have := ih (fun y hy => hget y (by simp [hy]))
      have := hget x (by simp)
      omega
  omega

/-- Of base the market keeps nothing: all of it is due to some account. -/
theorem C112_no_base (hr : Reachable s) : s.g.market.baseDepositTotal = (s.g.accts.map (fun x => dueBase s x.1 x.2)).sum := base_split hr

/-- A take order on a market without maker fees leaves what the market keeps exactly as it was, whatever the taker fee is. -/
theorem C112_take_keeps_nothing {c : TakeCtx} {a : PlaceOrderArgs} (hr : Reachable s) (h : step s (.placeTakeOrder c a) = .ok s')
    (hm : s.g.market.makerFee ≤ 0) : keptQuote s' = keptQuote s := by
  obtain ⟨sx, cs, g1, P, l2, b1, b2, b3⟩ := kept_trades hr h (p := _) rfl
  have z : ∀ f, makerSlack s.g.market f = 0 ∧ fillMakerFee s.g.market f = 0 := by
    intro f
    unfold makerSlack fillMakerFee
    rw [if_neg (by omega), Int.max_eq_right hm]
    simp
  have z1 : sumFills (tradesOf cs) (makerSlack s.g.market) = 0 := by
    have : makerSlack s.g.market = fun _ => 0 := funext (fun f => (z f).1)
    rw [this]; simp [sumFills]
  have z2 : sumFills (tradesOf cs) (fillMakerFee s.g.market) = 0 := by
    have : fillMakerFee s.g.market = fun _ => 0 := funext (fun f => (z f).2)
    rw [this]; simp [sumFills]
  rw [if_neg (by simp)] at b3
  omega

/-! The hypotheses are met. -/

namespace TakingsCase
open Scenario

/-- Trader 33 buys 2 lots each from accounts 42 and 41: the market keeps the taker fee of 17 and two maker fees of 4.  A settlement with a
referrer then pays out the 17. -/
example : ∃ s s1 s2 : State, Reachable s ∧ Since s s1 ∧ Since s s2 ∧ keptQuote s = 0 ∧ keptQuote s1 = 17 + 4 + 4 ∧ keptQuote s2 = 4 + 4 := by
  obtain ⟨s, hs, h⟩ := exec_spec (a := args) (ops := ops0) (p := fun s => okAnd (step s (place 2 .bid 1010 4 6)) (fun s1 =>
    okAnd (step s1 (.settleFunds { settleTo 33 33 43 53 63 with referrer := some 61 })) (fun s2 =>
      decide (keptQuote s = 0 ∧ keptQuote s1 = 17 + 4 + 4 ∧ keptQuote s2 = 4 + 4)))) (by decide +kernel)
  obtain ⟨s1, h1, h⟩ := okAnd_spec h
  obtain ⟨s2, h2, h⟩ := okAnd_spec h
  exact ⟨s, s1, s2, hs, .step _ _ _ .now h1, .step _ _ _ (.step _ _ _ .now h1) h2, of_decide_eq_true h⟩

/-- A take order of four lots on a market with a taker fee and a rebate for makers: the books say that a fee was accrued, but the market
keeps no more than before. -/
example : ∃ (s s' : State) (c : TakeCtx) (a : PlaceOrderArgs), Reachable s ∧ step s (.placeTakeOrder c a) = .ok s' ∧ s.g.market.makerFee ≤ 0 ∧
    0 < s.g.market.takerFee ∧ s.g.market.feesAccrued < s'.g.market.feesAccrued ∧ keptQuote s' = keptQuote s ∧
    dueToAccounts s < dueToAccounts s' := by
  obtain ⟨s, hs, h⟩ := exec_spec (a := argsRebate) (ops := ops0) (p := fun s =>
    okAnd (step s (.placeTakeOrder (takeCtx 2) { limitOrder .bid 1010 4 9 with orderType := .immediateOrCancel })) (fun s' =>
      decide (s.g.market.makerFee ≤ 0 ∧ 0 < s.g.market.takerFee ∧ s.g.market.feesAccrued < s'.g.market.feesAccrued ∧
        keptQuote s' = keptQuote s ∧ dueToAccounts s < dueToAccounts s'))) (by decide +kernel)
  obtain ⟨s', h1, h⟩ := okAnd_spec h
  exact ⟨s, s', _, _, hs, h1, of_decide_eq_true h⟩

end TakingsCase

end OB
