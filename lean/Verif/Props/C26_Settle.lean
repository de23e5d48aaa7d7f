import Verif.Spec.Settle
import Verif.Proofs.MarketStep
import Verif.Props.C13_Conservation
import Verif.Props.Scenario
/-!
C26 — Settling pays exactly the free balances to an allowed destination.
C29 — Sweeping fees only takes accrued fees.
C30 — Referrer rebates are accounted exactly (settlement; the invariant is in C13_Conservation).
-/
namespace OB
open Spec

theorem sweepOf_eq (m : Market) (a : OOA) : sweepOf m a.position = feeRemainder m a := rfl

theorem systemTransfer_spec {l l' : Lamports} {amt : Int} {src dst : Pubkey} (h : systemTransfer l amt src dst = .ok l') (h0 : 0 ≤ amt)
    (k : Pubkey) : l' k = l k + moved k src dst amt := by
  unfold systemTransfer at h
  unfold moved
  split at h
  · simp only [bind_ok, req_ok] at h
    obtain ⟨_, h1, h⟩ := h
    split at h
    · rename_i he
      simp only [pure_ok] at h
      subst h; subst he; split <;> omega
    · rename_i he
      simp only [bind_ok, ckU64_ok, pure_ok] at h
      obtain ⟨_, ⟨_, rfl⟩, rfl⟩ := h
      by_cases e1 : k = dst
      · subst e1
        have : ¬ (k = src) := fun e => he e.symm
        simp only [if_true, if_neg this]; omega
      · by_cases e2 : k = src
        · subst e2; simp only [if_neg e1, if_true]; omega
        · simp only [if_neg e1, if_neg e2]; omega
  · have : amt = 0 := by omega
    injection h with h
    subst h; subst this
    split <;> split <;> omega

theorem penalty_nonneg {s : State} (hr : Reachable s) {k : Pubkey} {a : OOA} (ha : s.g.accts.get? k = some a) :
    0 ≤ a.position.penaltyHeapCount := by
  induction hr generalizing k a with
  | init a' now tokens lamports s h =>
    obtain ⟨_, rfl⟩ := createMarket_inv h
    cases ha
  | step s s' op hs h ih =>
    cases hb : s.g.accts.get? k with
    | none =>
      obtain ⟨o, d, _, rfl⟩ := (step_accts (reachable_Inv hs) h).new k a hb ha
      exact Int.le_refl _
    | some b =>
      have h0 := ih hb
      rcases (step_accts (reachable_Inv hs) h).old k b hb with ⟨b', hb', hst⟩ | ⟨hn, _⟩
      · rw [ha] at hb'; injection hb' with hb'; subst hb'
        cases hst with
        | kept _ _ _ _ pen _ => omega
        | paid _ _ _ pen _ => omega
        | settled c _ _ res => rw [res]; exact Int.le_refl _
        | delegate d _ res => rw [res]; exact h0
      · rw [ha] at hn; cases hn
  | again s s' b now hs h ih =>
    obtain ⟨_, _, _, _, rfl⟩ := recreateMarket_inv h
    exact ih ha

theorem SettleRun.spec {s s' : State} {c : SettleCtx} (P : SettleRun s c s') (hr : Reachable s) : Settles s s' c P.a := by
  have hi := reachable_Inv hr
  obtain ⟨k1, k2, k3, k4, _⟩ := hi.core.linv.acctOk P.acct
  have hS := P.settled
  have hreb : P.rebate = rebateOf s.g.market P.a := hS.rebateEq
  have m1 : ∀ k v, mintIs s.tokens k v = .ok () → (s.tokens k).mint = (s.tokens v).mint := by
    intro k v h; unfold mintIs at h; rw [req_ok] at h; exact h.1
  have hp := penalty_nonneg hr P.acct
  have tr1 : ∀ k, (P.t1 k).owner = (s.tokens k).owner ∧ (P.t1 k).mint = (s.tokens k).mint ∧ (P.t1 k).amount = (s.tokens k).amount +
      movedIf k s.g.market.marketQuoteVault c.referrer (rebateOf s.g.market P.a) := by
    intro k
    rcases P.tr1 with ⟨r, e, h⟩ | ⟨e, h⟩
    · rw [e]
      obtain ⟨h1, h2, h3⟩ := tokenTransfer_spec h hS.rebate0.1 k
      rw [hreb] at h3
      refine ⟨h1, h2, ?_⟩
      rw [h3]; show _ = _ + moved _ _ _ _; unfold moved; omega
    · rw [e, h]; exact ⟨rfl, rfl, (Int.add_zero _).symm⟩
  refine ⟨P.acct, ?_, ?_, ?_, ?_, ⟨?_, ?_, ?_⟩, ?_, ?_, ?_, ?_, ?_⟩
  · rw [congrArg State.g P.res]
    exact Accts.get?_set_self _ P.acct
  · intro j hj
    rw [congrArg State.g P.res]
    exact Accts.get?_set_ne _ hj
  · intro k
    obtain ⟨_, _, h1⟩ := tr1 k
    have h2 := (tokenTransfer_spec P.tr2 k1.1 k).2.2
    have h3 := (tokenTransfer_spec P.tr3 k2.1 k).2.2
    have e : tokens s' k = (P.t3 k).amount := by unfold tokens; rw [congrArg State.tokens P.res]
    rw [e, h3, h2, h1]
    unfold tokens
    generalize movedIf k s.g.market.marketQuoteVault c.referrer (rebateOf s.g.market P.a) = z
    unfold moved
    omega
  · intro k
    obtain ⟨a1, a2, _⟩ := tr1 k
    obtain ⟨b1, b2, _⟩ := tokenTransfer_spec P.tr2 k1.1 k
    obtain ⟨c1, c2, _⟩ := tokenTransfer_spec P.tr3 k2.1 k
    rw [congrArg State.tokens P.res]
    exact ⟨c1.trans (b1.trans a1), c2.trans (b2.trans a2)⟩
  · rw [m1 _ _ P.mintB]; exact hi.vb.mint
  · rw [m1 _ _ P.mintQ]; exact hi.vq.mint
  · intro r hr
    rw [m1 _ _ (P.mintR r hr)]; exact hi.vq.mint
  · rw [congrArg State.g P.res]
    show s.g.market.settled P.a.position c.referrer.isSome = _
    cases c.referrer <;> simp [Market.settled, rebateOf, feeRemainder, sweepOf] <;> omega
  · rw [congrArg State.book P.res]
  · rw [congrArg State.g P.res]
  · rw [congrArg State.closed P.res]
  · intro k
    rw [congrArg State.lamports P.res]
    show P.lamports k = _
    have hpen := P.penalty
    split at hpen
    · simp only [bind_ok, ckU64_ok] at hpen
      obtain ⟨_, ⟨hx, rfl⟩, hpen⟩ := hpen
      exact systemTransfer_spec hpen hx.1 k
    · injection hpen with hpen
      have : P.a.position.penaltyHeapCount = 0 := by omega
      rw [← hpen, this]; unfold moved; simp

/-- `settle_funds` pays exactly the free balances (`Settles`).  It is signed by the owner or the delegate of the account; if not by the
owner, then both destinations are token accounts of the owner. -/
theorem C26_settle {s s' : State} {c : SettleCtx} (hr : Reachable s) (h : step s (.settleFunds c) = .ok s') :
    ∃ a, Settles s s' c a ∧ Controls s c.signer c.ooKey ∧
      (c.signer ≠ a.owner → (s.tokens c.userBase).owner = a.owner ∧ (s.tokens c.userQuote).owner = a.owner) := by
  cases step_run h with
  | settle c h P =>
    obtain ⟨_, _, a, ha, h1, h2, h3⟩ := settleFunds_inv h
    have e : a = P.a := by have := P.acct; rw [ha] at this; injection this
    subst e
    refine ⟨P.a, P.spec hr, ⟨P.a, ha, ?_⟩, fun hne => ?_⟩
    · unfold OOA.isOwnerOrDelegate at h1
      split at h1
      · rename_i hd
        simp only [decide_eq_true_eq] at h1
        rcases h1 with h1 | h1
        · exact .inl h1.symm
        · exact .inr ⟨hd, h1.symm⟩
      · simp only [decide_eq_true_eq] at h1
        exact .inl h1.symm
    · unfold OOA.isSettleDestinationAllowed at h2 h3
      split at h2
      · simp only [decide_eq_true_eq] at h2
        rename_i hd
        rw [if_pos hd] at h3
        simp only [decide_eq_true_eq] at h3
        exact ⟨h2.symm, h3.symm⟩
      · simp only [decide_eq_true_eq] at h2
        exact absurd h2 hne
  | idle _ _ h => cases h
  | place _ _ _ _ _ h => cases h
  | edit _ _ _ _ _ _ _ h => cases h
  | consume _ _ _ _ _ h => rcases h with ⟨h, _⟩ | ⟨h, _⟩ <;> cases h
  | cancel _ _ _ _ _ _ _ _ h => rcases h with ⟨h, _⟩ | ⟨h, _⟩ <;> cases h
  | deposit _ _ _ _ _ _ _ _ _ _ h => rcases h with h | h <;> cases h

/-- `settle_funds_expired` by the close market admin, on an expired market, pays the same amounts, only to the owner. -/
theorem C26_settle_expired {s s' : State} {c : SettleCtx} {admin : Pubkey} {now : Int} (hr : Reachable s)
    (h : step s (.settleFundsExpired admin c now) = .ok s') :
    ∃ a, Settles s s' c a ∧ (s.tokens c.userBase).owner = a.owner ∧ (s.tokens c.userQuote).owner = a.owner ∧
      s.g.market.closeMarketAdmin = admin ∧ admin ≠ 0 ∧ s.g.market.isExpired now = true := by
  cases step_run h with
  | settleExpired admin c now h P =>
    obtain ⟨_, _, h1, h2, h3, a, ha, h4, h5⟩ := settleFundsExpired_inv h
    have e : a = P.a := by have := P.acct; rw [ha] at this; injection this
    subst e
    exact ⟨P.a, P.spec hr, h4, h5, h2, by rw [← h2]; exact h1, h3⟩
  | idle _ _ h => cases h
  | place _ _ _ _ _ h => cases h
  | edit _ _ _ _ _ _ _ h => cases h
  | consume _ _ _ _ _ h => rcases h with ⟨h, _⟩ | ⟨h, _⟩ <;> cases h
  | cancel _ _ _ _ _ _ _ _ h => rcases h with ⟨h, _⟩ | ⟨h, _⟩ <;> cases h
  | deposit _ _ _ _ _ _ _ _ _ _ h => rcases h with h | h <;> cases h

/-- The recorded deposits are reduced by exactly what leaves the vaults (unless someone settles into a vault). -/
theorem C26_totals_follow_vaults {s s' : State} {c : SettleCtx} {a : OOA} (hr : Reachable s) (h : Settles s s' c a)
    (h1 : s.g.market.isMarketVault c.userBase = false) (h2 : s.g.market.isMarketVault c.userQuote = false)
    (h3 : ∀ r, c.referrer = some r → s.g.market.isMarketVault r = false) :
    tokens s s.g.market.marketBaseVault - tokens s' s.g.market.marketBaseVault =
      s.g.market.baseDepositTotal - s'.g.market.baseDepositTotal ∧
    tokens s s.g.market.marketQuoteVault - tokens s' s.g.market.marketQuoteVault =
      s.g.market.quoteDepositTotal - s'.g.market.quoteDepositTotal := by
  have hv := (reachable_Inv hr).vaults
  have hv' := Ne.symm hv
  unfold Market.isMarketVault at h1 h2 h3
  simp only [decide_eq_false_iff_not, not_or] at h1 h2 h3
  have e1 := h.tokens s.g.market.marketBaseVault
  have e2 := h.tokens s.g.market.marketQuoteVault
  rw [h.market]
  simp only
  unfold movedIf moved at e1 e2
  cases hc : c.referrer with
  | none =>
    rw [hc] at e1 e2
    simp only [if_true, if_neg hv, if_neg hv', if_neg (Ne.symm h1.1), if_neg (Ne.symm h1.2), if_neg (Ne.symm h2.1),
      if_neg (Ne.symm h2.2)] at e1 e2 ⊢
    omega
  | some r =>
    have h3 := h3 r hc
    rw [hc] at e1 e2
    simp only [if_true, if_neg hv, if_neg hv', if_neg (Ne.symm h1.1), if_neg (Ne.symm h1.2), if_neg (Ne.symm h2.1),
      if_neg (Ne.symm h2.2), if_neg (Ne.symm h3.1), if_neg (Ne.symm h3.2), reduceCtorEq, if_false] at e1 e2 ⊢
    omega

/-- Only settling takes rebates out of an account: in every other instruction the rebates recorded in an account do not decrease, and
an account that disappears has none. -/
theorem C30_only_settling {s s' : State} {op : Op} (hr : Reachable s) (h : step s op = .ok s') {k : Pubkey} {a : OOA}
    (ha : s.g.accts.get? k = some a)
    (hn : ∀ c, (op = .settleFunds c ∨ ∃ admin now, op = .settleFundsExpired admin c now) → c.ooKey ≠ k) :
    (∃ a', s'.g.accts.get? k = some a' ∧ a.position.referrerRebatesAvailable ≤ a'.position.referrerRebatesAvailable) ∨
    (s'.g.accts.get? k = none ∧ a.position.referrerRebatesAvailable = 0) := by
  rcases (step_accts (reachable_Inv hr) h).old k a ha with ⟨a', h1, hs⟩ | ⟨h1, _, he⟩
  · left
    refine ⟨a', h1, ?_⟩
    cases hs with
    | kept _ _ _ _ _ up => exact up.refs
    | paid _ _ _ _ up => exact up.refs
    | settled c hop hk _ => exact absurd hk (hn c hop)
    | delegate d _ res => rw [res]; exact Int.le_refl _
  · exact .inr ⟨h1, he.refs⟩

/-- Settling pays the rebates of the account exactly once: to the referrer if one is given, into the fees of the market if not; the
account then has none, and the rebates outstanding on the market are less by exactly these. -/
theorem C30_settlement {s s' : State} {c : SettleCtx} {a : OOA} (h : Settles s s' c a) :
    (∃ a', s'.g.accts.get? c.ooKey = some a' ∧ a'.position.referrerRebatesAvailable = 0) ∧
    s'.g.market.referrerRebatesAccrued = s.g.market.referrerRebatesAccrued - a.position.referrerRebatesAvailable ∧
    (s'.g.market.feesToReferrers - s.g.market.feesToReferrers) + (s'.g.market.feesAvailable - s.g.market.feesAvailable) =
      a.position.referrerRebatesAvailable + feeRemainder s.g.market a ∧
    (c.referrer = none → s'.g.market.feesToReferrers = s.g.market.feesToReferrers) ∧
    (c.referrer ≠ none → s'.g.market.feesAvailable = s.g.market.feesAvailable) := by
  rw [h.market]
  simp only
  refine ⟨⟨_, h.after, rfl⟩, trivial, ?_, ?_, ?_⟩
  · unfold rebateOf; split <;> omega
  · intro e; rw [if_pos e]; omega
  · intro e; rw [if_neg e]; omega

/-- `sweep_fees` transfers exactly the fees available from the quote vault to the receiver and reduces the recorded deposits by the
same; accounts, book and events are not touched. -/
theorem C29_sweep {s s' : State} {admin receiver : Pubkey} (hr : Reachable s) (h : step s (.sweepFees admin receiver) = .ok s') :
    (∀ k, tokens s' k = tokens s k + moved k s.g.market.marketQuoteVault receiver s.g.market.feesAvailable) ∧
    s'.g.market = { s.g.market with
      feesAvailable := 0, quoteDepositTotal := s.g.market.quoteDepositTotal - s.g.market.feesAvailable } ∧
    s'.g.accts = s.g.accts ∧ s'.g.heap = s.g.heap ∧ s'.book = s.book ∧ s'.lamports = s.lamports ∧
    s.g.market.collectFeeAdmin = admin := by
  have hi := reachable_Inv hr
  have hst : sweepFees s admin receiver = .ok s' := h
  obtain ⟨_, h1, _, t, h2, rfl⟩ := sweepFees_inv hst
  refine ⟨fun k => ?_, rfl, rfl, rfl, rfl, rfl, h1⟩
  have := (tokenTransfer_spec h2 hi.core.avail.1 k).2.2
  unfold tokens moved
  rw [this]; omega

theorem Spec.History.reachable {s : State} {x d : Int} (h : History s x d) : Reachable s := by
  induction h with
  | init a now tokens lamports s h => exact .init a now tokens lamports s h
  | again s s' a now hs h => exact .again s s' a now hs h
  | step s s' op x d hs h ih => exact .step s s' op ih h

/-- Over every history: fees swept, fees available, fees paid to referrers and rebates outstanding together are at most the fees
accrued plus the collected fee remainders. -/
theorem C29_history_partial {s : State} {swept remainders : Int} (h : History s swept remainders) :
    swept + s.g.market.feesAvailable + s.g.market.feesToReferrers + s.g.market.referrerRebatesAccrued ≤
      s.g.market.feesAccrued + remainders := by
  induction h with
  | init a now tokens lamports s h =>
    obtain ⟨_, rfl⟩ := createMarket_inv h
    exact Int.le_refl _
  | again s s' a now hs h =>
    obtain ⟨_, _, _, _, rfl⟩ := recreateMarket_inv h
    exact Int.le_refl _
  | step s s' op x d hs h ih =>
    have hi := reachable_Inv hs.reachable
    cases step_mkt hi h with
    | trade avail refs earned up =>
      have e1 : sweptBy s op = 0 ∨ s.g.market.feesAvailable = s'.g.market.feesAvailable ∧ sweptBy s op = s.g.market.feesAvailable ∧
          s'.g.market.feesAvailable = 0 := by
        cases op <;> first | exact .inl rfl | skip
        rename_i admin receiver
        right
        have hst : sweepFees s admin receiver = .ok s' := h
        obtain ⟨_, h1, _, t, h2, rfl⟩ := sweepFees_inv hst
        exact ⟨avail.symm, rfl, rfl⟩
      have e2 : 0 ≤ remainderBy s op := by
        have : ∀ k, 0 ≤ ((s.g.accts.get? k).map (feeRemainder s.g.market)).getD 0 := by
          intro k
          cases ha : s.g.accts.get? k with
          | none => exact Int.le_refl _
          | some a =>
            obtain ⟨_, _, k3, _⟩ := hi.core.linv.acctOk ha
            simp only [Option.map_some, Option.getD_some]
            unfold feeRemainder; split
            · exact k3.1
            · exact Int.le_refl _
        cases op <;> first | exact Int.le_refl _ | exact this _
      omega
    | settled c a hop acct res =>
      have e1 : sweptBy s op = 0 := by rcases hop with rfl | ⟨_, _, rfl⟩ <;> rfl
      have e2 : remainderBy s op = feeRemainder s.g.market a := by
        rcases hop with rfl | ⟨_, _, rfl⟩ <;> simp only [remainderBy, acct] <;> rfl
      rw [e1, e2, res]
      simp only [Market.settled, sweepOf_eq]
      split <;> omega
    | swept receiver hop res =>
      subst hop
      rw [res]
      simp only [sweptBy, remainderBy]
      omega

/-- On a market without maker fees (or with maker rebates) there are no remainders: fees swept plus fees available never exceed the
fees accrued. -/
theorem C29_no_maker_fee {s : State} {swept remainders : Int} (h : History s swept remainders) (hm : s.g.market.makerFee ≤ 0) :
    remainders = 0 ∧ swept + s.g.market.feesAvailable ≤ s.g.market.feesAccrued := by
  have h0 : remainders = 0 ∧ 0 ≤ s.g.market.feesToReferrers := by
    induction h with
    | init a now tokens lamports s h =>
      obtain ⟨_, rfl⟩ := createMarket_inv h
      exact ⟨rfl, Int.le_refl _⟩
    | again s s' a now hs h =>
      obtain ⟨_, _, _, _, rfl⟩ := recreateMarket_inv h
      exact ⟨rfl, Int.le_refl _⟩
    | step s s' op x d hs h ih =>
      have hi := reachable_Inv hs.reachable
      have e := (step_cfg hi h).1.maker
      rw [e] at hm
      obtain ⟨i1, i2⟩ := ih hm
      have hz : ∀ a : OOA, feeRemainder s.g.market a = 0 := fun a => by
        unfold feeRemainder; rw [if_neg (fun hc => by omega)]
      have : ∀ k, ((s.g.accts.get? k).map (feeRemainder s.g.market)).getD 0 = 0 := by
        intro k
        cases s.g.accts.get? k with
        | none => rfl
        | some a => exact hz a
      refine ⟨?_, ?_⟩
      · rw [i1]
        cases op <;> first | rfl | exact congrArg (0 + ·) (this _)
      · cases step_mkt hi h with
        | trade avail refs earned up => rw [refs]; exact i2
        | settled c a hop acct res =>
          obtain ⟨_, _, _, k4, _⟩ := hi.core.linv.acctOk acct
          rw [res]
          simp only [Market.settled, sweepOf_eq, hz]
          have := k4.1
          split <;> omega
        | swept receiver hop res => rw [res]; exact i2
  have h1 := C29_history_partial h
  have h2 : 0 ≤ s.g.market.referrerRebatesAccrued := by
    obtain ⟨O, q, hl⟩ := (reachable_Inv h.reachable).core.linv
    rw [hl.ginv.refs]
    have := hl.ginv.nodup
    have h0 : ∀ x ∈ s.g.accts, 0 ≤ acctR x.2 := fun x hx => (hl.ginv.acct x.1 x.2 (acct_get hl.ginv.nodup hx)).refs.1
    generalize s.g.accts = as at h0
    clear this hl h1
    unfold asum
    induction as with
    | nil => exact Int.le_refl _
    | cons z zs ih =>
      have := ih (fun x hx => h0 x (List.mem_cons_of_mem _ hx))
      have := h0 z List.mem_cons_self
      simp only [List.map_cons, List.sum_cons]; omega
  exact ⟨h0.1, by omega⟩

namespace SettleCase
open Scenario

def settleOf (i : Nat) (referrer : Option Pubkey := none) : Op :=
  .settleFunds { signer := 31 + i, penaltyPayer := 31 + i, ooKey := 41 + i, userBase := 51 + i, userQuote := 61 + i, referrer }

theorem run_history {s s' : State} {ops : List Op} {x d : Int} (hs : History s x d) (h : run s ops = .ok s') :
    ∃ x' d', History s' x' d' := by
  induction ops generalizing s x d with
  | nil => injection h with h; rw [← h]; exact ⟨x, d, hs⟩
  | cons op ops ih =>
    unfold run at h
    cases h1 : step s op with
    | error e => rw [h1] at h; cases h
    | ok s1 => rw [h1] at h; exact ih (.step s s1 op x d hs h1) h

theorem exec_history {a : CreateArgs} {ops : List Op} {s : State} (h : exec a ops = .ok s) : ∃ x d, History s x d := by
  unfold exec at h
  cases h1 : start a with
  | error e => rw [h1] at h; cases h
  | ok s1 => rw [h1] at h; exact run_history (.init a 0 tokens0 lamports0 s1 h1) h

/-- No fees are swept by instructions other than sweeping. -/
theorem noSweep {s s' : State} {ops : List Op} {x d : Int} (hs : History s x d) (h : run s ops = .ok s')
    (hn : ∀ op ∈ ops, ∀ s, sweptBy s op = 0) : ∃ d', History s' x d' := by
  induction ops generalizing s x d with
  | nil => injection h with h; rw [← h]; exact ⟨d, hs⟩
  | cons op ops ih =>
    unfold run at h
    cases h1 : step s op with
    | error e => rw [h1] at h; cases h
    | ok s1 =>
      rw [h1] at h
      have := History.step s s1 op x d hs h1
      rw [hn op List.mem_cons_self s, Int.add_zero] at this
      exact ih this h (fun o ho => hn o (List.mem_cons_of_mem _ ho))

/-- A bid of one lot at price 30 is filled and its account settled: the maker fee of 0.06 is locked as 1 and charged as 0, the
remainder goes to the fees available without having been accrued. -/
def dust : List Op := [.createOO 41 31 0, .createOO 42 32 0, place 0 .bid 30 1 2, place 1 .ask 30 1 2, .consumeEvents 0 8 [41],
  settleOf 0, settleOf 1]

theorem dust_runs : okAnd (exec args dust) (fun s => decide (s.g.market.feesAvailable = 2 ∧ s.g.market.feesAccrued = 1)) = true := by
  decide +kernel

end SettleCase

/-- The claim of the property over histories is false as it stands: with maker fees, fees swept plus fees available can exceed the
fees accrued, by the remainders. -/
theorem C29_fees_exceed_accrued : ∃ (s : State) (swept remainders : Int), History s swept remainders ∧ swept = 0 ∧
    s.g.market.feesAccrued < swept + s.g.market.feesAvailable := by
  obtain ⟨s, h1, h2⟩ := Scenario.okAnd_spec SettleCase.dust_runs
  unfold Scenario.exec at h1
  cases hs : Scenario.start Scenario.args with
  | error e => rw [hs] at h1; cases h1
  | ok s0 =>
    rw [hs] at h1
    obtain ⟨d, hd⟩ := SettleCase.noSweep (.init Scenario.args 0 Scenario.tokens0 Scenario.lamports0 s0 hs) h1 (by
      intro op hop s
      simp only [SettleCase.dust, List.mem_cons, List.not_mem_nil, or_false] at hop
      rcases hop with rfl | rfl | rfl | rfl | rfl | rfl | rfl <;> rfl)
    refine ⟨s, 0, d, hd, rfl, ?_⟩
    simp only [decide_eq_true_eq] at h2
    omega

namespace SettleCase
open Scenario

/-! Settling after a trade, with a referrer; as a delegate; sweeping; on a market without maker fee. -/
example : ∃ (s s' : State), Reachable s ∧ step s (settleOf 2 (some 61)) = .ok s' ∧
    decide (tokens s 53 + 400 = tokens s' 53 ∧ tokens s 61 < tokens s' 61 ∧ s'.g.market.feesToReferrers > 0) = true :=
  step_spec (a := args) (ops := ops1)
    (p := fun s s' => decide (tokens s 53 + 400 = tokens s' 53 ∧ tokens s 61 < tokens s' 61 ∧ s'.g.market.feesToReferrers > 0))
    (by decide +kernel)

example : ∃ (s s' : State), Reachable s ∧
    step s (.settleFunds { signer := 32, penaltyPayer := 32, ooKey := 41, userBase := 51, userQuote := 61, referrer := none }) = .ok s' ∧
    decide (tokens s 51 < tokens s' 51) = true :=
  step_spec (a := args) (ops := ops1 ++ [.setDelegate 41 31 32])
    (p := fun s s' => decide (tokens s 51 < tokens s' 51)) (by decide +kernel)

example : ∃ (s s' : State), Reachable s ∧
    step s (.settleFundsExpired 2 { signer := 33, penaltyPayer := 33, ooKey := 41, userBase := 51, userQuote := 61, referrer := none } 1000)
      = .ok s' ∧ decide (tokens s 51 < tokens s' 51) = true :=
  step_spec (a := args) (ops := ops1 ++ [.setMarketExpired 2 1000])
    (p := fun s s' => decide (tokens s 51 < tokens s' 51)) (by decide +kernel)

example : ∃ (s s' : State), Reachable s ∧ step s (.sweepFees 1 61) = .ok s' ∧
    decide (s.g.market.feesAvailable > 0 ∧ tokens s 61 < tokens s' 61) = true :=
  step_spec (a := args) (ops := ops1 ++ [settleOf 2])
    (p := fun s s' => decide (s.g.market.feesAvailable > 0 ∧ tokens s 61 < tokens s' 61)) (by decide +kernel)

theorem free_runs : okAnd (exec { args with makerFee := -100 } (ops1 ++ [settleOf 2, .sweepFees 1 61, place 2 .bid 1010 1 6, settleOf 2]))
    (fun s => decide (s.g.market.makerFee ≤ 0 ∧ s.g.market.feesAvailable > 0)) = true := by decide +kernel

example : ∃ (s : State) (x d : Int), History s x d ∧ s.g.market.makerFee ≤ 0 ∧ 0 < s.g.market.feesAvailable := by
  obtain ⟨s, h1, h2⟩ := okAnd_spec free_runs
  obtain ⟨x, d, h⟩ := exec_history h1
  simp only [decide_eq_true_eq] at h2
  exact ⟨s, x, d, h, h2.1, h2.2⟩

end SettleCase

end OB
