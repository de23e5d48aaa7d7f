import Verif.Proofs.Frame
import Verif.Props.Scenario
/-!
C53 — Only the owner's signature moves their tokens, and none are created or lost.
-/
namespace OB
open Spec

/-- An instruction changes neither owner nor mint of any token account.  It takes tokens only out of accounts whose owner signs it,
or, in the four instructions that pay out, from the two vaults of the market. -/
theorem C53_signed {s s' : State} {op : Op} (hr : Reachable s) (h : step s op = .ok s') (he : external op = false) (k : Pubkey) :
    (s'.tokens k).owner = (s.tokens k).owner ∧ (s'.tokens k).mint = (s.tokens k).mint ∧
    ((s'.tokens k).amount < (s.tokens k).amount → (s.tokens k).owner ∈ signers op ∨
      (((∃ c a, op = .placeTakeOrder c a) ∨ (∃ c, op = .settleFunds c) ∨ (∃ admin c now, op = .settleFundsExpired admin c now) ∨
        (∃ admin receiver, op = .sweepFees admin receiver)) ∧
       (k = s.g.market.marketBaseVault ∨ k = s.g.market.marketQuoteVault))) := by
  have f := (step_frame (reachable_Inv hr) h he).tokens
  refine ⟨(f.same k).1, (f.same k).2, fun hlt => ?_⟩
  rcases f.debit k hlt with h1 | ⟨h1, h2⟩
  · exact .inl h1
  · refine .inr ⟨?_, h2⟩
    cases op <;> simp_all [withdraws]

/-- The vaults are paid out by nothing else: the market authority is a derived address and never signs by itself. -/
theorem C53_vaults {s s' : State} {op : Op} (hr : Reachable s) (h : step s op = .ok s')
    (ha : s.g.market.marketAuthority ∉ signers op) {k : Pubkey}
    (hk : k = s.g.market.marketBaseVault ∨ k = s.g.market.marketQuoteVault) (hlt : (s'.tokens k).amount < (s.tokens k).amount) :
    (∃ c a, op = .placeTakeOrder c a) ∨ (∃ c, op = .settleFunds c) ∨ (∃ admin c now, op = .settleFundsExpired admin c now) ∨
      (∃ admin receiver, op = .sweepFees admin receiver) := by
  by_cases he : external op = false
  · rcases (C53_signed hr h he k).2.2 hlt with h1 | ⟨h1, _⟩
    · have hi := reachable_Inv hr
      have : (s.tokens k).owner = s.g.market.marketAuthority := by
        rcases hk with rfl | rfl
        · exact hi.vb.owner
        · exact hi.vq.owner
      rw [this] at h1; exact absurd h1 ha
    · exact h1
  · cases op with
    | externalToken j t =>
      obtain ⟨_, _, hv, rfl⟩ := externalToken_inv h
      by_cases hj : k = j
      · subst hj
        have hm : s.g.market.isMarketVault k = true := by unfold Market.isMarketVault; rcases hk with e | e <;> simp [e]
        simp only [if_true] at hlt
        have := (hv hm).2.2
        omega
      · simp only [if_neg hj] at hlt; omega
    | externalLamports j x =>
      obtain ⟨_, _, _, rfl⟩ := externalLamports_inv h
      exact absurd hlt (by show ¬ (s.tokens k).amount < (s.tokens k).amount; omega)
    | _ => exact absurd rfl he

/-- No tokens appear or disappear: over any set of accounts that contains those that changed, the total of every mint is kept. -/
theorem C53_conserved {s s' : State} {op : Op} (hr : Reachable s) (h : step s op = .ok s') (he : external op = false) (mint : Pubkey)
    (F : Finset Pubkey) (hF : ∀ k, s'.tokens k ≠ s.tokens k → k ∈ F) :
    ∑ k ∈ F with (s'.tokens k).mint = mint, (s'.tokens k).amount = ∑ k ∈ F with (s.tokens k).mint = mint, (s.tokens k).amount := by
  obtain ⟨G, g1, g2⟩ := (step_frame (reachable_Inv hr) h he).tokens.touched
  have key : ∑ k ∈ F, ((s'.tokens k).of mint - (s.tokens k).of mint) = 0 := by
    have e1 : ∑ k ∈ F ∪ G, ((s'.tokens k).of mint - (s.tokens k).of mint) = 0 := by
      rw [← g2 mint]; symm
      exact Finset.sum_subset Finset.subset_union_right (fun i _ hi => by rw [g1 i hi]; omega)
    rw [← e1]
    refine Finset.sum_subset Finset.subset_union_left (fun i _ hi => ?_)
    have : s'.tokens i = s.tokens i := by
      by_contra hc; exact hi (hF i hc)
    rw [this]; omega
  rw [Finset.sum_sub_distrib] at key
  rw [Finset.sum_filter, Finset.sum_filter]
  unfold TokenAcct.of at key
  omega

/-- Lamports are only taken from accounts that sign, only paid to the market, and none appear or disappear. -/
theorem C53_lamports {s s' : State} {op : Op} (hr : Reachable s) (h : step s op = .ok s') (he : external op = false) :
    (∀ k, s'.lamports k < s.lamports k → k ∈ signers op) ∧ (∀ k, s.lamports k < s'.lamports k → k = s.marketKey) ∧
    ∀ F : Finset Pubkey, (∀ k, s'.lamports k ≠ s.lamports k → k ∈ F) → ∑ k ∈ F, s'.lamports k = ∑ k ∈ F, s.lamports k := by
  have f := (step_frame (reachable_Inv hr) h he).lamports
  refine ⟨f.debit, f.credit, fun F hF => ?_⟩
  obtain ⟨G, g1, g2⟩ := f.touched
  have e1 : ∑ k ∈ F ∪ G, (s'.lamports k - s.lamports k) = 0 := by
    rw [← g2]; symm
    exact Finset.sum_subset Finset.subset_union_right (fun i _ hi => by rw [g1 i hi]; omega)
  have key : ∑ k ∈ F, (s'.lamports k - s.lamports k) = 0 := by
    rw [← e1]
    refine Finset.sum_subset Finset.subset_union_left (fun i _ hi => ?_)
    have : s'.lamports i = s.lamports i := by
      by_contra hc; exact hi (hF i hc)
    rw [this]; omega
  rw [Finset.sum_sub_distrib] at key
  omega

/-! A trader without an account buys from the resting ask: the trader's quote tokens and the base vault are debited, the quote vault
and the trader's base tokens credited, and the trader pays the penalty for the event queued. -/
open Scenario in
def taking : Op :=
  .placeTakeOrder
    { signer := 33, penaltyPayer := 33, admin := 0, userBase := 53, userQuote := 63, now := 1000, oracle := some 1000, rem := [] }
    { limitOrder .bid 1010 2 0 with orderType := .immediateOrCancel }

open Scenario in
example : ∃ (s s' : State), Reachable s ∧ step s taking = .ok s' ∧
    decide (signers taking = [33, 33] ∧ external taking = false ∧ s.g.market.marketAuthority ∉ signers taking ∧
      (s.tokens 63).owner = 33 ∧ (s'.tokens 63).amount = (s.tokens 63).amount - 20140 ∧
      (s'.tokens 20).amount = (s.tokens 20).amount - 200 ∧ (s'.tokens 53).amount = (s.tokens 53).amount + 200 ∧
      s'.lamports 33 = s.lamports 33 - 500 ∧ s'.lamports 100 = s.lamports 100 + 500 ∧
      (s'.tokens 62).amount = (s.tokens 62).amount) = true :=
  step_spec (a := args) (ops := ops0) (op := taking) (p := fun s s' => decide (signers taking = [33, 33] ∧ external taking = false ∧
      s.g.market.marketAuthority ∉ signers taking ∧
      (s.tokens 63).owner = 33 ∧ (s'.tokens 63).amount = (s.tokens 63).amount - 20140 ∧
      (s'.tokens 20).amount = (s.tokens 20).amount - 200 ∧ (s'.tokens 53).amount = (s.tokens 53).amount + 200 ∧
      s'.lamports 33 = s.lamports 33 - 500 ∧ s'.lamports 100 = s.lamports 100 + 500 ∧
      (s'.tokens 62).amount = (s.tokens 62).amount)) (by decide +kernel)

end OB
