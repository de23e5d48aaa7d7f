import Mathlib.Algebra.Order.BigOperators.Group.Finset
import Verif.Spec.World
import Verif.Props.WorldScenario
import Verif.Props.C13_Conservation
/-!
C55 — Markets do not interfere.
-/
namespace OB
open Spec

/-- However the operations on all markets, indexers and accounts are interleaved, each market is in a state that it could have reached
on its own.  So everything proved of reachable states of one market holds of each market of a deployment, all at the same time. -/
theorem C55_refines {A : Addresses} {w : World} (hr : WReachable A w) {k : Pubkey} {p : Part} (hp : w.markets k = some p) :
    Reachable { g := p.g, book := p.book, tokens := w.tokens, lamports := w.lamports, marketKey := k, closed := p.closed } :=
  ((wreachable_WInv hr).mkt k p hp).1

/-- Different markets have different authorities, and no vault of one is a vault of the other, even if they trade the same tokens. -/
theorem C55_disjoint {A : Addresses} {w : World} (hr : WReachable A w) {j k : Pubkey} {p q : Part} (hj : w.markets j = some p)
    (hk : w.markets k = some q) (hne : j ≠ k) :
    p.g.market.marketAuthority ≠ q.g.market.marketAuthority ∧
    p.g.market.marketBaseVault ≠ q.g.market.marketBaseVault ∧ p.g.market.marketBaseVault ≠ q.g.market.marketQuoteVault ∧
    p.g.market.marketQuoteVault ≠ q.g.market.marketBaseVault ∧ p.g.market.marketQuoteVault ≠ q.g.market.marketQuoteVault := by
  have h := wreachable_WInv hr
  obtain ⟨_, a1, a2, a3, _⟩ := h.mkt j p hj
  obtain ⟨_, b1, b2, b3, _⟩ := h.mkt k q hk
  have key : ∀ m m', A.vault (A.authority j) m ≠ A.vault (A.authority k) m' :=
    fun m m' e => hne (A.authority_inj (A.vault_inj e).1)
  rw [a1, a2, a3, b1, b2, b3]
  exact ⟨fun e => hne (A.authority_inj e), key _ _, key _ _, key _ _, key _ _⟩

/-- An operation that is for another market, or for none, changes nothing of a market: book, event heap, market account and open
orders accounts stay as they are, and its vaults, and its lamports while it is open, are not reduced. -/
theorem C55_untouched {A : Addresses} {w w' : World} (hr : WReachable A w) {op : WOp} (h : w.step A op = .ok w') {j : Pubkey}
    {p : Part} (hj : w.markets j = some p) (hne : concerns w op ≠ some j) :
    w'.markets j = some p ∧ (p.closed = false → w.lamports j ≤ w'.lamports j) ∧
    ∀ v, v = p.g.market.marketBaseVault ∨ v = p.g.market.marketQuoteVault →
      (w'.tokens v).owner = (w.tokens v).owner ∧ (w'.tokens v).mint = (w.tokens v).mint ∧
      (w.tokens v).amount ≤ (w'.tokens v).amount := by
  have hi := wreachable_WInv hr
  have hvault : ∀ v, v = p.g.market.marketBaseVault ∨ v = p.g.market.marketQuoteVault → p.g.market.isMarketVault v = true := by
    intro v hv; unfold Market.isMarketVault; rcases hv with e | e <;> simp [e]
  have same : ∀ {t : Tokens} {l : Lamports}, t = w.tokens → l = w.lamports → (p.closed = false → w.lamports j ≤ l j) ∧
      ∀ v, v = p.g.market.marketBaseVault ∨ v = p.g.market.marketQuoteVault →
        (t v).owner = (w.tokens v).owner ∧ (t v).mint = (w.tokens v).mint ∧ (w.tokens v).amount ≤ (t v).amount := by
    rintro _ _ rfl rfl; exact ⟨fun _ => Int.le_refl _, fun _ _ => ⟨rfl, rfl, Int.le_refl _⟩⟩
  cases op with
  | market k op =>
    have hne : j ≠ k := fun e => hne (by rw [e]; rfl)
    obtain ⟨q, s, h1, h2, h3, h4, h5, rfl⟩ := onMarket_inv h
    have hf := step_frame (reachable_Inv (hi.mkt k q h3).1) h4 (plain_external h1)
    obtain ⟨o1, o2⟩ := hi.others h2 h3 hf h5
    exact ⟨by rw [put_markets_ne w s hne]; exact hj, o2 j p hne hj, fun v hv => o1 j p v hne hj (hvault v hv)⟩
  | createMarket a now =>
    have hne : j ≠ a.marketKey := fun e => hne (by rw [e]; rfl)
    obtain ⟨s, _, _, _, _, h6, h7, h8, rfl⟩ := newMarket_inv h
    obtain ⟨_, _, hs⟩ := hi.newMarket_state h8
    refine ⟨by rw [put_markets_ne w s hne]; exact hj, ?_, fun v hv => ?_⟩
    · intro _; show w.lamports j ≤ s.lamports j; rw [hs]
    · obtain ⟨_, v2⟩ := hi.vault hj (hvault v hv)
      have n1 : v ≠ a.baseVault := fun e => v2 (by rw [e]; exact h6)
      have n2 : v ≠ a.quoteVault := fun e => v2 (by rw [e]; exact h7)
      have e : s.tokens v = w.tokens v := by rw [hs]; simp only [if_neg n1, if_neg n2]
      show (s.tokens v).owner = _ ∧ (s.tokens v).mint = _ ∧ _ ≤ (s.tokens v).amount
      rw [e]; exact ⟨rfl, rfl, Int.le_refl _⟩
  | createIndexer o =>
    obtain ⟨_, _, rfl⟩ := createIndexer_inv h
    exact ⟨hj, same rfl rfl⟩
  | closeIndexer o =>
    obtain ⟨_, _, _, _, rfl⟩ := closeIndexer_inv h
    exact ⟨hj, same rfl rfl⟩
  | createOO k o d =>
    have hne : j ≠ k := fun e => hne (by rw [e]; rfl)
    obtain ⟨ix, q, s, _, _, _, _, _, _, h7, rfl⟩ := wcreateOO_inv h
    obtain ⟨_, _, _, hs⟩ := createOO_inv h7
    refine ⟨?_, same (by show s.tokens = _; rw [hs]; rfl) (by show s.lamports = _; rw [hs]; rfl)⟩
    show (w.put k s).markets j = _
    rw [put_markets_ne w s hne]; exact hj
  | closeOO x o =>
    obtain ⟨ix, k, q, s, _, _, _, h4, _, h6, _, rfl⟩ := wcloseOO_inv h
    have hne : j ≠ k := fun e => hne (by rw [e]; exact h4)
    obtain ⟨_, _, _, _, hs⟩ := closeOO_inv h6
    refine ⟨?_, same (by show s.tokens = _; rw [hs]; rfl) (by show s.lamports = _; rw [hs]; rfl)⟩
    show (w.put k s).markets j = _
    rw [put_markets_ne w s hne]; exact hj
  | externalToken k t =>
    obtain ⟨_, h2, rfl⟩ := wexternalToken_inv h
    refine ⟨hj, fun _ => Int.le_refl _, fun v hv => ?_⟩
    by_cases e : v = k
    · subst e
      simp only [if_true]
      obtain ⟨v1, v2⟩ := hi.vault hj (hvault v hv)
      exact h2 ⟨v2, by rw [v1]; exact A.authority_pda j⟩
    · simp only [if_neg e]; exact ⟨trivial, trivial, Int.le_refl _⟩
  | externalLamports k x =>
    obtain ⟨_, h2, rfl⟩ := wexternalLamports_inv h
    refine ⟨hj, ?_, fun v hv => ⟨rfl, rfl, Int.le_refl _⟩⟩
    intro ho
    simp only
    by_cases e : j = k
    · subst e; rw [if_pos rfl]; exact h2 (by unfold World.isOpen; rw [hj]; simp [ho])
    · rw [if_neg e]

/-- Every market can pay out its deposits in full, all markets at the same time: the vaults are different accounts, and each holds at
least what its market owes. -/
theorem C55_solvent {A : Addresses} {w : World} (hr : WReachable A w) (K : Finset Pubkey) (P : Pubkey → Part)
    (hP : ∀ k ∈ K, w.markets k = some (P k)) (mint : Pubkey) :
    let V := K.image (fun k => (P k).g.market.marketBaseVault) ∪ K.image (fun k => (P k).g.market.marketQuoteVault)
    ∑ k ∈ K, ((if (P k).g.market.baseMint = mint then (P k).g.market.baseDepositTotal else 0) +
        (if (P k).g.market.quoteMint = mint then (P k).g.market.quoteDepositTotal else 0)) ≤
      ∑ v ∈ V with (w.tokens v).mint = mint, (w.tokens v).amount := by
  intro V
  have hs : ∀ k ∈ K, _ := fun k hk => C15_vaults_solvent _ (C55_refines hr (hP k hk))
  have inj : ∀ j ∈ K, ∀ k ∈ K, j ≠ k → _ := fun j hj k hk => C55_disjoint hr (hP j hj) (hP k hk)
  have hd : Disjoint (K.image (fun k => (P k).g.market.marketBaseVault)) (K.image (fun k => (P k).g.market.marketQuoteVault)) := by
    rw [Finset.disjoint_left]
    intro v h1 h2
    obtain ⟨j, hj, rfl⟩ := Finset.mem_image.mp h1
    obtain ⟨k, hk, e⟩ := Finset.mem_image.mp h2
    by_cases c : j = k
    · subst c; exact (hs j hj).2.2.1 e.symm
    · exact (inj j hj k hk c).2.2.1 e.symm
  rw [Finset.sum_filter]
  show _ ≤ ∑ v ∈ _ ∪ _, _
  rw [Finset.sum_union hd, Finset.sum_image, Finset.sum_image, ← Finset.sum_add_distrib]
  · refine Finset.sum_le_sum (fun k hk => ?_)
    obtain ⟨s1, s2, _, s4, s5, _⟩ := hs k hk
    rw [show (w.tokens (P k).g.market.marketBaseVault).mint = _ from s4,
      show (w.tokens (P k).g.market.marketQuoteVault).mint = _ from s5]
    have s1 : (P k).g.market.baseDepositTotal ≤ (w.tokens (P k).g.market.marketBaseVault).amount := s1
    have s2 : (P k).g.market.quoteDepositTotal ≤ (w.tokens (P k).g.market.marketQuoteVault).amount := s2
    split <;> split <;> omega
  · intro j hj k hk e
    by_contra c; exact (inj j hj k hk c).2.2.2.2 e
  · intro j hj k hk e
    by_contra c; exact (inj j hj k hk c).2.1 e

namespace Scenario

/-- Two markets with deposits in both, of which trader 7 trades in one. -/
example : ∃ w w' p q, WReachable addrs w ∧ w.step addrs (wplace 15 7 1 .bid 1010 2 2) = .ok w' ∧ w.markets 19 = some p ∧
    w.markets 15 = some q ∧ concerns w (wplace 15 7 1 .bid 1010 2 2) ≠ some 19 ∧
    p.g.market.baseDepositTotal = 400 ∧ q.g.market.baseDepositTotal = 500 := by
  obtain ⟨w, h1, h2⟩ := wexec_spec (ops := wops.take 11) (p := fun w =>
    okAnd (w.step addrs (wplace 15 7 1 .bid 1010 2 2)) (fun _ => true) &&
    (w.markets 19).any (fun p => p.g.market.baseDepositTotal = 400) && (w.markets 15).any (fun p => p.g.market.baseDepositTotal = 500))
    (by decide +kernel)
  simp only [Bool.and_eq_true] at h2
  obtain ⟨w', hw', _⟩ := okAnd_spec h2.1.1
  obtain ⟨p, hp, ep⟩ := Option.any_eq_true _ _ |>.mp h2.1.2
  obtain ⟨q, hq, eq⟩ := Option.any_eq_true _ _ |>.mp h2.2
  exact ⟨w, w', p, q, h1, hw', hp, hq, (by intro e; cases e), of_decide_eq_true ep, of_decide_eq_true eq⟩

end Scenario

end OB
