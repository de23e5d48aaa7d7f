import Verif.Model.TsNative
import Verif.Proofs.TsTrade
import Verif.Proofs.Reach
import Verif.Proofs.Exact
import Verif.Props.C53_Wallets
import Verif.Props.C73_Exact
import Verif.Props.Scenario
/-!
C100  `depositNativeIx` of the TypeScript library deposits SOL.

It does not: it wraps SOL into a new token account, but deposits from another token account that the caller names, and unwraps the SOL again.
-/
namespace OB
open Spec TsNative

variable {s s' : State} {a : OOA} {oo userBase userQuote w native : Pubkey} {base quote rent now : Int} {keys : List Pubkey}

section lemmas
theorem native_lamports {k : Pubkey} {x : Int} (h : externalLamports s k x = .ok s') :
    s' = { s with lamports := fun i => if i = k then x else s.lamports i } := by
  unfold externalLamports at h
  simp only [bind_ok, pure_ok] at h
  obtain ⟨_, _, h⟩ := h
  exact h.symm

theorem native_token {k : Pubkey} {t : TokenAcct} (h : externalToken s k t = .ok s') :
    s' = { s with tokens := fun i => if i = k then t else s.tokens i } := by
  unfold externalToken at h
  simp only [bind_ok, pure_ok] at h
  obtain ⟨_, _, _, _, h⟩ := h
  exact h.symm

/-- The state in which the deposit runs, and the state after it. -/
theorem native_inv (h : depositNative s a oo userBase userQuote w native base quote rent now keys = .ok s') :
    ∃ s1 s2, w ≠ a.owner ∧ base + 10000000 ≤ s.lamports a.owner ∧ s1.g = s.g ∧ s1.book = s.book ∧ s1.marketKey = s.marketKey ∧
      (∀ k, k ≠ w → s1.tokens k = s.tokens k) ∧
      s1.lamports a.owner = s.lamports a.owner - (base + 10000000) ∧ s1.lamports w = base + 10000000 ∧
      (∀ k, k ≠ w → k ≠ a.owner → s1.lamports k = s.lamports k) ∧
      deposit s1 a.owner oo userBase userQuote now base quote = .ok s2 ∧
      s'.g = s2.g ∧ s'.book = s2.book ∧ (∀ k, k ≠ w → s'.tokens k = s2.tokens k) ∧
      s'.lamports a.owner = s2.lamports a.owner + s2.lamports w ∧ s'.lamports w = 0 ∧ (∀ k, k ≠ w → k ≠ a.owner → s'.lamports k = s2.lamports k) := by
  unfold depositNative openWrapped closeWrapped at h
  simp only [bind_ok, req_ok] at h
  obtain ⟨_, _, s1, ⟨_, ⟨_, _, hw⟩, _, h2, _, _, sa, ha, sb, hb, hc⟩, s2, h3, _, _, sd, hd, se, he, hf⟩ := h
  have hdep : deposit s1 a.owner oo userBase userQuote now base quote = .ok s2 := (run_inv h3).2
  have ea := native_lamports ha
  have eb := native_lamports hb
  have ec := native_token hc
  have ed := native_lamports hd
  have ee := native_lamports he
  have ef := native_token hf
  refine ⟨s1, s2, hw, h2, by rw [ec, eb, ea], by rw [ec, eb, ea], by rw [ec, eb, ea], ?_, ?_, ?_, ?_, hdep, by rw [ef, ee, ed], by rw [ef, ee, ed], ?_, ?_, ?_, ?_⟩
  · intro k hk; rw [ec]; simp only [if_neg hk]; rw [eb, ea]
  · rw [ec, eb, ea]; simp only [if_neg (Ne.symm hw), if_true]
  · rw [ec, eb, ea]; simp only [if_true]
  · intro k h1 h2; rw [ec, eb, ea]; simp only [if_neg h1, if_neg h2]
  · intro k hk; rw [ef]; simp only [if_neg hk]; rw [ee, ed]
  · rw [ef, ee, ed]; simp only [if_neg (Ne.symm hw), if_true]
  · rw [ef, ee, ed]; simp only [if_true]
  · intro k h1 h2; rw [ef, ee, ed]; simp only [if_neg h1, if_neg h2]

end lemmas

/-- The account is credited with the amounts asked for, nothing else of the market changes, and the token accounts that the caller named have
paid.  What is missing for the full property is that the SOL of the owner pays, see `C100_sol_kept`. -/
theorem C100_credited_partial (h : depositNative s a oo userBase userQuote w native base quote rent now keys = .ok s')
    (hb : userBase ≠ w ∧ userBase ≠ s.g.market.marketBaseVault ∧ userBase ≠ userQuote ∧ userBase ≠ s.g.market.marketQuoteVault)
    (hq : userQuote ≠ w ∧ userQuote ≠ s.g.market.marketQuoteVault ∧ userQuote ≠ s.g.market.marketBaseVault) :
    (∃ x y, s.g.accts.get? oo = some x ∧ s'.g.accts.get? oo = some y ∧
      y.position.baseFreeNative = x.position.baseFreeNative + base ∧ y.position.quoteFreeNative = x.position.quoteFreeNative + quote) ∧
    (∀ k, k ≠ oo → s'.g.accts.get? k = s.g.accts.get? k) ∧ s'.book = s.book ∧ s'.g.heap = s.g.heap ∧
    (s'.tokens userBase).amount = (s.tokens userBase).amount - base ∧ (s'.tokens userQuote).amount = (s.tokens userQuote).amount - quote := by
  obtain ⟨s1, s2, hw, hl, hg, hbk, hmk, ht, _, _, _, hd, eg, ebk, et, _⟩ := native_inv h
  obtain ⟨P⟩ := deposit_inv hd
  have hres := P.res
  refine ⟨⟨P.a, { P.a with position := { P.a.position with
    baseFreeNative := P.a.position.baseFreeNative + base, quoteFreeNative := P.a.position.quoteFreeNative + quote } },
    by rw [← hg]; exact P.acct, ?_, rfl, rfl⟩, ?_, ?_, ?_, ?_, ?_⟩
  · rw [eg, congrArg State.g hres]; exact Accts.get?_set_self _ P.acct
  · intro k hk
    rw [eg, congrArg State.g hres, ← hg]; exact Accts.get?_set_ne _ hk
  · rw [ebk, congrArg State.book hres, hbk]
  · rw [eg, congrArg State.g hres, ← hg]
  · have e1 := (tokenTransfer_spec P.tr1 P.b0 userBase).2.2
    have e2 := (tokenTransfer_spec P.tr2 P.q0 userBase).2.2
    rw [et _ hb.1, congrArg State.tokens hres]
    rw [hg] at e1 e2
    rw [if_neg hb.2.1, if_pos rfl, ht _ hb.1] at e1
    rw [if_neg hb.2.2.2, if_neg hb.2.2.1] at e2
    simp only; omega
  · have e1 := (tokenTransfer_spec P.tr1 P.b0 userQuote).2.2
    have e2 := (tokenTransfer_spec P.tr2 P.q0 userQuote).2.2
    rw [et _ hq.1, congrArg State.tokens hres]
    rw [hg] at e1 e2
    rw [if_neg hq.2.2, if_neg (Ne.symm hb.2.2.1), ht _ hq.1] at e1
    rw [if_neg hq.2.1, if_pos rfl] at e2
    simp only; omega

/-- Nobody's lamports change: the owner has all the SOL that they had before. -/
theorem C100_sol_kept (h : depositNative s a oo userBase userQuote w native base quote rent now keys = .ok s') (hw0 : s.lamports w = 0) (k : Pubkey) :
    s'.lamports k = s.lamports k := by
  obtain ⟨s1, s2, hw, hl, hg, hbk, hmk, ht, l1, l2, l3, hd, eg, ebk, et, m1, m2, m3⟩ := native_inv h
  obtain ⟨P⟩ := deposit_inv hd
  have hlam : s2.lamports = s1.lamports := by rw [P.res]
  by_cases e1 : k = w
  · rw [e1, m2, hw0]
  · by_cases e2 : k = a.owner
    · rw [e2, m1, hlam, l1, l2]; omega
    · rw [m3 k e1 e2, hlam, l3 k e1 e2]

/-- Without enough wrapped SOL in the token account that the caller names the transaction is refused, however much SOL the owner has.  The
caller cannot name `w`: the function makes this key after they called it. -/
theorem C100_refused (hb : 0 < base) (hu : (s.tokens userBase).amount < base) (hw : userBase ≠ w) :
    depositNative s a oo userBase userQuote w native base quote rent now keys ≠ .ok s' := by
  intro h
  obtain ⟨s1, s2, _, _, hg, hbk, hmk, ht, _, _, _, hd, _⟩ := native_inv h
  obtain ⟨P⟩ := deposit_inv hd
  have := (transfer_needs P.tr1 hb).2
  rw [ht _ hw] at this
  omega

/-- Nevertheless the owner must have the SOL, and 0.01 more, below the largest number of lamports that the library can send; and it must pay
the rent of the token account. -/
theorem C100_needs_sol (h : depositNative s a oo userBase userQuote w native base quote rent now keys = .ok s') :
    base + 10000000 ≤ s.lamports a.owner ∧ base + 10000000 < 2 ^ 53 ∧ rent ≤ base + 10000000 := by
  unfold depositNative openWrapped at h
  simp only [bind_ok, req_ok] at h
  obtain ⟨_, h1, _, ⟨_, _, _, h2, _, h3, _⟩, _⟩ := h
  exact ⟨h2, h1, h3⟩

/-- No token account but those that the caller named and the vaults is changed; that of the new key is gone again. -/
theorem C100_tokens_kept (h : depositNative s a oo userBase userQuote w native base quote rent now keys = .ok s')
    (hw0 : s.tokens w = { owner := 0, mint := 0, amount := 0 }) {k : Pubkey} (hb : k ≠ userBase ∧ k ≠ s.g.market.marketBaseVault)
    (hq : k ≠ userQuote ∧ k ≠ s.g.market.marketQuoteVault) : s'.tokens k = s.tokens k := by
  by_cases hk : k = w
  · unfold depositNative closeWrapped at h
    simp only [bind_ok, req_ok] at h
    obtain ⟨_, _, _, _, _, _, _, _, _, _, _, _, hf⟩ := h
    rw [native_token hf, hk, hw0]
    simp only [if_true]
  · obtain ⟨s1, s2, _, _, hg, _, _, ht, _, _, _, hd, _, _, et, _⟩ := native_inv h
    obtain ⟨P⟩ := deposit_inv hd
    obtain ⟨a1, a2, a3⟩ := tokenTransfer_spec P.tr1 P.b0 k
    obtain ⟨b1, b2, b3⟩ := tokenTransfer_spec P.tr2 P.q0 k
    rw [hg, if_neg hb.2, if_neg hb.1] at a3
    rw [hg, if_neg hq.2, if_neg hq.1] at b3
    rw [et k hk, congrArg State.tokens P.res, ← ht k hk]
    generalize hx : s1.tokens k = x at *
    simp only
    rcases hy : P.t2 k with ⟨o, m, n⟩
    rw [hy] at b1 b2 b3
    simp only at b1 b2 b3
    rw [b1, b2, b3, a1, a2, a3]
    simp

/-- When the transaction goes through, if the new key is that of no account: exactly when the owner signs and has the SOL, and the program takes
the deposit from the token accounts that the caller named (C73). -/
theorem C100_accepted (hr : Reachable s) (hb : 0 ≤ base) (hq : 0 ≤ quote ∧ quote ≤ u64Max) (hn : 0 ≤ rent)
    (hs : a.owner ≠ s.g.market.marketAuthority) (hk : a.owner ≠ s.marketKey) (hl : s.lamports a.owner ≤ u64Max)
    (hw0 : (s.tokens w).mint = 0 ∧ s.lamports w = 0)
    (hw : w ∉ [a.owner, s.marketKey, s.g.market.marketBaseVault, s.g.market.marketQuoteVault, userBase, userQuote])
    (hf : SupplyFits s [s.g.market.marketBaseVault, s.g.market.marketQuoteVault, userBase, userQuote]) :
    (∃ s', depositNative s a oo userBase userQuote w native base quote rent now keys = .ok s') ↔
      (base + 10000000 < 2 ^ 53 ∧ base + 10000000 ≤ s.lamports a.owner ∧ rent ≤ base + 10000000 ∧ a.owner ∈ keys) ∧
      s.closed = false ∧ ¬ Ended s now ∧ (∃ b, s.g.accts.get? oo = some b) ∧ (s.tokens userBase).mint = s.g.market.baseMint ∧
      (s.tokens userQuote).mint = s.g.market.quoteMint ∧ CanPay s a.owner userBase base ∧ CanPay s a.owner userQuote quote := by
  simp only [List.mem_cons, List.not_mem_nil, or_false, not_or] at hw
  obtain ⟨w1, w2, w3, w4, w5, w6⟩ := hw
  have hnv : ∀ t : State, t.g = s.g → t.g.market.isMarketVault w = false := by
    intro t ht; unfold Market.isMarketVault; rw [ht]; simp [w3, w4]
  by_cases hpre : base + 10000000 < 2 ^ 53 ∧ base + 10000000 ≤ s.lamports a.owner ∧ rent ≤ base + 10000000 ∧ a.owner ∈ keys
  swap
  · refine ⟨fun ⟨s', h⟩ => absurd ?_ hpre, fun h => absurd h.1 hpre⟩
    obtain ⟨h1, h2, h3⟩ := C100_needs_sol h
    unfold depositNative at h
    simp only [bind_ok] at h
    obtain ⟨_, _, s1, _, s2, h4, _⟩ := h
    exact ⟨h2, h1, h3, (run_inv h4).1 _ (by simp [Sent.tsDeposit])⟩
  obtain ⟨p1, p2, p3, p4⟩ := hpre
  -- the token account is made
  obtain ⟨sa, ha⟩ : ∃ t, externalLamports s a.owner (s.lamports a.owner - (base + 10000000)) = .ok t :=
    ⟨_, by unfold externalLamports; rw [req_true ⟨by omega, by omega, fun h => absurd h.1 hk⟩]; rfl⟩
  have ea := native_lamports ha
  obtain ⟨sb, hsb⟩ : ∃ t, externalLamports sa w (base + 10000000) = .ok t :=
    ⟨_, by unfold externalLamports; rw [req_true ⟨by omega, by unfold u64Max; omega, fun h => absurd (h.1.trans (by rw [ea])) w2⟩]; rfl⟩
  have eb := native_lamports hsb
  obtain ⟨s1, h1⟩ : ∃ t, externalToken sb w { owner := a.owner, mint := native, amount := base + 10000000 - rent } = .ok t :=
    ⟨_, by
      unfold externalToken
      rw [req_true ⟨by dsimp only; omega, by dsimp only; unfold u64Max; omega⟩,
        req_true (fun h => by rw [hnv sb (by rw [eb, ea])] at h; cases h)]
      rfl⟩
  have e1 := native_token h1
  have ho : openWrapped s a.owner w native (base + 10000000) rent = .ok s1 := by
    unfold openWrapped
    simp only [bind_ok, req_ok]
    exact ⟨(), ⟨hw0.1, hw0.2, w1⟩, (), p2, (), p3, sa, ha, sb, hsb, h1⟩
  have hr1 : Reachable s1 :=
    .step _ _ (.externalToken _ _) (.step _ _ (.externalLamports _ _) (.step _ _ (.externalLamports _ _) hr ha) hsb) h1
  have g1 : s1.g = s.g := by rw [e1, eb, ea]
  have c1 : s1.closed = s.closed := by rw [e1, eb, ea]
  have k1 : s1.marketKey = s.marketKey := by rw [e1, eb, ea]
  have t1 : ∀ k, k ≠ w → s1.tokens k = s.tokens k := by intro k h; rw [e1]; simp only [if_neg h]; rw [eb, ea]
  have hf1 : SupplyFits s1 [s1.g.market.marketBaseVault, s1.g.market.marketQuoteVault, userBase, userQuote] := by
    have hne : ∀ i ∈ [s.g.market.marketBaseVault, s.g.market.marketQuoteVault, userBase, userQuote], s1.tokens i = s.tokens i := by
      intro i hi
      simp only [List.mem_cons, List.not_mem_nil, or_false] at hi
      rcases hi with rfl | rfl | rfl | rfl
      · exact t1 _ (Ne.symm w3)
      · exact t1 _ (Ne.symm w4)
      · exact t1 _ (Ne.symm w5)
      · exact t1 _ (Ne.symm w6)
    rw [g1]
    unfold SupplyFits tokens at hf ⊢
    refine ⟨fun i hi => by rw [hne i hi]; exact hf.1 i hi, fun i hi j hj => ?_⟩
    rw [hne i hi, hne j hj]
    exact hf.2 i hi j hj
  have key := C73_deposit s1 hr1 a.owner oo userBase userQuote now base quote ⟨hb, by unfold u64Max; omega⟩ hq (by rw [g1]; exact hs) hf1
  unfold Ended CanPay tokens at key ⊢
  rw [c1, g1, t1 _ (Ne.symm w5), t1 _ (Ne.symm w6)] at key
  rw [← key]
  constructor
  · rintro ⟨s', h⟩
    refine ⟨⟨p1, p2, p3, p4⟩, ?_⟩
    unfold depositNative at h
    simp only [bind_ok] at h
    obtain ⟨_, _, s1', h2, s2, h3, _⟩ := h
    rw [ho] at h2; cases h2
    exact ⟨s2, (run_inv h3).2⟩
  · rintro ⟨-, s2, h2⟩
    have hd : deposit s1 a.owner oo userBase userQuote now base quote = .ok s2 := h2
    obtain ⟨P⟩ := deposit_inv hd
    have l2 : s2.lamports = s1.lamports := by rw [P.res]
    have m2 : s2.g.market.isMarketVault w = false := by
      rw [P.res]
      have := hnv s1 g1
      unfold Market.isMarketVault at this ⊢
      exact this
    have k2 : s2.marketKey = s.marketKey := by rw [P.res]; exact k1
    have lo : s1.lamports a.owner = s.lamports a.owner - (base + 10000000) := by
      rw [e1, eb, ea]; simp only [if_neg (Ne.symm w1), if_true]
    have lw : s1.lamports w = base + 10000000 := by rw [e1, eb]; simp only [if_true]
    have ow : (s2.tokens w).owner = a.owner := by
      rw [(C53_signed hr1 h2 rfl w).1, e1]
      simp only [if_true]
    obtain ⟨sd, hsd⟩ : ∃ t, externalLamports s2 a.owner (s2.lamports a.owner + s2.lamports w) = .ok t :=
      ⟨_, by
        unfold externalLamports
        rw [req_true ⟨by rw [l2, lo, lw]; omega, by rw [l2, lo, lw]; omega, fun h => absurd (h.1.trans k2) hk⟩]
        rfl⟩
    have ed := native_lamports hsd
    obtain ⟨se, hse⟩ : ∃ t, externalLamports sd w 0 = .ok t :=
      ⟨_, by
        unfold externalLamports
        rw [req_true ⟨by omega, by decide, fun h => absurd (h.1.trans (by rw [ed]; exact k2)) w2⟩]
        rfl⟩
    have ee := native_lamports hse
    obtain ⟨s', h'⟩ : ∃ t, externalToken se w { owner := 0, mint := 0, amount := 0 } = .ok t :=
      ⟨_, by
        unfold externalToken
        rw [req_true ⟨by decide, by decide⟩, req_true (fun h => by rw [ee, ed] at h; dsimp only at h; rw [m2] at h; cases h)]
        rfl⟩
    refine ⟨s', ?_⟩
    unfold depositNative closeWrapped
    simp only [bind_ok, req_ok]
    exact ⟨(), p1, s1, ho, s2, run_ok (by simpa [Sent.tsDeposit] using p4) h2, (), ow, sd, hsd, se, hse, h'⟩

/-! Cases: the base mint 10 is that of wrapped SOL, key pair 900; the trader has SOL. -/
namespace NativeCase
open Scenario

/-- Deposits 1000 and 500: token accounts 51 and 61 pay. -/
example : ∃ (s s' : State) (a : OOA), Reachable s ∧ depositNative s a 41 51 61 900 10 1000 500 2039280 1000 [31] = .ok s' ∧
    (51 ≠ 900 ∧ 51 ≠ s.g.market.marketBaseVault ∧ 51 ≠ 61 ∧ 51 ≠ s.g.market.marketQuoteVault) ∧
    (61 ≠ 900 ∧ 61 ≠ s.g.market.marketQuoteVault ∧ 61 ≠ s.g.market.marketBaseVault) ∧ s.lamports 900 = 0 := by
  obtain ⟨s, h1, h2⟩ := Scenario.exec_spec (a := Scenario.args) (ops := Scenario.ops0 ++ [.externalLamports 31 1000000000, .externalLamports 900 0])
    (p := fun s => decide (
      (∃ a, a ∈ s.g.accts.get? 41 ∧ okAnd (depositNative s a 41 51 61 900 10 1000 500 2039280 1000 [31]) (fun _ => true) = true) ∧
      s.g.market.marketBaseVault = 20 ∧ s.g.market.marketQuoteVault = 21 ∧ s.lamports 900 = 0)) (by decide +kernel)
  obtain ⟨⟨a, _, h3⟩, g1, g2, g3⟩ := of_decide_eq_true h2
  obtain ⟨s', h4, _⟩ := okAnd_spec h3
  exact ⟨s, s', a, h1, h4, by rw [g1, g2]; decide, by rw [g1, g2]; decide, g3⟩

/-- The new key is that of no account, and the other amounts are in range. -/
example : ∃ (s : State) (a : OOA), Reachable s ∧ a.owner = 31 ∧ a.owner ≠ s.g.market.marketAuthority ∧ a.owner ≠ s.marketKey ∧
    s.lamports a.owner ≤ u64Max ∧ ((s.tokens 900).mint = 0 ∧ s.lamports 900 = 0) ∧
    900 ∉ [a.owner, s.marketKey, s.g.market.marketBaseVault, s.g.market.marketQuoteVault, 51, 61] ∧
    SupplyFits s [s.g.market.marketBaseVault, s.g.market.marketQuoteVault, 51, 61] := by
  obtain ⟨s, h1, h2⟩ := Scenario.exec_spec (a := Scenario.args) (ops := Scenario.ops0 ++ [.externalLamports 31 1000000000, .externalLamports 900 0])
    (p := fun s => decide (∃ a, a ∈ s.g.accts.get? 41 ∧ (a.owner = 31 ∧ a.owner ≠ s.g.market.marketAuthority ∧ a.owner ≠ s.marketKey ∧
      s.lamports a.owner ≤ u64Max ∧ ((s.tokens 900).mint = 0 ∧ s.lamports 900 = 0) ∧
      900 ∉ [a.owner, s.marketKey, s.g.market.marketBaseVault, s.g.market.marketQuoteVault, 51, 61] ∧
      ((∀ i ∈ [s.g.market.marketBaseVault, s.g.market.marketQuoteVault, 51, 61], 0 ≤ (s.tokens i).amount) ∧
        ∀ i ∈ [s.g.market.marketBaseVault, s.g.market.marketQuoteVault, 51, 61],
          ∀ j ∈ [s.g.market.marketBaseVault, s.g.market.marketQuoteVault, 51, 61], i ≠ j → (s.tokens i).mint = (s.tokens j).mint →
            (s.tokens i).amount + (s.tokens j).amount ≤ u64Max)))) (by decide +kernel)
  obtain ⟨a, _, g⟩ := of_decide_eq_true h2
  exact ⟨s, a, h1, g⟩

/-- The same with a rent that takes all the SOL that is sent along. -/
example : ∃ (s s' : State) (a : OOA), Reachable s ∧ depositNative s a 41 51 61 900 10 1000 500 10001000 1000 [31] = .ok s' ∧
    s.tokens 900 = { owner := 0, mint := 0, amount := 0 } ∧ s.lamports 31 = 10001000 := by
  obtain ⟨s, h1, h2⟩ := Scenario.exec_spec (a := Scenario.args) (ops := Scenario.ops0 ++ [.externalLamports 31 10001000, .externalLamports 900 0])
    (p := fun s => decide (
      (∃ a, a ∈ s.g.accts.get? 41 ∧ okAnd (depositNative s a 41 51 61 900 10 1000 500 10001000 1000 [31]) (fun _ => true) = true) ∧
      s.tokens 900 = { owner := 0, mint := 0, amount := 0 } ∧ s.lamports 31 = 10001000)) (by decide +kernel)
  obtain ⟨⟨a, _, h3⟩, g1, g2⟩ := of_decide_eq_true h2
  obtain ⟨s', h4, _⟩ := okAnd_spec h3
  exact ⟨s, s', a, h1, h4, g1, g2⟩

/-- The trader has a thousand SOL and wants to deposit one, but has less than one wrapped. -/
example : ∃ (s : State) (a : OOA), Reachable s ∧ s.g.accts.get? 41 = some a ∧ a.owner = 31 ∧ s.lamports 31 = 1000000000000 ∧
    ∀ s', depositNative s a 41 51 61 900 10 1000000000 0 2039280 1000 [31] ≠ .ok s' := by
  obtain ⟨s, h1, h2⟩ := Scenario.exec_spec (a := Scenario.args) (ops := Scenario.ops0 ++ [.externalLamports 31 1000000000000])
    (p := fun s => decide ((∃ a, a ∈ s.g.accts.get? 41 ∧ a.owner = 31) ∧ s.lamports 31 = 1000000000000 ∧ (s.tokens 51).amount < 1000000000))
    (by decide +kernel)
  obtain ⟨⟨a, g1, g2⟩, g3, g4⟩ := of_decide_eq_true h2
  exact ⟨s, a, h1, g1, g2, g3, fun s' => C100_refused (by decide) g4 (by decide)⟩

end NativeCase
end OB
