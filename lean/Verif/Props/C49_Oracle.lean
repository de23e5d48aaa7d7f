import Verif.Proofs.Oracle
import Verif.Props.C50_Frozen
/-!
C49  Oracle prices are used only when every oracle is fresh and certain.
-/
namespace OB
open Spec

/-- A price comes only from oracles that were updated within the configured number of slots. -/
theorem C49_fresh {m : Market} {i : OracleInfo} {a b : OraclePassed} {slot t : Nat} {l : Int} {x : OracleAcc}
    (h : oraclePriceLots m i a b slot = .ok (some l)) (hx : isOracle m a b x) (ht : lastUpdate x = some t)
    (h0 : 0 ≤ i.config.maxStalenessSlots) (hn : slot < 2 ^ 64) : (slot : Int) ≤ t + i.config.maxStalenessSlots := by
  have hn : slot ≤ maxSlot := by unfold maxSlot; omega
  obtain ⟨_, _, _, h⟩ := price_cases h
  rcases h with ⟨hb, x', o, ea, hs, h1, _⟩ | ⟨hb, x', y', o, o', ea, eb, hs, hs', h1, h2, _⟩
  · rcases hx with ⟨_, e⟩ | ⟨hb', _⟩
    · rw [ea] at e; injection e with e; injection e with _ e; subst e
      exact not_stale hs h1 ht h0 hn
    · exact absurd hb hb'
  · rcases hx with ⟨_, e⟩ | ⟨_, e⟩
    · rw [ea] at e; injection e with e; injection e with _ e; subst e
      exact not_stale hs h1 ht h0 hn
    · rw [eb] at e; injection e with e; injection e with _ e; subst e
      exact not_stale hs' h2 ht h0 hn

/-- Prices of all accounts but stubs are not negative. -/
theorem state_nonneg {x : OracleAcc} {o : OracleState} {p d : Rat} (h : x.state = .ok o) (hr : reported x = some (p, d)) (hs : sane x)
    (hn : ∀ q e t, x ≠ .stub q e t) : 0 ≤ p := by
  obtain ⟨fp, fd, e1, _, r1, _⟩ := state_reported h hr hs
  rw [← r1.nonneg_iff]
  have key : o.price.nonneg = true := by
    cases x with
    | unknown => cases h
    | stub q e t => exact absurd rfl (hn q e t)
    | raydium => cases hr
    | pyth =>
      simp only [OracleAcc.state, bind_ok, req_ok, pure_ok] at h
      obtain ⟨_, _, _, h, rfl⟩ := h; exact h
    | switchboardV1 =>
      simp only [OracleAcc.state, bind_ok, req_ok, pure_ok] at h
      obtain ⟨_, h, rfl⟩ := h; exact h
    | switchboardV2 =>
      simp only [OracleAcc.state, bind_ok, req_ok, pure_ok] at h
      obtain ⟨_, _, _, _, _, h, rfl⟩ := h; exact h
  rw [e1] at key
  exact of_decide_eq_true key

/-- With one oracle: the deviation is at most the configured part of the price, up to the roundings of double arithmetic.  Missing: the
configured part may be anything, see `C49_confident_false`. -/
theorem C49_confident_partial {m : Market} {i : OracleInfo} {a b : OraclePassed} {slot : Nat} {l : Int} {x : OracleAcc} {p d c : Rat}
    (h : oraclePriceLots m i a b slot = .ok (some l)) (hb : m.oracleB = 0) (hx : isOracle m a b x) (hr : reported x = some (p, d))
    (hs : sane x) (hc : i.config.confFilter = .fin c) (c0 : 0 ≤ c) (c1 : c ≤ 2 ^ (128 : Int)) (hp : 0 ≤ p)
    (d1 : i.baseDecimals ≤ 127) (d2 : i.quoteDecimals ≤ 127) :
    d ≤ (c * p + 2 ^ (-1000 : Int)) * (1 + 2 ^ (-48 : Int)) := by
  obtain ⟨_, bits, _, h⟩ := price_cases h
  rcases h with ⟨_, x', o, ea, hst, _, h2, h3⟩ | ⟨hb', _⟩
  · rcases hx with ⟨_, e⟩ | ⟨hb', _⟩
    · rw [ea] at e; injection e with e; injection e with _ e; subst e
      obtain ⟨fp, fd, e1, e2, r1, r2⟩ := state_reported hst hr hs
      rw [e1] at h3
      obtain ⟨_, _, _, _, hfp⟩ := fixed_near ⟨d1, d2⟩ h3 (f' := fp) (by rw [sub_self, abs_zero]; positivity) r1
      unfold OracleState.hasValidConfidence at h2
      rw [e1, e2, hc, Bool.not_eq_true'] at h2
      obtain ⟨v, rv, hv⟩ := confident (by rw [abs_of_nonneg c0]; exact c1) hfp h2
      have hcp : 0 ≤ c * p := mul_nonneg c0 hp
      have ht := tiny_pos
      have h48 : (0 : Rat) < 2 ^ (-48 : Int) := by positivity
      by_cases hd : 0 ≤ d
      · have rcp : Rel (3 + 1) (c * p) v := by
          have : Rel (0 + 3) (c * p) (c * fp) := (Rel.refl c).mul r1
          exact (this.mono (by omega : 0 + 3 ≤ 3)).trans rv
        obtain ⟨t, et, t1, t2⟩ := r2
        obtain ⟨t', et', t1', t2'⟩ := rcp
        have p4 : 0 < (1 - ulp) ^ 4 := pow_pos one_sub_ulp 4
        have p4' : (1 - ulp) ^ 4 ≤ 1 := pow_le_one₀ one_sub_ulp.le (by have := ulp_pos; linarith)
        have k1 : d * (1 - ulp) ^ 3 ≤ fd := by rw [et]; exact mul_le_mul_of_nonneg_left t1 hd
        have k2 : d * (1 - ulp) ^ 3 * (1 - ulp) ^ 4 ≤ c * p + tiny := by
          calc d * (1 - ulp) ^ 3 * (1 - ulp) ^ 4 ≤ (v + tiny) * (1 - ulp) ^ 4 := mul_le_mul_of_nonneg_right (le_trans k1 hv) p4.le
            _ = c * p * (t' * (1 - ulp) ^ 4) + tiny * (1 - ulp) ^ 4 := by rw [et']; ring
            _ ≤ c * p * 1 + tiny * 1 := add_le_add (mul_le_mul_of_nonneg_left t2' hcp) (mul_le_mul_of_nonneg_left p4' ht.le)
            _ = _ := by ring
        have k3 : 1 ≤ (1 - ulp) ^ 3 * (1 - ulp) ^ 4 * (1 + 2 ^ (-48 : Int)) := by unfold ulp; norm_num
        calc d = d * 1 := by ring
          _ ≤ d * ((1 - ulp) ^ 3 * (1 - ulp) ^ 4 * (1 + 2 ^ (-48 : Int))) := mul_le_mul_of_nonneg_left k3 hd
          _ = d * (1 - ulp) ^ 3 * (1 - ulp) ^ 4 * (1 + 2 ^ (-48 : Int)) := by ring
          _ ≤ (c * p + tiny) * (1 + 2 ^ (-48 : Int)) := mul_le_mul_of_nonneg_right k2 (by linarith)
      · have : 0 ≤ (c * p + 2 ^ (-1000 : Int)) * (1 + 2 ^ (-48 : Int)) := by positivity
        linarith
    · exact absurd hb hb'
  · exact absurd hb hb'

theorem fixed_fin {i : OracleInfo} {x : F64} {b : Int} (h : fixedPrice i x = .ok (some b)) : ∃ f, x = .fin f := by
  unfold fixedPrice at h
  simp only [bind_ok, pure_ok, assertR_ok] at h
  obtain ⟨_, _, y, hy, h⟩ := h
  obtain ⟨_, v, rfl, _⟩ := power_of_ten hy
  cases x with
  | fin f => exact ⟨f, rfl⟩
  | nan => cases h
  | inf s =>
    unfold F64.mul at h
    simp only at h
    split at h <;> cases h

/-- With two oracles: the relative deviations, added as for independent errors, are at most the configured part, up to roundings.
Missing: as for one oracle; and a first price of zero passes every check, see `C49_zero_false`. -/
theorem C49_confident_both_partial {m : Market} {i : OracleInfo} {a b : OraclePassed} {slot : Nat} {l : Int} {x y : OracleAcc}
    {pa da pb db c : Rat} (h : oraclePriceLots m i a b slot = .ok (some l)) (ha : a = some (m.oracleA, x)) (hb : b = some (m.oracleB, y))
    (hb0 : m.oracleB ≠ 0) (hra : reported x = some (pa, da)) (hrb : reported y = some (pb, db)) (hsa : sane x) (hsb : sane y)
    (hc : i.config.confFilter = .fin c) (c1 : |c| ≤ 2 ^ (128 : Int)) (hpa : pa ≠ 0) :
    pb ≠ 0 ∧ (da / pa) ^ 2 + (db / pb) ^ 2 ≤ (c ^ 2 + 2 ^ (-990 : Int)) * (1 + 2 ^ (-48 : Int)) := by
  obtain ⟨_, bits, _, h⟩ := price_cases h
  rcases h with ⟨hb', _⟩ | ⟨_, x', y', o, o', ea, eb, hst, hst', _, _, h2, h3⟩
  · exact absurd hb' hb0
  · rw [ea] at ha; injection ha with ha; injection ha with _ ha; subst ha
    rw [eb] at hb; injection hb with hb; injection hb with _ hb; subst hb
    obtain ⟨fpa, fda, e1, e2, r1, r2⟩ := state_reported hst hra hsa
    obtain ⟨fpb, fdb, e3, e4, r3, r4⟩ := state_reported hst' hrb hsb
    have hfb : fpb ≠ 0 := by
      intro h0
      obtain ⟨f, hf⟩ := fixed_fin h3
      rw [e1, e3, h0] at hf
      unfold F64.div at hf
      simp only [if_true] at hf
      split at hf <;> cases hf
    have hfa : fpa ≠ 0 := fun h0 => hpa (r1.zero_iff.mp h0)
    have hpb : pb ≠ 0 := fun h0 => hfb (r3.zero_iff.mpr h0)
    refine ⟨hpb, ?_⟩
    unfold OracleState.hasValidCombinedConfidence at h2
    rw [e1, e2, e3, e4, hc, Bool.not_eq_true'] at h2
    have k := confident_both c1 hfa hfb h2
    have s1 := (r2.div r1).mul (r2.div r1)
    have s2 := (r4.div r3).mul (r4.div r3)
    obtain ⟨t, et, t1, _⟩ := s1
    obtain ⟨t', et', t1', _⟩ := s2
    rw [et, et'] at k
    have p5 : 0 < (1 - ulp) ^ 5 := pow_pos one_sub_ulp 5
    have k2 : (da / pa * (da / pa) + db / pb * (db / pb)) * (1 - ulp) ^ (3 + 3 + (3 + 3)) * (1 - ulp) ^ 5 ≤ c * c + 6 * tiny := by
      refine le_trans (mul_le_mul_of_nonneg_right ?_ p5.le) k
      rw [add_mul]
      exact add_le_add (mul_le_mul_of_nonneg_left t1 (mul_self_nonneg _)) (mul_le_mul_of_nonneg_left t1' (mul_self_nonneg _))
    have k3 : 1 ≤ (1 - ulp) ^ (3 + 3 + (3 + 3)) * (1 - ulp) ^ 5 * (1 + 2 ^ (-48 : Int)) := by unfold ulp; norm_num
    have hS : 0 ≤ da / pa * (da / pa) + db / pb * (db / pb) := add_nonneg (mul_self_nonneg _) (mul_self_nonneg _)
    have ht : 6 * tiny ≤ 2 ^ (-990 : Int) := by
      have : (2 : Rat) ^ (-990 : Int) = 2 ^ (10 : Int) * tiny := by
        unfold tiny; rw [← zpow_add₀ (by norm_num)]; norm_num
      rw [this]
      have := tiny_pos
      have e10 : (2 : Rat) ^ (10 : Int) = 1024 := by norm_num
      rw [e10]; linarith
    calc (da / pa) ^ 2 + (db / pb) ^ 2 = (da / pa * (da / pa) + db / pb * (db / pb)) * 1 := by ring
      _ ≤ (da / pa * (da / pa) + db / pb * (db / pb)) * ((1 - ulp) ^ (3 + 3 + (3 + 3)) * (1 - ulp) ^ 5 * (1 + 2 ^ (-48 : Int))) :=
        mul_le_mul_of_nonneg_left k3 hS
      _ = (da / pa * (da / pa) + db / pb * (db / pb)) * (1 - ulp) ^ (3 + 3 + (3 + 3)) * (1 - ulp) ^ 5 * (1 + 2 ^ (-48 : Int)) := by ring
      _ ≤ (c * c + 6 * tiny) * (1 + 2 ^ (-48 : Int)) := mul_le_mul_of_nonneg_right k2 (by positivity)
      _ ≤ (c ^ 2 + 2 ^ (-990 : Int)) * (1 + 2 ^ (-48 : Int)) := by
        refine mul_le_mul_of_nonneg_right ?_ (by positivity)
        rw [pow_two]; linarith

/-- An instruction that runs with oracle accounts is the instruction with the price that they give. -/
theorem stepPriced_ok {s s' : State} {i : OracleInfo} {a b : OraclePassed} {slot : Nat} {op : Op} {p : Placer}
    (h : stepPriced s i a b slot op = .ok s') (hp : placer op = some p) :
    ∃ o, oraclePriceLots s.g.market i a b slot = .ok o ∧ step s (op.withOracle o) = .ok s' ∧
      placer (op.withOracle o) = some { p with oracle := o } ∧ signers (op.withOracle o) = signers op := by
  unfold stepPriced at h
  cases op <;> simp only [placer, Option.some.injEq, reduceCtorEq] at hp <;> subst hp <;>
    (simp only [Op.usesOracle, if_true, bind_ok] at h
     obtain ⟨o, h1, h2⟩ := h
     exact ⟨o, h1, h2, rfl, rfl⟩)

/-- The pegged orders are frozen: the instruction neither fills nor places any, and those that rest stay as they are unless the owner
or delegate signs, or the time in force is over. -/
structure Frozen (s s' : State) (op : Op) (p : Placer) : Prop where
  unfilled : ∀ side l f, ¬ Fills s s' op p side .pegged l f
  unposted : ∀ side l, (side, Comp.pegged, l) ∈ s'.book.resting → (side, Comp.pegged, l) ∈ s.book.resting
  kept : ∀ side l, (side, Comp.pegged, l) ∈ s.book.resting → (side, Comp.pegged, l) ∈ s'.book.resting ∨
    (∃ signer ∈ signers op, Controls s signer l.owner) ∨ (l.timeInForce ≠ 0 ∧ (l.timestamp : Int) + l.timeInForce ≤ p.now)

/-- While one of the oracles has not been updated for more than the configured number of slots, pegged orders are frozen. -/
theorem C49_stale_freezes {s s' : State} {op : Op} {p : Placer} {i : OracleInfo} {a b : OraclePassed} {slot t : Nat} {x : OracleAcc}
    (hr : Reachable s) (h : stepPriced s i a b slot op = .ok s') (hp : placer op = some p) (hx : isOracle s.g.market a b x)
    (ht : lastUpdate x = some t) (h0 : 0 ≤ i.config.maxStalenessSlots) (hn : slot < 2 ^ 64)
    (hstale : t + i.config.maxStalenessSlots < (slot : Int)) :
    step s (op.withOracle none) = .ok s' ∧ Frozen s s' (op.withOracle none) { p with oracle := none } := by
  obtain ⟨o, h1, h2, h3, _⟩ := stepPriced_ok h hp
  cases o with
  | some l => have := C49_fresh h1 hx ht h0 hn; omega
  | none =>
    obtain ⟨k1, k2, k3⟩ := C50_frozen hr h2 h3 rfl
    exact ⟨h2, k1, k2, k3⟩

/-- While the only oracle is too uncertain, pegged orders are frozen.  Missing: as above. -/
theorem C49_uncertain_freezes_partial {s s' : State} {op : Op} {p : Placer} {i : OracleInfo} {a b : OraclePassed} {slot : Nat}
    {x : OracleAcc} {q d c : Rat} (hr : Reachable s) (h : stepPriced s i a b slot op = .ok s') (hp : placer op = some p)
    (hb : s.g.market.oracleB = 0) (hx : isOracle s.g.market a b x) (hq : reported x = some (q, d))
    (hs : sane x) (hc : i.config.confFilter = .fin c) (c0 : 0 ≤ c) (c1 : c ≤ 2 ^ (128 : Int)) (q0 : 0 ≤ q)
    (d1 : i.baseDecimals ≤ 127) (d2 : i.quoteDecimals ≤ 127)
    (hun : (c * q + 2 ^ (-1000 : Int)) * (1 + 2 ^ (-48 : Int)) < d) :
    step s (op.withOracle none) = .ok s' ∧ Frozen s s' (op.withOracle none) { p with oracle := none } := by
  obtain ⟨o, h1, h2, h3, _⟩ := stepPriced_ok h hp
  cases o with
  | some l => exact absurd (C49_confident_partial h1 hb hx hq hs hc c0 c1 q0 d1 d2) (not_le.mpr hun)
  | none =>
    obtain ⟨k1, k2, k3⟩ := C50_frozen hr h2 h3 rfl
    exact ⟨h2, k1, k2, k3⟩

/-! Where the code violates the claim, and that the hypotheses can be met. -/

/-- Pyth: price 10.00, deviation as given in hundredths, updated in slot 90. -/
def pythAt (conf : Nat) : OracleAcc := .pyth true 1000 conf 90 0 0 0 (-2)

/-- At most ten slots old; the filter as given. -/
def oracleInfo (c : F64) : OracleInfo := { config := toOracleConfig c (some 10), baseDecimals := 6, quoteDecimals := 6 }

theorem scenario_market {p : Market → Bool} {a : CreateArgs} (h : Scenario.okAnd (Scenario.start a) (fun s => p s.g.market) = true) :
    ∃ s, Reachable s ∧ p s.g.market = true := by
  obtain ⟨s, h1, h2⟩ := Scenario.okAnd_spec h
  exact ⟨s, Scenario.start_reachable h1, h2⟩

/-- Nothing checks conf_filter.  If it is NaN every price is accepted: here 10 with a deviation of 50000. -/
theorem C49_confident_false : ∃ (s : State) (i : OracleInfo) (x : OracleAcc) (l : Int), Reachable s ∧ i.config = toOracleConfig .nan (some 10) ∧
    sane x ∧ reported x = some (10, 50000) ∧ oraclePriceLots s.g.market i (some (s.g.market.oracleA, x)) none 95 = .ok (some l) := by
  obtain ⟨s, hs, h⟩ := scenario_market (a := Scenario.args) (p := fun m =>
    decide (oraclePriceLots m (oracleInfo .nan) (some (m.oracleA, pythAt 5000000)) none 95 = .ok (some 100))) (by decide +kernel)
  refine ⟨s, oracleInfo .nan, pythAt 5000000, 100, hs, rfl, ?_, ?_, of_decide_eq_true h⟩
  · refine ⟨by decide, by decide, by decide⟩
  · simp only [reported, pythAt]; norm_num

/-- Markets with two oracles. -/
def args2 : CreateArgs := { Scenario.args with oracleB := 51 }

/-- With two oracles a negative filter accepts what its positive counterpart accepts; with one oracle it accepts nothing. -/
theorem C49_negative_false : ∃ (s : State) (i : OracleInfo) (x y : OracleAcc) (l : Int), Reachable s ∧
    i.config = toOracleConfig (.fin (-1)) (some 10) ∧ reported x = some (10, 5) ∧ reported y = some (10, 5) ∧
    oraclePriceLots s.g.market i (some (s.g.market.oracleA, x)) (some (s.g.market.oracleB, y)) 95 = .ok (some l) := by
  obtain ⟨s, hs, h⟩ := scenario_market (a := args2) (p := fun m =>
    decide (oraclePriceLots m (oracleInfo (.fin (-1))) (some (m.oracleA, pythAt 500)) (some (m.oracleB, pythAt 500)) 95 = .ok (some 10)))
    (by decide +kernel)
  refine ⟨s, oracleInfo (.fin (-1)), pythAt 500, pythAt 500, 10, hs, rfl, ?_, ?_, of_decide_eq_true h⟩ <;>
    (simp only [reported, pythAt]; norm_num)

/-- Switchboard v2, updated in slot 90. -/
def boardAt (p d : Rat) : OracleAcc := .switchboardV2 (some (.fin p)) (some (.fin d)) 90

/-- A first price of exactly zero switches the check off for both oracles: here the second reports 10 with a deviation of 50000. -/
theorem C49_zero_false : ∃ (s : State) (i : OracleInfo) (x y : OracleAcc) (l : Int), Reachable s ∧
    i.config = toOracleConfig (.fin (1 / 128)) (some 10) ∧ reported x = some (0, 0) ∧ reported y = some (10, 50000) ∧
    oraclePriceLots s.g.market i (some (s.g.market.oracleA, x)) (some (s.g.market.oracleB, y)) 95 = .ok (some l) := by
  obtain ⟨s, hs, h⟩ := scenario_market (a := args2) (p := fun m =>
    decide (oraclePriceLots m (oracleInfo (.fin (1 / 128))) (some (m.oracleA, boardAt 0 0)) (some (m.oracleB, boardAt 10 50000)) 95
      = .ok (some 0))) (by decide +kernel)
  exact ⟨s, oracleInfo (.fin (1 / 128)), boardAt 0 0, boardAt 10 50000, 0, hs, rfl, rfl, rfl, of_decide_eq_true h⟩

example : ∃ (s : State) (i : OracleInfo) (x : OracleAcc), Reachable s ∧ isOracle s.g.market (some (s.g.market.oracleA, x)) none x ∧
    s.g.market.oracleB = 0 ∧ lastUpdate x = some 90 ∧ 0 ≤ i.config.maxStalenessSlots ∧ sane x ∧ reported x = some (10, 1 / 100) ∧
    i.config.confFilter = .fin (1 / 128) ∧
    oraclePriceLots s.g.market i (some (s.g.market.oracleA, x)) none 95 = .ok (some 100) := by
  obtain ⟨s, hs, h⟩ := scenario_market (a := Scenario.args) (p := fun m =>
    decide (oraclePriceLots m (oracleInfo (.fin (1 / 128))) (some (m.oracleA, pythAt 1)) none 95 = .ok (some 100) ∧ m.oracleA ≠ 0 ∧ m.oracleB = 0))
    (by decide +kernel)
  obtain ⟨h1, h2, h3⟩ := of_decide_eq_true h
  refine ⟨s, oracleInfo (.fin (1 / 128)), pythAt 1, hs, .inl ⟨h2, rfl⟩, h3, rfl, by decide, ?_, ?_, rfl, h1⟩
  · refine ⟨by decide, by decide, by decide⟩
  · simp only [reported, pythAt]; norm_num

example : ∃ (s : State) (i : OracleInfo) (x y : OracleAcc) (l : Int), Reachable s ∧ s.g.market.oracleB ≠ 0 ∧
    i.config.confFilter = .fin (1 / 128) ∧ sane x ∧ sane y ∧ reported x = some (10, 1 / 100) ∧ reported y = some (10, 2 / 100) ∧
    oraclePriceLots s.g.market i (some (s.g.market.oracleA, x)) (some (s.g.market.oracleB, y)) 95 = .ok (some l) := by
  obtain ⟨s, hs, h⟩ := scenario_market (a := args2) (p := fun m =>
    decide (oraclePriceLots m (oracleInfo (.fin (1 / 128))) (some (m.oracleA, pythAt 1)) (some (m.oracleB, pythAt 2)) 95
      = .ok (some 10) ∧ m.oracleB ≠ 0)) (by decide +kernel)
  obtain ⟨h1, h2⟩ := of_decide_eq_true h
  refine ⟨s, oracleInfo (.fin (1 / 128)), pythAt 1, pythAt 2, 10, hs, h2, rfl, ?_, ?_, ?_, ?_, h1⟩
  · refine ⟨by decide, by decide, by decide⟩
  · refine ⟨by decide, by decide, by decide⟩
  · simp only [reported, pythAt]; norm_num
  · simp only [reported, pythAt]; norm_num

/-- The sale of `blindSale` with an oracle that was last updated in slot 90, in slot 101. -/
example : ∃ (s s' : State) (x : OracleAcc), Reachable s ∧
    stepPriced s (oracleInfo (.fin (1 / 128))) (some (s.g.market.oracleA, x)) none 101 blindSale = .ok s' ∧
    isOracle s.g.market (some (s.g.market.oracleA, x)) none x ∧ lastUpdate x = some 90 ∧
    (∃ side l, (side, Comp.pegged, l) ∈ s.book.resting) := by
  have h : Scenario.okAnd (Scenario.exec Scenario.args Scenario.ops1) (fun s => Scenario.okAnd
      (stepPriced s (oracleInfo (.fin (1 / 128))) (some (s.g.market.oracleA, pythAt 1)) none 101 blindSale) (fun _ =>
      (s.book.resting.any (fun x => decide (x.2.1 = .pegged))) && decide (s.g.market.oracleA ≠ 0))) = true := by
    decide +kernel
  obtain ⟨s, h1, h2⟩ := Scenario.okAnd_spec h
  obtain ⟨s', h3, h4⟩ := Scenario.okAnd_spec h2
  rw [Bool.and_eq_true, decide_eq_true_eq, List.any_eq_true] at h4
  obtain ⟨⟨⟨side, c, l⟩, hm, hc⟩, h5⟩ := h4
  have hc := of_decide_eq_true hc
  simp only at hc; subst hc
  exact ⟨s, s', pythAt 1, Scenario.exec_reachable h1, h3, .inl ⟨h5, rfl⟩, rfl, ⟨side, l, hm⟩⟩

end OB
