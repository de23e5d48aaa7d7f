import Verif.Props.C51_Lots
/-!
C52  Oracles that cannot be used do not keep anybody from trading at fixed prices.

False in the code: an account that is not readable as an oracle any more (a closed stub, a Pyth account with a negative price or an exponent
outside the table), or a price that does not fit into i64 lots, makes every instruction that places orders fail.
-/
namespace OB
open Spec

/-- If reading one of the market's oracles fails then so does every instruction that places orders, whatever the orders. -/
theorem C52_unreadable {s s' : State} {op : Op} {p : Placer} {i : OracleInfo} {a b : OraclePassed} {slot : Nat} {x : OracleAcc} {e : Err}
    (hx : isOracle s.g.market a b x) (ha : s.g.market.oracleA ≠ 0) (he : x.state = .error e) (hp : placer op = some p) :
    stepPriced s i a b slot op ≠ .ok s' := by
  intro h
  obtain ⟨o, h1, _⟩ := stepPriced_ok h hp
  unfold oraclePriceLots at h1
  simp only [bind_ok, req_ok] at h1
  obtain ⟨_, k1, _, k2, price, h1, _⟩ := h1
  by_cases hb : s.g.market.oracleB = 0
  · rcases hx with ⟨_, rfl⟩ | ⟨hb', _⟩
    · rw [if_neg (by simp [hb]), if_pos ha] at h1
      simp only [unwrapR, bind_ok, Except.ok.injEq, exists_eq_left', oraclePriceFromA, he, reduceCtorEq, false_and, exists_false] at h1
    · exact hb' hb
  · rw [if_pos ⟨ha, hb⟩] at h1
    simp only [bind_ok, unwrapR_ok, oraclePriceFromAB] at h1
    obtain ⟨⟨ka, xa⟩, ea, ⟨kb, xb⟩, eb, oa, ha', ob, hb', _⟩ := h1
    rcases hx with ⟨_, e1⟩ | ⟨_, e1⟩
    · rw [ea] at e1; injection e1 with e1; injection e1 with _ e1; subst e1
      rw [he] at ha'; cases ha'
    · rw [eb] at e1; injection e1 with e1; injection e1 with _ e1; subst e1
      rw [he] at hb'; cases hb'

/-- An ask at a fixed price, that would be placed whether there is an oracle price or not, fails because the price of the oracle is
negative, its account is closed, or its price does not fit into i64. -/
theorem C52_blocked_false : ∃ (s : State) (op : Op) (p : Placer), Reachable s ∧ placer op = some p ∧
    (∃ s', step s (op.withOracle none) = .ok s') ∧ (∃ s', step s (op.withOracle (some 1000)) = .ok s') ∧
    ∀ x ∈ [OracleAcc.unknown, .pyth true (-1) 0 90 0 0 0 0, .pyth true 1 0 90 0 0 0 13, .stub (.fin (2 ^ 62)) (.fin 0) 90],
      ∀ s', stepPriced s (oracleInfo (.fin (1 / 128))) (some (s.g.market.oracleA, x)) none 95 op ≠ .ok s' := by
  have h : Scenario.okAnd (Scenario.exec Scenario.args Scenario.ops1) (fun s =>
      let op := Scenario.place 0 .ask 1010 5 1
      Scenario.okAnd (step s (op.withOracle none)) (fun _ => true) && Scenario.okAnd (step s (op.withOracle (some 1000))) (fun _ => true) &&
      [OracleAcc.unknown, .pyth true (-1) 0 90 0 0 0 0, .pyth true 1 0 90 0 0 0 13, .stub (.fin (2 ^ 62)) (.fin 0) 90].all (fun x =>
        !(Scenario.okAnd (stepPriced s (oracleInfo (.fin (1 / 128))) (some (s.g.market.oracleA, x)) none 95 op) (fun _ => true)))) = true := by
    decide +kernel
  obtain ⟨s, h1, h2⟩ := Scenario.okAnd_spec h
  simp only [Bool.and_eq_true, List.all_eq_true, Bool.not_eq_true'] at h2
  obtain ⟨⟨h2, h3⟩, h4⟩ := h2
  obtain ⟨s2, h2, _⟩ := Scenario.okAnd_spec h2
  obtain ⟨s3, h3, _⟩ := Scenario.okAnd_spec h3
  refine ⟨s, _, _, Scenario.exec_reachable h1, rfl, ⟨s2, h2⟩, ⟨s3, h3⟩, fun x hx s' hs => ?_⟩
  have := h4 x hx
  rw [hs] at this
  cases this

/-- The exponent is in the table. -/
def expoOk : OracleAcc → Prop
  | .pyth _ _ _ _ _ _ _ expo => -12 ≤ expo ∧ expo ≤ 12
  | _ => True

theorem table_ok {d : Int} (h1 : -12 ≤ d) (h2 : d ≤ 12) : ∃ x, powerOfTenFloat d = .ok x := by
  unfold powerOfTenFloat
  exact ⟨_, by simp only [bind_ok, assertR_ok, pure_ok]; exact ⟨(), ⟨h1, h2⟩, rfl⟩⟩

theorem state_ok {x : OracleAcc} {p d : Rat} (hr : reported x = some (p, d)) (hp : 0 ≤ p) (hs : sane x) (he : expoOk x) :
    ∃ o, x.state = .ok o := by
  cases x with
  | unknown => cases hr
  | raydium => cases hr
  | stub q e t => exact ⟨_, rfl⟩
  | switchboardV1 q hi lo t =>
    cases q <;> simp only [reported, reduceCtorEq] at hr
    split at hr <;> simp only [Option.some.injEq, Prod.mk.injEq, reduceCtorEq] at hr
    apply Exists.intro
    simp only [OracleAcc.state, bind_ok, req_ok, pure_ok]
    exact ⟨(), by simp only [F64.nonneg, decide_eq_true_eq]; rw [hr.1]; exact hp, rfl⟩
  | switchboardV2 q e t =>
    rcases q with _ | (_ | _ | q) <;> rcases e with _ | (_ | _ | e) <;> simp only [reported, reduceCtorEq] at hr
    simp only [Option.some.injEq, Prod.mk.injEq] at hr
    apply Exists.intro
    simp only [OracleAcc.state, bind_ok, req_ok, pure_ok, okOr_ok]
    exact ⟨_, rfl, _, rfl, (), by simp only [F64.nonneg, decide_eq_true_eq]; rw [hr.1]; exact hp, rfl⟩
  | pyth tr ap ac as_ pp pc ps expo =>
    obtain ⟨⟨s1, s2⟩, ⟨s3, s4⟩, _⟩ := hs
    obtain ⟨x, hx⟩ := table_ok he.1 he.2
    have hz : |(if tr then ap else pp)| ≤ 2 ^ 64 := by
      unfold inI64 i64Min i64Max at s3 s4
      rw [abs_le]; split <;> constructor <;> omega
    have hq : p = (if tr then ap else pp) * (10 : Rat) ^ expo := by
      cases tr <;> simp only [reported, if_true, Bool.false_eq_true, if_false, Option.some.injEq, Prod.mk.injEq] at hr ⊢ <;> exact hr.1.symm
    obtain ⟨v, e1, rv⟩ := scaled hz hx
    have hv : 0 ≤ v := by rw [rv.nonneg_iff]; cases tr <;> simpa [hq] using hp
    simp only [OracleAcc.state, asI8_id s1 s2]
    cases tr <;> simp only [Bool.false_eq_true, if_false, if_true] at e1 ⊢ <;> 
    · apply Exists.intro
      simp only [bind_ok, req_ok, pure_ok]
      refine ⟨x, hx, (), ?_, rfl⟩
      rw [e1]; exact decide_eq_true hv

theorem fixed_ok {i : OracleInfo} {f : F64} (d1 : i.baseDecimals ≤ 127) (d2 : i.quoteDecimals ≤ 127)
    (h1 : -12 ≤ (i.quoteDecimals : Int) - i.baseDecimals) (h2 : (i.quoteDecimals : Int) - i.baseDecimals ≤ 12) : ∃ r, fixedPrice i f = .ok r := by
  obtain ⟨x, hx⟩ := table_ok h1 h2
  unfold fixedPrice
  simp only [asI8_id (show (-128 : Int) ≤ i.quoteDecimals by omega) (show (i.quoteDecimals : Int) ≤ 127 by omega),
    asI8_id (show (-128 : Int) ≤ i.baseDecimals by omega) (show (i.baseDecimals : Int) ≤ 127 by omega)]
  apply Exists.intro
  simp only [bind_ok, assertR_ok, pure_ok]
  exact ⟨(), by omega, x, hx, rfl⟩

/-- Prices that fit are converted. -/
theorem native_ok {m : Market} {b : Int} {Y : Rat} (hb : 0 < m.baseLotSize) (hq : 0 < m.quoteLotSize) (h0 : 0 ≤ b)
    (hY : (b : Rat) / 2 ^ (48 : Int) ≤ Y) (h1 : Y * m.baseLotSize ≤ 2 ^ (78 : Int)) (h2 : Y * m.baseLotSize / m.quoteLotSize < 2 ^ (63 : Int)) :
    ∃ l, nativePriceToLot m b = .ok l := by
  have hb' : (0 : Rat) < m.baseLotSize := by exact_mod_cast hb
  have hq' : (0 : Rat) < m.quoteLotSize := by exact_mod_cast hq
  have e48 : (2 : Rat) ^ (48 : Int) = 281474976710656 := by norm_num
  have e78 : (2 : Rat) ^ (78 : Int) = 302231454903657293676544 := by norm_num
  have e63 : (2 : Rat) ^ (63 : Int) = 9223372036854775808 := by norm_num
  rw [e48] at hY; rw [e78] at h1; rw [e63] at h2
  have hx : 0 ≤ b * m.baseLotSize := Int.mul_nonneg h0 (by omega)
  have k1 : (b : Rat) ≤ Y * 281474976710656 := by
    rwa [div_le_iff₀ (by norm_num)] at hY
  have k2 : ((b * m.baseLotSize : Int) : Rat) ≤ ((85070591730234615865843651857942052864 : Int) : Rat) := by
    push_cast
    calc (b : Rat) * m.baseLotSize ≤ Y * 281474976710656 * m.baseLotSize := mul_le_mul_of_nonneg_right k1 hb'.le
      _ = Y * m.baseLotSize * 281474976710656 := by ring
      _ ≤ 302231454903657293676544 * 281474976710656 := mul_le_mul_of_nonneg_right h1 (by norm_num)
      _ = _ := by norm_num
  have k2 : b * m.baseLotSize ≤ 85070591730234615865843651857942052864 := by exact_mod_cast k2
  have k3 : ((b * m.baseLotSize : Int) : Rat) < ((m.quoteLotSize * 281474976710656 * 9223372036854775808 : Int) : Rat) := by
    push_cast
    rw [div_lt_iff₀ hq'] at h2
    calc (b : Rat) * m.baseLotSize ≤ Y * 281474976710656 * m.baseLotSize := mul_le_mul_of_nonneg_right k1 hb'.le
      _ = Y * m.baseLotSize * 281474976710656 := by ring
      _ < 9223372036854775808 * m.quoteLotSize * 281474976710656 := mul_lt_mul_of_pos_right h2 (by norm_num)
      _ = _ := by ring
  have k3 : b * m.baseLotSize < m.quoteLotSize * 281474976710656 * 9223372036854775808 := by exact_mod_cast k3
  unfold nativePriceToLot
  apply Exists.intro
  simp only [bind_ok, req_ok, pure_ok]
  refine ⟨(), ⟨by unfold i128Min; omega, by unfold i128Max; omega⟩, (), by omega, (), ?_, rfl⟩
  rw [Int.tdiv_eq_ediv_of_nonneg hx, Int.ediv_ediv_of_nonneg (by omega)]
  have hp : 0 < m.quoteLotSize * 281474976710656 := by omega
  constructor
  · have := Int.ediv_nonneg hx hp.le
    unfold i64Min; omega
  · have : b * m.baseLotSize / (m.quoteLotSize * 281474976710656) < 9223372036854775808 :=
      Int.ediv_lt_of_lt_mul hp (by rw [Int.mul_comm 9223372036854775808]; exact k3)
    unfold i64Max; omega

/-- The exact price `X`, in native units, fits into lots with room to spare. -/
structure PriceFits (m : Market) (X : Rat) : Prop where
  nonneg : 0 ≤ X
  base : m.baseLotSize ≤ i64Max
  native : X * m.baseLotSize ≤ 2 ^ (77 : Int)
  lots : X * m.baseLotSize / m.quoteLotSize ≤ 2 ^ (62 : Int)

theorem native_fits {m : Market} {b : Int} {X W : Rat} {n : Nat} (hb : 0 < m.baseLotSize) (hq : 0 < m.quoteLotSize) (h0 : 0 ≤ b)
    (hr : Rel n X W) (hn : n ≤ 20) (hw : |(b : Rat) / 2 ^ (48 : Int) - W| ≤ 2 ^ (-48 : Int)) (hf : PriceFits m X) : ∃ l, nativePriceToLot m b = .ok l := by
  obtain ⟨f0, f1, f2, f3⟩ := hf
  have hb' : (0 : Rat) < m.baseLotSize := by exact_mod_cast hb
  have hq' : (1 : Rat) ≤ m.quoteLotSize := by exact_mod_cast hq
  have hbm : (m.baseLotSize : Rat) ≤ 2 ^ (63 : Int) := by
    have : (m.baseLotSize : Rat) ≤ ((i64Max : Int) : Rat) := by exact_mod_cast f1
    refine le_trans this ?_
    unfold i64Max; norm_num
  refine native_ok hb hq h0 (fixed_bounds hr hn f0 hw).1 ?_ ?_
  · have e1 : (X * (1 + 2 ^ (-48 : Int)) + 2 ^ (-48 : Int)) * m.baseLotSize =
      X * m.baseLotSize * (1 + 2 ^ (-48 : Int)) + m.baseLotSize * 2 ^ (-48 : Int) := by ring
    rw [e1]
    calc X * m.baseLotSize * (1 + 2 ^ (-48 : Int)) + m.baseLotSize * 2 ^ (-48 : Int)
        ≤ 2 ^ (77 : Int) * (1 + 2 ^ (-48 : Int)) + 2 ^ (63 : Int) * 2 ^ (-48 : Int) :=
          add_le_add (mul_le_mul_of_nonneg_right f2 (by positivity)) (mul_le_mul_of_nonneg_right hbm (by positivity))
      _ ≤ _ := by norm_num
  · have e1 : (X * (1 + 2 ^ (-48 : Int)) + 2 ^ (-48 : Int)) * m.baseLotSize / m.quoteLotSize =
      X * m.baseLotSize / m.quoteLotSize * (1 + 2 ^ (-48 : Int)) + m.baseLotSize / m.quoteLotSize * 2 ^ (-48 : Int) := by ring
    rw [e1]
    have hbq : (m.baseLotSize : Rat) / m.quoteLotSize ≤ 2 ^ (63 : Int) := le_trans (div_le_self hb'.le hq') hbm
    calc X * m.baseLotSize / m.quoteLotSize * (1 + 2 ^ (-48 : Int)) + m.baseLotSize / m.quoteLotSize * 2 ^ (-48 : Int)
        ≤ 2 ^ (62 : Int) * (1 + 2 ^ (-48 : Int)) + 2 ^ (63 : Int) * 2 ^ (-48 : Int) :=
          add_le_add (mul_le_mul_of_nonneg_right f3 (by positivity)) (mul_le_mul_of_nonneg_right hbq (by positivity))
      _ < _ := by norm_num

/-- An oracle that reports a price that fits never fails an instruction: however old or uncertain, there is a price or there is none.
Missing: see `C52_unreadable` and `C52_blocked_false`. -/
theorem C52_priced_partial {s : State} {i : OracleInfo} {slot : Nat} {x : OracleAcc} {p d : Rat} (hr : Reachable s)
    (ha : s.g.market.oracleA ≠ 0) (hb : s.g.market.oracleB = 0) (hrep : reported x = some (p, d)) (hs : sane x) (he : expoOk x)
    (d1 : i.baseDecimals ≤ 127) (d2 : i.quoteDecimals ≤ 127)
    (h1 : -12 ≤ (i.quoteDecimals : Int) - i.baseDecimals) (h2 : (i.quoteDecimals : Int) - i.baseDecimals ≤ 12) (hp : 0 ≤ p)
    (hf : PriceFits s.g.market (p * (10 : Rat) ^ ((i.quoteDecimals : Int) - i.baseDecimals))) :
    ∃ o, oraclePriceLots s.g.market i (some (s.g.market.oracleA, x)) none slot = .ok o := by
  have core := (reachable_Inv hr).core
  obtain ⟨o, ho⟩ := state_ok hrep hp hs he
  obtain ⟨fp, fd, e1, _, r1, _⟩ := state_reported ho hrep hs
  obtain ⟨r, hfx⟩ := fixed_ok (f := o.price) d1 d2 h1 h2
  unfold oraclePriceLots
  simp only [bind_ok, req_ok]
  have hA : (if s.g.market.oracleA ≠ 0 ∧ s.g.market.oracleB ≠ 0 then (do
      let (_, x) ← unwrapR (some (s.g.market.oracleA, x))
      let (_, y) ← unwrapR (none : OraclePassed)
      oraclePriceFromAB i x y slot)
    else if s.g.market.oracleA ≠ 0 then (do
      let (_, x) ← unwrapR (some (s.g.market.oracleA, x))
      oraclePriceFromA i x slot)
    else .ok none : R (Option Int)) = oraclePriceFromA i x slot := by
    rw [if_neg (by simp [hb]), if_pos ha]; rfl
  by_cases hc : (o.isStale i.config slot || !o.hasValidConfidence i.config) = true
  · refine ⟨none, (), rfl, (), hb, none, ?_, rfl⟩
    refine hA.trans ?_
    simp only [oraclePriceFromA, bind_ok]
    exact ⟨o, ho, by rw [if_pos hc]; rfl⟩
  · have hfa : oraclePriceFromA i x slot = .ok r := by
      simp only [oraclePriceFromA, bind_ok]
      exact ⟨o, ho, by rw [if_neg hc]; exact hfx⟩
    cases r with
    | none => exact ⟨none, (), rfl, (), hb, none, hA.trans hfa, rfl⟩
    | some bits =>
      rw [e1] at hfx
      obtain ⟨W, w1, w2, w3, _⟩ := fixed_near ⟨d1, d2⟩ hfx (f' := fp) (by rw [sub_self, abs_zero]; positivity) r1
      obtain ⟨l, hl⟩ := native_fits core.bls core.qls (w3 (r1.nonneg_iff.mpr hp)) w1 (by omega) w2 hf
      refine ⟨some l, (), rfl, (), hb, some bits, hA.trans hfa, ?_⟩
      simp only [bind_ok, pure_ok]
      exact ⟨l, hl, rfl⟩

example : ∃ (s : State) (i : OracleInfo) (x : OracleAcc), Reachable s ∧ s.g.market.oracleA ≠ 0 ∧ s.g.market.oracleB = 0 ∧
    reported x = some (10, 1 / 100) ∧ sane x ∧ expoOk x ∧ i.baseDecimals = 9 ∧ i.quoteDecimals = 6 ∧
    PriceFits s.g.market (10 * (10 : Rat) ^ ((i.quoteDecimals : Int) - i.baseDecimals)) := by
  obtain ⟨s, hs, h⟩ := scenario_market (a := Scenario.args) (p := fun m =>
    decide (m.oracleA ≠ 0 ∧ m.oracleB = 0 ∧ m.baseLotSize = 100 ∧ m.quoteLotSize = 10)) (by decide +kernel)
  obtain ⟨h1, h2, h3, h4⟩ := of_decide_eq_true h
  refine ⟨s, { oracleInfo (.fin (1 / 128)) with baseDecimals := 9 }, pythAt 1, hs, h1, h2, ?_, ?_, ?_, rfl, rfl, ?_⟩
  · simp only [reported, pythAt]; norm_num
  · refine ⟨by decide, by decide, by decide⟩
  · exact ⟨by decide, by decide⟩
  · simp only [oracleInfo]
    refine ⟨by positivity, by rw [h3]; decide, ?_, ?_⟩
    · rw [h3]; norm_num
    · rw [h3, h4]; norm_num

/-- The same with two oracles, whose quotient is the price.  The second price may even be zero: then there is no price. -/
theorem C52_priced_both_partial {s : State} {i : OracleInfo} {slot : Nat} {x y : OracleAcc} {pa da pb db : Rat} (hr : Reachable s)
    (ha : s.g.market.oracleA ≠ 0) (hb : s.g.market.oracleB ≠ 0) (hra : reported x = some (pa, da)) (hrb : reported y = some (pb, db))
    (hsa : sane x) (hsb : sane y) (hea : expoOk x) (heb : expoOk y) (d1 : i.baseDecimals ≤ 127) (d2 : i.quoteDecimals ≤ 127)
    (h1 : -12 ≤ (i.quoteDecimals : Int) - i.baseDecimals) (h2 : (i.quoteDecimals : Int) - i.baseDecimals ≤ 12) (hpa : 0 ≤ pa) (hpb : 0 ≤ pb)
    (hf : PriceFits s.g.market (pa / pb * (10 : Rat) ^ ((i.quoteDecimals : Int) - i.baseDecimals))) :
    ∃ o, oraclePriceLots s.g.market i (some (s.g.market.oracleA, x)) (some (s.g.market.oracleB, y)) slot = .ok o := by
  have core := (reachable_Inv hr).core
  obtain ⟨o, ho⟩ := state_ok hra hpa hsa hea
  obtain ⟨o', ho'⟩ := state_ok hrb hpb hsb heb
  obtain ⟨fpa, fda, e1, _, r1, _⟩ := state_reported ho hra hsa
  obtain ⟨fpb, fdb, e3, _, r3, _⟩ := state_reported ho' hrb hsb
  obtain ⟨r, hfx⟩ := fixed_ok (f := o.price.div o'.price) d1 d2 h1 h2
  unfold oraclePriceLots
  simp only [bind_ok, req_ok]
  have hA : (if s.g.market.oracleA ≠ 0 ∧ s.g.market.oracleB ≠ 0 then (do
      let (_, x) ← unwrapR (some (s.g.market.oracleA, x))
      let (_, y) ← unwrapR (some (s.g.market.oracleB, y))
      oraclePriceFromAB i x y slot)
    else if s.g.market.oracleA ≠ 0 then (do
      let (_, x) ← unwrapR (some (s.g.market.oracleA, x))
      oraclePriceFromA i x slot)
    else .ok none : R (Option Int)) = oraclePriceFromAB i x y slot := by
    rw [if_pos ⟨ha, hb⟩]; rfl
  by_cases hc : (o.isStale i.config slot || o'.isStale i.config slot || !o.hasValidCombinedConfidence o' i.config) = true
  · refine ⟨none, (), rfl, (), rfl, none, ?_, rfl⟩
    refine hA.trans ?_
    simp only [oraclePriceFromAB, bind_ok]
    exact ⟨o, ho, o', ho', by rw [if_pos hc]; rfl⟩
  · have hfa : oraclePriceFromAB i x y slot = .ok r := by
      simp only [oraclePriceFromAB, bind_ok]
      exact ⟨o, ho, o', ho', by rw [if_neg hc]; exact hfx⟩
    cases r with
    | none => exact ⟨none, (), rfl, (), rfl, none, hA.trans hfa, rfl⟩
    | some bits =>
      rw [e1, e3] at hfx
      obtain ⟨f, hff⟩ := fixed_fin hfx
      have hfb : fpb ≠ 0 := by
        intro h0
        rw [h0] at hff
        unfold F64.div at hff
        simp only [if_true] at hff
        split at hff <;> cases hff
      rw [hff] at hfx
      rw [fin_div hfb] at hff
      obtain ⟨f', rf, nf⟩ := Rel.near hff
      have rr := (r1.div r3).trans rf
      obtain ⟨W, w1, w2, w3, _⟩ := fixed_near ⟨d1, d2⟩ hfx nf rr
      have hf0 : 0 ≤ f := (F64.rnd_error hff).2.2.1 (div_nonneg (r1.nonneg_iff.mpr hpa) (r3.nonneg_iff.mpr hpb))
      obtain ⟨l, hl⟩ := native_fits core.bls core.qls (w3 hf0) w1 (by omega) w2 hf
      refine ⟨some l, (), rfl, (), rfl, some bits, hA.trans hfa, ?_⟩
      simp only [bind_ok, pure_ok]
      exact ⟨l, hl, rfl⟩

/-- A market with two oracles, one reporting 10, the other 2. -/
example : ∃ (s : State) (i : OracleInfo) (x y : OracleAcc) (d : Rat), Reachable s ∧ s.g.market.oracleA ≠ 0 ∧ s.g.market.oracleB ≠ 0 ∧
    reported x = some (10, 1 / 100) ∧ reported y = some (2, d) ∧ sane x ∧ sane y ∧ expoOk x ∧ expoOk y ∧ i.baseDecimals = 9 ∧
    i.quoteDecimals = 6 ∧ PriceFits s.g.market (10 / 2 * (10 : Rat) ^ ((i.quoteDecimals : Int) - i.baseDecimals)) := by
  obtain ⟨s, hs, h⟩ := scenario_market (a := { Scenario.args with oracleB := 51 }) (p := fun m =>
    decide (m.oracleA ≠ 0 ∧ m.oracleB ≠ 0 ∧ m.baseLotSize = 100 ∧ m.quoteLotSize = 10)) (by decide +kernel)
  obtain ⟨h1, h2, h3, h4⟩ := of_decide_eq_true h
  refine ⟨s, { oracleInfo (.fin (1 / 128)) with baseDecimals := 9 }, pythAt 1, .pyth true 2 0 90 0 0 0 0, 0, hs, h1, h2, ?_, ?_, ?_, ?_, ?_,
    ?_, rfl, rfl, ?_⟩
  · simp only [reported, pythAt]; norm_num
  · simp only [reported]; norm_num
  · refine ⟨by decide, by decide, by decide⟩
  · refine ⟨by decide, by decide, by decide⟩
  · exact ⟨by decide, by decide⟩
  · exact ⟨by decide, by decide⟩
  · simp only [oracleInfo]
    refine ⟨by positivity, by rw [h3]; decide, ?_, ?_⟩
    · rw [h3]; norm_num
    · rw [h3, h4]; norm_num

/-- A state in which one of the oracles is unreadable. -/
example : ∃ (s : State) (x : OracleAcc) (e : Err), Reachable s ∧ isOracle s.g.market (some (s.g.market.oracleA, x)) none x ∧
    s.g.market.oracleA ≠ 0 ∧ x.state = .error e := by
  obtain ⟨s, hs, h⟩ := scenario_market (a := Scenario.args) (p := fun m => decide (m.oracleA ≠ 0)) (by decide +kernel)
  have h1 := of_decide_eq_true h
  exact ⟨s, .unknown, .unknownOracleType, hs, .inl ⟨h1, rfl⟩, h1, rfl⟩

end OB
