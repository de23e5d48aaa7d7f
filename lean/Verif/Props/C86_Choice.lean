import Verif.Proofs.Again
import Verif.Props.C49_Oracle
/-!
C86  A market has usable oracles or none: whichever it names were accounts of a known oracle program when it was created, two are
different and of the same program, they stay its oracles for good, and orders are matched at the price of these accounts only.
-/
namespace OB
open Spec

theorem type_same {x y : OracleAcc} : (∃ t, x.type = .ok t ∧ y.type = .ok t) ↔ SameKind x y := by
  constructor
  · rintro ⟨t, h1, h2⟩
    cases x <;> cases y <;> simp only [OracleAcc.type, Except.ok.injEq, reduceCtorEq] at h1 h2 <;> subst h1 <;> first | constructor | cases h2
  · intro h
    cases h <;> exact ⟨_, rfl, rfl⟩

theorem type_known {x : OracleAcc} {t : OracleType} (h : x.type = .ok t) : SameKind x x := type_same.mp ⟨t, h, h⟩

theorem given_some {a : OraclePassed} {k : Pubkey} {x : OracleAcc} : givenOracle a = some (k, x) ↔ a = some (k, x) ∧ k ≠ 0 := by
  unfold givenOracle
  cases a with
  | none => simp
  | some q =>
    obtain ⟨k', x'⟩ := q
    simp only
    split
    next h => simp only [Option.some.injEq, Prod.mk.injEq, reduceCtorEq, false_iff]; rintro ⟨⟨rfl, _⟩, h2⟩; exact h2 h
    next h => simp only [Option.some.injEq, Prod.mk.injEq]; constructor
              · rintro ⟨rfl, rfl⟩; exact ⟨⟨rfl, rfl⟩, h⟩
              · exact fun h => h.1

theorem given_none {a : OraclePassed} : givenOracle a = none ↔ passedKey a = 0 := by
  unfold givenOracle passedKey
  cases a with
  | none => simp
  | some q => obtain ⟨k', x'⟩ := q; simp only; split <;> simp_all

theorem checkOracles_iff {a b : OraclePassed} : checkOracles a b = .ok () ↔ WellChosen (passedKey a) (passedKey b) a b := by
  unfold checkOracles
  cases ha : givenOracle a with
  | none =>
    have ka := given_none.mp ha
    cases hb : givenOracle b with
    | none =>
      have kb := given_none.mp hb
      simp only [true_iff]
      exact ⟨fun h => absurd kb h, fun h => absurd kb h, fun h => absurd ka h, fun h => absurd kb h⟩
    | some q =>
      obtain ⟨k, y⟩ := q
      obtain ⟨rfl, h2⟩ := given_some.mp hb
      simp only [reduceCtorEq, false_iff]
      exact fun h => absurd ka (h.first h2)
  | some p =>
    obtain ⟨k, x⟩ := p
    obtain ⟨rfl, h1⟩ := given_some.mp ha
    cases hb : givenOracle b with
    | none =>
      have kb := given_none.mp hb
      simp only [bind_ok, pure_ok]
      constructor
      · rintro ⟨t, ht, _⟩
        exact ⟨fun h => absurd kb h, fun h => absurd kb h, fun _ => ⟨x, rfl, type_known ht⟩, fun h => absurd kb h⟩
      · intro h
        obtain ⟨x', e, hx⟩ := h.known h1
        injection e with e; injection e with _ e; subst e
        obtain ⟨t, ht, _⟩ := type_same.mpr hx
        exact ⟨t, ht, trivial⟩
    | some q =>
      obtain ⟨k2, y⟩ := q
      obtain ⟨rfl, h2⟩ := given_some.mp hb
      simp only [bind_ok, req_ok]
      constructor
      · rintro ⟨_, hne, t, ht, t', ht', rfl⟩
        exact ⟨fun _ => h1, fun _ => fun e => hne e.symm, fun _ => ⟨x, rfl, type_known ht⟩, fun _ => ⟨x, y, rfl, rfl, type_same.mp ⟨t, ht, ht'⟩⟩⟩
      · intro h
        obtain ⟨x', y', e, e', hk⟩ := h.same h2
        injection e with e; injection e with _ e; subst e
        injection e' with e'; injection e' with _ e'; subst e'
        obtain ⟨t, ht, ht'⟩ := type_same.mpr hk
        exact ⟨(), fun e => h.differ h2 e.symm, t, ht, t, ht', rfl⟩

/-- A market is created only with well chosen oracles, and names them. -/
theorem C86_created {a : CreateArgs} {now : Int} {tokens : Tokens} {lamports : Lamports} {pa pb : OraclePassed} {s : State}
    (h : createPriced a now tokens lamports pa pb = .ok s) : WellChosen s.g.market.oracleA s.g.market.oracleB pa pb := by
  unfold createPriced at h
  simp only [bind_ok, req_ok] at h
  obtain ⟨_, ⟨k1, k2⟩, _, h2, h3⟩ := h
  obtain ⟨_, rfl⟩ := createMarket_inv h3
  show WellChosen a.oracleA a.oracleB pa pb
  rw [k1, k2]
  exact checkOracles_iff.mp h2

/-- The oracles are no reason to refuse the creation of a market when they are well chosen. -/
theorem C86_accepts {a : CreateArgs} {now : Int} {tokens : Tokens} {lamports : Lamports} {pa pb : OraclePassed} {s : State}
    (h : createMarket a now tokens lamports = .ok s) (ha : a.oracleA = passedKey pa) (hb : a.oracleB = passedKey pb)
    (hw : WellChosen a.oracleA a.oracleB pa pb) : createPriced a now tokens lamports pa pb = .ok s := by
  unfold createPriced
  rw [ha, hb] at hw
  rw [ha, hb, checkOracles_iff.mpr hw]
  simp only [and_self, req, if_true]
  exact h

/-- In every history a second oracle is one beside a first and different from it, and no instruction changes them. -/
theorem C86_forever {s : State} (hr : Reachable s) :
    (s.g.market.oracleB ≠ 0 → s.g.market.oracleA ≠ 0 ∧ s.g.market.oracleB ≠ s.g.market.oracleA) ∧
    ∀ op s', step s op = .ok s' → s'.g.market.oracleA = s.g.market.oracleA ∧ s'.g.market.oracleB = s.g.market.oracleB := by
  obtain ⟨a, now, h1, h2⟩ := reachable_cfg hr
  obtain ⟨_, _, _, _, _, _, _, _, _, _, c1, c2, _⟩ := CreateArgs.check_ok h1
  have e1 : s.g.market.oracleA = a.oracleA := h2.oracleA
  have e2 : s.g.market.oracleB = a.oracleB := h2.oracleB
  refine ⟨fun h => ?_, fun op s' h => ?_⟩
  · rw [e2] at h
    have h0 : a.oracleA ≠ 0 := fun h' => c1 ⟨h', h⟩
    exact ⟨by rw [e1]; exact h0, by rw [e1, e2]; exact fun e => c2 h0 e.symm⟩
  · have hc := (step_cfg (reachable_Inv hr) h).1
    exact ⟨hc.oracleA, hc.oracleB⟩

/-- An order is placed only with the accounts that the market names as its oracles. -/
theorem C86_used {s s' : State} {op : Op} {p : Placer} {i : OracleInfo} {a b : OraclePassed} {slot : Nat}
    (h : stepPriced s i a b slot op = .ok s') (hp : placer op = some p) :
    (s.g.market.oracleA ≠ 0 → ∃ x, a = some (s.g.market.oracleA, x)) ∧ (s.g.market.oracleB ≠ 0 → ∃ x, b = some (s.g.market.oracleB, x)) := by
  obtain ⟨o, h1, _⟩ := stepPriced_ok h hp
  unfold oraclePriceLots at h1
  simp only [bind_ok, req_ok] at h1
  obtain ⟨_, k1, _, k2, _⟩ := h1
  have key : ∀ (q : OraclePassed) (k : Pubkey), k = passedKey q → k ≠ 0 → ∃ x, q = some (k, x) := by
    intro q k e h0
    cases q with
    | none => exact absurd e h0
    | some y => obtain ⟨k', x⟩ := y; exact ⟨x, by rw [e]; rfl⟩
  exact ⟨key a _ k1, key b _ k2⟩

/-- Two pyth accounts; and a pyth account with a stub is refused. -/
example : (∃ s, createPriced args2 0 Scenario.tokens0 Scenario.lamports0 (some (50, pythAt 500)) (some (51, pythAt 7)) = .ok s) ∧
    createPriced args2 0 Scenario.tokens0 Scenario.lamports0 (some (50, pythAt 500)) (some (51, .stub (.fin 1) (.fin 0) 3)) = .error .invalidOracleTypes :=
  ⟨⟨_, rfl⟩, rfl⟩

end OB
