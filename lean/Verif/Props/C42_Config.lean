import Verif.Proofs.Again
import Verif.Props.Scenario
/-!
C42 — Fee configuration accepted at creation is safe.
-/
namespace OB
open Spec

/-- A market is only created with: a taker fee between 0 and 100 %; a maker fee of at most 100 % or a maker rebate of at most the
taker fee; positive lot sizes.  The new market has exactly these settings. -/
theorem C42_created {a : CreateArgs} {now : Int} {tokens : Tokens} {lamports : Lamports} {s : State}
    (h : createMarket a now tokens lamports = .ok s) :
    (0 ≤ a.takerFee ∧ a.takerFee ≤ 1000000) ∧ (a.makerFee ≤ 1000000 ∧ -a.makerFee ≤ a.takerFee) ∧
    (0 < a.baseLotSize ∧ a.baseLotSize ≤ i64Max) ∧ (0 < a.quoteLotSize ∧ a.quoteLotSize ≤ i64Max) ∧
    s.g.market.takerFee = a.takerFee ∧ s.g.market.makerFee = a.makerFee ∧
    s.g.market.baseLotSize = a.baseLotSize ∧ s.g.market.quoteLotSize = a.quoteLotSize := by
  obtain ⟨h1, rfl⟩ := createMarket_inv h
  obtain ⟨c1, c2, c3, c4, c5, c6, c7, c8, _⟩ := CreateArgs.check_ok h1
  exact ⟨⟨c5, c6⟩, ⟨c8, by omega⟩, ⟨c3, c4⟩, ⟨c1, c2⟩, rfl, rfl, rfl, rfl⟩

/-- With settings like these, accounts that differ where they must, and an expiry in the future, a market is created: the check is
not stronger than the statement above. -/
theorem C42_accepts {a : CreateArgs} {now : Int} {tokens : Tokens} {lamports : Lamports}
    (ht : 0 ≤ a.takerFee ∧ a.takerFee ≤ 1000000) (hm : a.makerFee ≤ 1000000 ∧ -a.makerFee ≤ a.takerFee)
    (hb : 0 < a.baseLotSize ∧ a.baseLotSize ≤ i64Max) (hq : 0 < a.quoteLotSize ∧ a.quoteLotSize ≤ i64Max)
    (he : a.timeExpiry = 0 ∨ (now < a.timeExpiry ∧ i64Min ≤ a.timeExpiry ∧ a.timeExpiry ≤ i64Max))
    (ho : a.oracleA ≠ 0 ∨ a.oracleB = 0) (ho' : a.oracleA = 0 ∨ a.oracleA ≠ a.oracleB)
    (hmint : a.baseMint ≠ a.quoteMint ∧ a.baseMint ≠ 0 ∧ a.quoteMint ≠ 0) (hv : a.baseVault ≠ a.quoteVault) :
    ∃ s, createMarket a now tokens lamports = .ok s := by
  have : a.check now = .ok () := by
    unfold CreateArgs.check
    simp only [bind_ok, req_ok]
    unfold inI64 feesScale
    have e1 : i64Min = -9223372036854775808 := by decide
    have e2 : i64Max = 9223372036854775807 := by decide
    refine ⟨(), ?_, (), ?_, (), ?_, (), ?_, (), ?_, (), hq.1, (), hb.1, (), (fun h => ?_), (), (fun h => ?_), hmint.1, hmint.2.1, hmint.2.2, hv⟩
    on_goal 6 => exact ho'.elim h.1 (fun k => k h.2.2)
    on_goal 6 => exact ho.elim (fun k => k h.1) h.2
    all_goals omega
  unfold createMarket
  rw [this]
  exact ⟨_, rfl⟩

/-- The settings stay safe forever, and no instruction changes them. -/
theorem C42_forever {s : State} (hr : Reachable s) :
    (0 ≤ s.g.market.takerFee ∧ s.g.market.takerFee ≤ 1000000) ∧
    (s.g.market.makerFee ≤ 1000000 ∧ -s.g.market.makerFee ≤ s.g.market.takerFee) ∧
    0 < s.g.market.baseLotSize ∧ 0 < s.g.market.quoteLotSize ∧
    ∀ op s', step s op = .ok s' → s'.g.market.takerFee = s.g.market.takerFee ∧ s'.g.market.makerFee = s.g.market.makerFee ∧
      s'.g.market.baseLotSize = s.g.market.baseLotSize ∧ s'.g.market.quoteLotSize = s.g.market.quoteLotSize := by
  obtain ⟨a, now, h1, h2⟩ := reachable_cfg hr
  obtain ⟨c1, c2, c3, c4, c5, c6, c7, c8, _⟩ := CreateArgs.check_ok h1
  have t : s.g.market.takerFee = a.takerFee := h2.taker
  have m : s.g.market.makerFee = a.makerFee := h2.maker
  have b : s.g.market.baseLotSize = a.baseLotSize := h2.bls
  have q : s.g.market.quoteLotSize = a.quoteLotSize := h2.qls
  refine ⟨⟨by omega, by omega⟩, ⟨by omega, by omega⟩, by omega, by omega, fun op s' h => ?_⟩
  have hc := (step_cfg (reachable_Inv hr) h).1
  exact ⟨hc.taker, hc.maker, hc.bls, hc.qls⟩

/-! A market with a maker rebate equal to the taker fee is accepted; the traded market of the scenario keeps its settings. -/
open Scenario in
example : ∃ s, createMarket { args with makerFee := -400 } 0 tokens0 lamports0 = .ok s :=
  C42_accepts (by decide) (by decide) (by decide) (by decide) (by decide) (by decide) (by decide) (by decide) (by decide)

open Scenario in
example : ∃ (s : State), Reachable s ∧ decide (s.g.market.takerFee = 400 ∧ s.g.heap.events.length = 2) = true :=
  exec_spec (a := args) (ops := ops1) (p := fun s => decide (s.g.market.takerFee = 400 ∧ s.g.heap.events.length = 2)) (by decide +kernel)

end OB
