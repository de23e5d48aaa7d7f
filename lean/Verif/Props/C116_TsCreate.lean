import Verif.Model.TsCreate
import Verif.Model.TsEvents
import Verif.Proofs.Ts
import Verif.Props.C114_TsSigners
import Verif.Props.WorldScenario
/-!
C116  Creating a market through the TypeScript library.
-/
namespace OB
open Spec TsCreate Layout

/-- What a market must look like to be accepted (create_market.rs:24-62), in terms of what the caller gives. -/
structure GoodParams (p : Params) (now : Int) : Prop where
  range : inI64 p.quoteLotSize ∧ inI64 p.baseLotSize ∧ inI64 p.makerFee ∧ inI64 p.takerFee ∧ inI64 p.timeExpiry
  taker : 0 ≤ p.takerFee ∧ p.takerFee ≤ 1000000
  maker : -p.takerFee ≤ p.makerFee ∧ p.makerFee ≤ 1000000
  expiry : p.timeExpiry = 0 ∨ now < p.timeExpiry
  lots : 0 < p.quoteLotSize ∧ 0 < p.baseLotSize
  mints : p.baseMint ≠ p.quoteMint ∧ p.baseMint ≠ 0 ∧ p.quoteMint ≠ 0
  /-- a second oracle only beside a first, different one; an oracle that is given is not the default key -/
  oracles : p.oracleA ≠ some 0 ∧ p.oracleB ≠ some 0 ∧ (p.oracleB ≠ none → p.oracleA ≠ none ∧ p.oracleA ≠ p.oracleB)

private theorem check_iff {A : Addresses} {p : Params} {now : Int} (ha : p.oracleA ≠ some 0) (hb : p.oracleB ≠ some 0) :
    (createArgs A p).check now = .ok () ↔ GoodParams p now := by
  have hv : p.baseMint ≠ p.quoteMint → A.vault (A.authority p.market) p.baseMint ≠ A.vault (A.authority p.market) p.quoteMint :=
    fun h e => h (A.vault_inj e).2
  have ho : (¬ (p.oracleA.getD 0 ≠ 0 ∧ p.oracleB.getD 0 ≠ 0 ∧ p.oracleA.getD 0 = p.oracleB.getD 0) ∧ ¬ (p.oracleA.getD 0 = 0 ∧ p.oracleB.getD 0 ≠ 0)) ↔
      (p.oracleB ≠ none → p.oracleA ≠ none ∧ p.oracleA ≠ p.oracleB) := by
    cases hA : p.oracleA with
    | none =>
      cases hB : p.oracleB with
      | none => simp
      | some y => simp; intro e; exact hb (by rw [hB, e])
    | some x =>
      have hx : x ≠ 0 := fun e => ha (by rw [hA, e])
      cases hB : p.oracleB with
      | none => simp [hx]
      | some y =>
        have hy : y ≠ 0 := fun e => hb (by rw [hB, e])
        simp [hx, hy]
  simp only [CreateArgs.check, createArgs, bind_ok, feesScale]
  constructor
  · rintro ⟨_, h1, _, h2, _, h3, _, h4, _, h5, _, h6, _, h7, _, h8, _, h9, h10⟩
    have h1 := req_ok.1 h1
    have h2 := req_ok.1 h2
    have h3 := req_ok.1 h3
    have h4 := req_ok.1 h4
    have h5 := req_ok.1 h5
    have h6 := req_ok.1 h6
    have h7 := req_ok.1 h7
    have h8 := req_ok.1 h8
    have h9 := req_ok.1 h9
    have h10 := req_ok.1 h10
    exact ⟨h1, by omega, by omega, by omega, ⟨by omega, by omega⟩, ⟨h10.1, h10.2.1, h10.2.2.1⟩, ha, hb, ho.1 ⟨h8, h9⟩⟩
  · rintro ⟨h1, h2, h3, h4, h5, h6, -, -, h7⟩
    obtain ⟨h8, h9⟩ := ho.2 h7
    exact ⟨(), req_ok.2 h1, (), req_ok.2 (by omega), (), req_ok.2 (by omega), (), req_ok.2 (by omega), (), req_ok.2 (by omega),
      (), req_ok.2 (by omega), (), req_ok.2 (by omega), (), req_ok.2 h8, (), req_ok.2 h9, req_ok.2 ⟨h6.1, h6.2.1, h6.2.2, hv h6.1⟩⟩

/-- At an address of its own, with vaults that nobody has created before, the market is created exactly if the parameters are good ones.  It
has the mints, lot sizes, fees, expiry, oracles and admins that were asked for: no admin where none was named, and the payer collects the fees
unless somebody else was named.  Its book is empty and its vaults are empty token accounts of its authority. -/
theorem C116_created {A : Addresses} {w : World} {p : Params} {now : Int} (hk : A.isPda p.market = false) (hm : w.markets p.market = none)
    (hv : (w.tokens (A.vault (A.authority p.market) p.baseMint)).mint = 0 ∧ (w.tokens (A.vault (A.authority p.market) p.quoteMint)).mint = 0)
    (ha : p.oracleA ≠ some 0) (hb : p.oracleB ≠ some 0) :
    ((∃ w', w.step A (.createMarket (createArgs A p) now) = .ok w') ↔ GoodParams p now) ∧
    ∀ w', w.step A (.createMarket (createArgs A p) now) = .ok w' → ∃ q, w'.markets p.market = some q ∧ q.closed = false ∧
      q.book.resting = [] ∧ q.g.accts = [] ∧
      q.g.market.baseMint = p.baseMint ∧ q.g.market.quoteMint = p.quoteMint ∧
      q.g.market.baseLotSize = p.baseLotSize ∧ q.g.market.quoteLotSize = p.quoteLotSize ∧
      q.g.market.makerFee = p.makerFee ∧ q.g.market.takerFee = p.takerFee ∧ q.g.market.timeExpiry = p.timeExpiry ∧
      (∀ k, p.oracleA = some k → q.g.market.oracleA = k) ∧ (p.oracleA = none → q.g.market.oracleA = 0) ∧
      (∀ k, p.oracleB = some k → q.g.market.oracleB = k) ∧ (p.oracleB = none → q.g.market.oracleB = 0) ∧
      (∀ k, p.openOrdersAdmin = some k → q.g.market.openOrdersAdmin = k) ∧ (p.openOrdersAdmin = none → q.g.market.openOrdersAdmin = 0) ∧
      (∀ k, p.consumeEventsAdmin = some k → q.g.market.consumeEventsAdmin = k) ∧
      (p.consumeEventsAdmin = none → q.g.market.consumeEventsAdmin = 0) ∧
      (∀ k, p.closeMarketAdmin = some k → q.g.market.closeMarketAdmin = k) ∧ (p.closeMarketAdmin = none → q.g.market.closeMarketAdmin = 0) ∧
      (∀ k, p.collectFeeAdmin = some k → q.g.market.collectFeeAdmin = k) ∧ (p.collectFeeAdmin = none → q.g.market.collectFeeAdmin = p.payer) ∧
      w'.tokens q.g.market.marketBaseVault = { owner := A.authority p.market, mint := p.baseMint, amount := 0 } ∧
      w'.tokens q.g.market.marketQuoteVault = { owner := A.authority p.market, mint := p.quoteMint, amount := 0 } := by
  have hw : ∀ w', w.step A (.createMarket (createArgs A p) now) = .ok w' ↔
      ∃ s, createMarket (createArgs A p) now w.tokens w.lamports = .ok s ∧ w.put p.market s = w' := by
    intro w'
    have hm' : w.markets (createArgs A p).marketKey = none := hm
    simp only [World.step, World.newMarket, hm', bind_ok]
    constructor
    · rintro ⟨_, _, _, _, _, _, _, _, s, hs, h⟩
      exact ⟨s, hs, pure_ok.1 h⟩
    · rintro ⟨s, hs, h⟩
      exact ⟨(), req_ok.2 hk, (), req_ok.2 rfl, (), req_ok.2 ⟨rfl, rfl⟩, (), req_ok.2 hv, s, hs, pure_ok.2 h⟩
  have hc : ∀ s, createMarket (createArgs A p) now w.tokens w.lamports = .ok s → GoodParams p now := by
    intro s h
    simp only [createMarket, bind_ok] at h
    obtain ⟨u, h, _⟩ := h
    exact (check_iff ha hb).1 h
  refine ⟨⟨?_, ?_⟩, ?_⟩
  · rintro ⟨w', h⟩
    obtain ⟨s, hs, _⟩ := (hw w').1 h
    exact hc s hs
  · intro h
    have : ∃ s, createMarket (createArgs A p) now w.tokens w.lamports = .ok s := by
      simp only [createMarket, bind_ok, pure_ok]
      exact ⟨_, (), (check_iff ha hb).2 h, rfl⟩
    obtain ⟨s, hs⟩ := this
    exact ⟨_, (hw _).2 ⟨s, hs, rfl⟩⟩
  · intro w' h
    obtain ⟨s, hs, rfl⟩ := (hw w').1 h
    have hg := hc s hs
    simp only [createMarket, bind_ok, pure_ok] at hs
    obtain ⟨_, _, rfl⟩ := hs
    have hne : A.vault (A.authority p.market) p.quoteMint ≠ A.vault (A.authority p.market) p.baseMint :=
      fun e => hg.mints.1 (A.vault_inj e).2.symm
    refine ⟨⟨_, _, _⟩, by simp [World.put]; exact ⟨rfl, rfl⟩, rfl, by rfl, rfl, rfl, rfl, rfl, rfl, rfl, rfl, rfl, ?_, ?_, ?_, ?_, ?_, ?_, ?_, ?_, ?_, ?_, ?_, ?_, ?_, ?_⟩
    all_goals first
      | (intro k hk; simp [CreateArgs.market, createArgs, hk])
      | (intro hk; simp [CreateArgs.market, createArgs, hk])
      | (simp [World.put, CreateArgs.market, createArgs, hne])

/-- The accounts that the library makes are just large enough for what the program keeps in them, whatever that is. -/
theorem C116_sizes (disc : Bytes) (hd : disc.length = 8) (bids asks : BookSide) (h : EventHeap) :
    sizes = [(bookSideBytes disc bids).length, (bookSideBytes disc asks).length, (eventHeapBytes disc h).length] := by
  have flat : ∀ {α : Type} (f : Nat → List α) (k n : Nat), (∀ i, (f i).length = k) → ((List.range n).flatMap f).length = n * k := by
    intro α f k n hf
    rw [List.length_flatMap]
    simp [hf]
  have hn : ∀ n : AnyNode, (nodeBytes n).length = 88 := by
    intro n; cases n <;> simp [nodeBytes, Ts.innerBytes_length, Ts.leafBytes_length, Ts.freeBytes_length, Ts.zeros_length]
  have hb : ∀ b : BookSide, (bookSideBytes disc b).length = 90952 := by
    intro b
    simp only [bookSideBytes, rootBytes, List.length_append, hd, Ts.le_length, Ts.zeros_length]
    rw [flat _ 88 _ (fun i => hn _)]
    rfl
  have he : ∀ e : EventNode, (eventNodeBytes e).length = 152 := by
    intro e
    simp only [eventNodeBytes, List.length_append, Ts.le_length, Ts.zeros_length]
    cases e.event <;> simp [eventBytes, fillBytes, outBytes, leI64, Ts.le_length, Ts.zeros_length]
  have hh : (eventHeapBytes disc h).length = 91288 := by
    simp only [eventHeapBytes, List.length_append, hd, Ts.le_length, Ts.zeros_length]
    rw [flat _ 152 _ (fun i => he _)]
    rfl
  rw [hb, hb, hh]
  rfl

/-- Sent with the signers that the library returns, it goes through from the wallet of the payer, and only from there: another wallet has to
add the signature of the payer. -/
theorem C116_signers (p : Params) (wallet : Pubkey) (hfresh : p.payer ≠ p.market ∧ p.payer ≠ p.bids ∧ p.payer ≠ p.asks ∧ p.payer ≠ p.heap) :
    (wallet = p.payer → Succeeds wallet (createMarketIx p)) ∧ (wallet ≠ p.payer → NeverSent wallet (createMarketIx p)) ∧
    Succeeds wallet { createMarketIx p with signers := (createMarketIx p).signers ++ [p.payer] } := by
  refine ⟨?_, ?_, ?_⟩
  · rintro rfl
    refine succeeds_of_exact ⟨?_, ?_⟩ ?_ <;> simp [createMarketIx, TsSend.Ix.signers]
  · intro h
    refine never_of_not_exact fun hx => ?_
    have := hx.2 (.call [p.payer, p.bids] 0) (by simp [createMarketIx]) p.payer (by simp [TsSend.Ix.signers])
    simp [createMarketIx, hfresh] at this
    exact h this.symm
  · refine succeeds_of_exact ⟨?_, ?_⟩ ?_ <;> simp [createMarketIx, TsSend.Ix.signers]

section Scenario
open Scenario

/-- A market with fees, a rebate for makers, an oracle and a close-market admin, beside the two of the scenario. -/
private def newParams : Params :=
  { payer := 3, quoteMint := 2, baseMint := 1, quoteLotSize := 10, baseLotSize := 100, makerFee := -200, takerFee := 400, timeExpiry := 0,
    oracleA := some 99, oracleB := none, openOrdersAdmin := none, consumeEventsAdmin := none, closeMarketAdmin := some 7, collectFeeAdmin := none,
    market := 23, bids := 27, asks := 31, heap := 35 }

example : GoodParams newParams 1000 := ⟨by decide, by decide, by decide, by decide, by decide, by decide, by decide⟩

example : ∃ w, WReachable addrs w ∧ w.markets newParams.market = none ∧ addrs.isPda newParams.market = false ∧
    (w.tokens (addrs.vault (addrs.authority newParams.market) newParams.baseMint)).mint = 0 ∧
    (w.tokens (addrs.vault (addrs.authority newParams.market) newParams.quoteMint)).mint = 0 := by
  obtain ⟨w, h1, h2⟩ := wexec_spec (ops := wops) (p := fun w => (w.markets newParams.market).isNone && !addrs.isPda newParams.market &&
    decide ((w.tokens (addrs.vault (addrs.authority newParams.market) newParams.baseMint)).mint = 0) &&
    decide ((w.tokens (addrs.vault (addrs.authority newParams.market) newParams.quoteMint)).mint = 0)) (by decide +kernel)
  simp only [Bool.and_eq_true, decide_eq_true_eq, Bool.not_eq_true', Option.isNone_iff_eq_none] at h2
  exact ⟨w, h1, h2.1.1.1, h2.1.1.2, h2.1.2, h2.2⟩

end Scenario

end OB
