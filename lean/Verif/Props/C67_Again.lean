import Verif.Spec.Lives
import Verif.Spec.Exit
import Verif.Spec.Others
import Verif.Proofs.Again
import Verif.Props.C13_Conservation
import Verif.Props.C24_Close
import Verif.Props.WorldScenario
/-!
C67 — A market created at the address of a closed one starts clean.
-/
namespace OB
open Spec

/-- Only a closed market can be replaced.  The new one is open, with an empty book, an empty queue, no deposits, no fees, no rebates and
the first sequence number; its vaults are empty token accounts of the mints and owner of the new market. -/
theorem C67_clean (s s' : State) (a : CreateArgs) (now : Int) (h : recreateMarket s a now = .ok s') :
    s.closed = true ∧ s'.closed = false ∧ s'.marketKey = s.marketKey ∧ s'.book.resting = [] ∧ s'.g.heap.events = [] ∧
    s'.g.market.baseDepositTotal = 0 ∧ s'.g.market.quoteDepositTotal = 0 ∧ s'.g.market.feesAvailable = 0 ∧
    s'.g.market.referrerRebatesAccrued = 0 ∧ s'.g.market.feesAccrued = 0 ∧ s'.g.market.seqNum = 0 ∧
    s'.g.market.marketBaseVault = a.baseVault ∧ s'.g.market.marketQuoteVault = a.quoteVault ∧
    s'.tokens a.baseVault = { owner := s.g.market.marketAuthority, mint := a.baseMint, amount := 0 } ∧
    s'.tokens a.quoteVault = { owner := s.g.market.marketAuthority, mint := a.quoteMint, amount := 0 } := by
  obtain ⟨h1, h2, h3, h4, rfl⟩ := recreateMarket_inv h
  obtain ⟨_, _, _, _, _, _, _, _, hne, _⟩ := CreateArgs.check_ok h4
  refine ⟨h1, rfl, h2, ?_, ?_, rfl, rfl, rfl, rfl, rfl, rfl, rfl, rfl, ?_, ?_⟩
  · have : (Book.resting { bids := BookSide.empty .bid, asks := BookSide.empty .ask }) = [] := by decide +kernel
    exact this
  · have : EventHeap.init.events = [] := by decide +kernel
    exact this
  · simp [h3]
  · simp only [h3]
    rw [if_neg (fun e => hne e.symm), if_pos trivial]

/-- No other token account and no SOL balance changes. -/
theorem C67_others (s s' : State) (a : CreateArgs) (now : Int) (h : recreateMarket s a now = .ok s') :
    s'.lamports = s.lamports ∧ ∀ k, k ≠ a.baseVault → k ≠ a.quoteVault → s'.tokens k = s.tokens k := by
  obtain ⟨_, _, _, _, rfl⟩ := recreateMarket_inv h
  refine ⟨rfl, fun k h1 h2 => ?_⟩
  simp only [if_neg h1, if_neg h2]

/-- The open orders accounts of the closed market become accounts of the new one as they are, and hold nothing there: nothing is due to
any of them, in either token. -/
theorem C67_accounts (s s' : State) (hr : Reachable s) (a : CreateArgs) (now : Int) (h : recreateMarket s a now = .ok s') :
    s'.g.accts = s.g.accts ∧
    ∀ k b, s'.g.accts.get? k = some b → HoldsNothing b ∧ dueBase s' k b = 0 ∧ dueQuote s' k b = 0 := by
  obtain ⟨hc, _, _, e1, e2, _⟩ := C67_clean s s' a now h
  have hacc : s'.g.accts = s.g.accts := by
    obtain ⟨_, _, _, _, rfl⟩ := recreateMarket_inv h
    rfl
  refine ⟨hacc, fun k b hb => ?_⟩
  rw [hacc] at hb
  have hh := closed_holds_nothing hr hc k b hb
  refine ⟨hh, ?_, ?_⟩
  · unfold dueBase eventsOf ordersOf
    rw [e1, e2, hh.freeBase]; rfl
  · unfold dueQuote eventsOf ordersOf
    rw [e1, e2, hh.freeQuote]; rfl

/-- From there on, through any operations and any further lives of the market, everything owed to accounts, referrers and the fee
collector is counted in the deposit totals and lies in the vaults of the current life. -/
theorem C67_solvent (s s' s'' : State) (hr : Reachable s) (a : CreateArgs) (now : Int) (h : recreateMarket s a now = .ok s')
    (hl : Succession s' s'') :
    s''.g.market.baseDepositTotal =
      sumAccts s'' (fun a => a.position.baseFreeNative + a.position.asksBaseLots * s''.g.market.baseLotSize) +
      sumEvents s'' (undeliveredBase s''.g.market) ∧
    s''.g.market.quoteDepositTotal =
      sumAccts s'' (fun a => a.position.quoteFreeNative + a.position.bidsQuoteLots * s''.g.market.quoteLotSize +
        a.position.lockedMakerFees + a.position.referrerRebatesAvailable) +
      s''.g.market.feesAvailable + sumEvents s'' (undeliveredQuote s''.g.market) ∧
    s''.g.market.baseDepositTotal ≤ (s''.tokens s''.g.market.marketBaseVault).amount ∧
    s''.g.market.quoteDepositTotal ≤ (s''.tokens s''.g.market.marketQuoteVault).amount := by
  have hr'' : Reachable s'' := by
    induction hl with
    | refl => exact .again s s' a now hr h
    | step s1 s2 op _ h ih => exact .step s1 s2 op ih h
    | again s1 s2 a now _ h ih => exact .again s1 s2 a now ih h
  have k1 := C13_base_conserved s'' hr''
  have k2 := C14_quote_conserved s'' hr''
  have k3 := C15_vaults_solvent s'' hr''
  exact ⟨k1, k2, k3.1, k3.2.1⟩

/-- In a deployment, where the vaults are derived from the market and the mints, the new market has two other mints than the old one, and
what was paid into the vaults of the old market after it was emptied stays where it is, for no market to pay out. -/
theorem C67_other_mints {A : Addresses} {w w' : World} (hr : WReachable A w) {a : CreateArgs} {now : Int} {p : Part}
    (hp : w.markets a.marketKey = some p) (h : w.step A (.createMarket a now) = .ok w') :
    p.closed = true ∧
    a.baseMint ≠ p.g.market.baseMint ∧ a.baseMint ≠ p.g.market.quoteMint ∧ a.quoteMint ≠ p.g.market.baseMint ∧
    a.quoteMint ≠ p.g.market.quoteMint ∧
    w'.tokens p.g.market.marketBaseVault = w.tokens p.g.market.marketBaseVault ∧
    w'.tokens p.g.market.marketQuoteVault = w.tokens p.g.market.marketQuoteVault := by
  have hi := wreachable_WInv hr
  obtain ⟨s, _, h2, h3, h4, h5, h6, h7, rfl⟩ := newMarket_inv h
  obtain ⟨_, m1, m2, m3, _⟩ := hi.mkt _ p hp
  have hb := hi.vault hp (i := p.g.market.marketBaseVault) (by unfold Market.isMarketVault; simp)
  have hq := hi.vault hp (i := p.g.market.marketQuoteVault) (by unfold Market.isMarketVault; simp)
  have n1 : p.g.market.marketBaseVault ≠ a.baseVault := fun e => hb.2 (by rw [e]; exact h5)
  have n2 : p.g.market.marketBaseVault ≠ a.quoteVault := fun e => hb.2 (by rw [e]; exact h6)
  have n3 : p.g.market.marketQuoteVault ≠ a.baseVault := fun e => hq.2 (by rw [e]; exact h5)
  have n4 : p.g.market.marketQuoteVault ≠ a.quoteVault := fun e => hq.2 (by rw [e]; exact h6)
  have hcl : p.closed = true := by
    rcases h7 with ⟨e, _⟩ | ⟨p', e, hre⟩
    · rw [hp] at e; cases e
    · rw [hp] at e; injection e with e; subst e
      exact (recreateMarket_inv hre).1
  obtain ⟨_, _, hs⟩ := hi.newMarket_state h7
  refine ⟨hcl, fun e => n1 ?_, fun e => n3 ?_, fun e => n2 ?_, fun e => n4 ?_, ?_, ?_⟩
  · rw [m2, h3, h2, e]
  · rw [m3, h3, h2, e]
  · rw [m2, h4, h2, e]
  · rw [m3, h4, h2, e]
  · show s.tokens _ = _
    rw [hs]; simp only [if_neg n1, if_neg n2]
  · show s.tokens _ = _
    rw [hs]; simp only [if_neg n3, if_neg n4]

namespace AgainCase
open Scenario

/-- A market whose address is used again, with an account that stays. -/
example : ∃ w w' p, WReachable addrs w ∧ w.markets (wargs 15 3 4).marketKey = some p ∧
    w.step addrs (.createMarket (wargs 15 3 4) 5000) = .ok w' ∧ p.g.accts.length = 1 := by
  obtain ⟨w, h1, h2⟩ := wexec_spec (ops := [.createMarket (wargs 15 1 2) 0, .createIndexer 3, .createOO 15 3 0,
      .market 15 (.setMarketExpired 3 1000), .market 15 (.closeMarket 3 2000)]) (p := fun w =>
    okAnd (w.step addrs (.createMarket (wargs 15 3 4) 5000)) (fun _ => true) &&
    (w.markets (wargs 15 3 4).marketKey).any (fun p => decide (List.length p.g.accts = 1)))
    (by decide +kernel)
  simp only [Bool.and_eq_true] at h2
  obtain ⟨w', hw', _⟩ := okAnd_spec h2.1
  obtain ⟨p, hp, ep⟩ := Option.any_eq_true _ _ |>.mp h2.2
  exact ⟨w, w', p, h1, hp, hw', of_decide_eq_true ep⟩

end AgainCase

/-- The claim that a side and an order id name an order of one account only, for all lives of a market address. -/
def IdsOnceAtAddress : Prop :=
  ∀ s s' side c c' l l', Reachable s → Succession s s' → (side, c, l) ∈ s.book.resting → (side, c', l') ∈ s'.book.resting →
    l'.key = l.key → l'.owner = l.owner

namespace AgainCase
open Scenario

/-- The market closed. -/
def closing : List Op := CloseCase.unwind.drop 10 ++ [.closeMarket 2 1000]

/-- The market created at the same address for other mints. -/
def args2 : CreateArgs := { args with baseMint := 12, quoteMint := 13, baseVault := 22, quoteVault := 23 }

/-- Trader 32 gets tokens of the new market and places an order. -/
def life2 : List Op :=
  [.externalToken 72 { owner := 32, mint := 12, amount := 1000000 },
   .placeOrder { signer := 32, ooKey := 42, admin := 0, userToken := 72, now := 1000, oracle := some 1000, rem := [] }
     (limitOrder .ask 1010 5 9)]

/-- First life up to the last order, closing, re-creation, second life. -/
def lives (p : State → State → State → State → Bool) : Bool :=
  okAnd (exec args ops1) fun s => okAnd (run s closing) fun s1 => okAnd (recreateMarket s1 args2 3000) fun s2 =>
    okAnd (run s2 life2) fun s3 => p s s1 s2 s3

theorem run_later {s s1 s2 : State} {ops : List Op} (hs : Succession s s1) (h : run s1 ops = .ok s2) : Succession s s2 := by
  induction ops generalizing s1 with
  | nil => injection h with h; rwa [← h]
  | cons op ops ih =>
    unfold run at h
    cases h1 : step s1 op with
    | error e => rw [h1] at h; cases h
    | ok s3 => rw [h1] at h; exact ih (.step s1 s3 op hs h1) h

theorem lives_spec {p : State → State → State → State → Bool} (h : lives p = true) :
    ∃ s s1 s2 s3, Reachable s ∧ Reachable s1 ∧ recreateMarket s1 args2 3000 = .ok s2 ∧ Succession s2 s3 ∧ Succession s s3 ∧
      p s s1 s2 s3 = true := by
  obtain ⟨s, h0, h⟩ := okAnd_spec h
  obtain ⟨s1, h1, h⟩ := okAnd_spec h
  obtain ⟨s2, h2, h⟩ := okAnd_spec h
  obtain ⟨s3, h3, h⟩ := okAnd_spec h
  exact ⟨s, s1, s2, s3, exec_reachable h0, run_reachable (exec_reachable h0) h1, h2, run_later .refl h3,
    run_later (.again s1 s2 _ _ (run_later .refl h1) h2) h3, h⟩

/-! Three accounts survive, one of which trades again. -/
example : ∃ s s1 s2 s3, Reachable s ∧ Reachable s1 ∧ recreateMarket s1 args2 3000 = .ok s2 ∧ Succession s2 s3 ∧ Succession s s3 ∧
    decide (s2.g.accts.length = 3 ∧ (s3.g.accts.get? 42).map (·.position.asksBaseLots) = some 5 ∧
      s3.g.market.baseDepositTotal = 500 ∧ (s3.tokens 22).amount = 500) = true :=
  lives_spec (p := fun _ _ s2 s3 => decide (s2.g.accts.length = 3 ∧ (s3.g.accts.get? 42).map (·.position.asksBaseLots) = some 5 ∧
      s3.g.market.baseDepositTotal = 500 ∧ (s3.tokens 22).amount = 500)) (by decide +kernel)

end AgainCase

open AgainCase in
/-- It is false: the sequence number restarts with the market, so that an order of a later life can have the side and id of an order
that another account had in an earlier life. -/
theorem C67_ids_again : ¬ IdsOnceAtAddress := by
  intro hall
  obtain ⟨s, _, _, s3, hr, _, _, _, hs, hp⟩ := lives_spec (p := fun s _ _ s3 =>
    s.book.resting.any (fun x => s3.book.resting.any (fun y => decide (x.1 = y.1 ∧ y.2.2.key = x.2.2.key ∧ y.2.2.owner ≠ x.2.2.owner))))
    (by decide +kernel)
  rw [List.any_eq_true] at hp
  obtain ⟨⟨sd, c, l⟩, hx, hp⟩ := hp
  rw [List.any_eq_true] at hp
  obtain ⟨⟨sd', c', l'⟩, hy, hp⟩ := hp
  rw [decide_eq_true_eq] at hp
  obtain ⟨h1, h2, h3⟩ := hp
  simp only at h1 h2 h3
  subst h1
  exact h3 (hall s s3 sd c c' l l' hr hs hx hy h2)

end OB
