import Verif.Proofs.Find
/-!
C77  The clients find the accounts they search for.

The rust client searches for the open orders accounts of an owner, the TypeScript client for the markets of two mints.  The offsets of
the second search are not those of the mints; they lie past the mints, the second one reaches beyond the end of the account: no market
is ever found (C77_no_market).
-/
namespace OB
open Find Layout

/-- The discriminators of the account types: 8 bytes each, all different. -/
structure Discs (disc : Kind → Bytes) : Prop where
  len : ∀ k, (disc k).length = 8
  inj : ∀ k k', disc k = disc k' → k = k'

/-- Addresses have 32 bytes. -/
def isAddress (x : Nat) : Prop := x < 2 ^ 256

/-- The rust client finds exactly the open orders accounts of the owner. -/
theorem C77_owner {disc : Kind → Bytes} (hd : Discs disc) {accounts : List Account} {owner : Nat} (ho : isAddress owner)
    (ha : ∀ x ∈ accounts, ∀ a, x.2 = .openOrders a → isAddress a.owner) (hk : ∀ x ∈ accounts, ∀ b, x.2 ≠ .other .openOrders b) (x : Account) :
    x ∈ fetchOpenbookAccounts disc accounts owner ↔ x ∈ accounts ∧ ∃ a, x.2 = .openOrders a ∧ a.owner = owner := by
  unfold fetchOpenbookAccounts
  rw [List.mem_filter, and_congr_right_iff]
  intro hx
  have hp : (256 : Nat) ^ 32 = 2 ^ 256 := by decide
  have hlen : ∀ k, (disc .openOrders).length = (disc k).length := fun k => by rw [hd.len, hd.len]
  obtain ⟨key, c⟩ := x
  rw [Bool.and_eq_true]
  cases c with
  | market m =>
    simp only [Content.data, memcmp_zero (hlen _), decide_eq_true_eq, reduceCtorEq, false_and, exists_false, iff_false, not_and]
    intro h
    have := hd.inj _ _ h
    cases this
  | other k b =>
    simp only [Content.data, memcmp_zero (hlen _), decide_eq_true_eq, reduceCtorEq, false_and, exists_false, iff_false, not_and]
    intro h
    have := hd.inj _ _ h
    subst this
    exact absurd rfl (hk _ hx b)
  | openOrders a =>
    simp only [Content.data, openOrdersBytes]
    rw [memcmp_zero (hlen _), memcmp_at (hd.len _) (by rw [Ts.le_length, Ts.le_length])]
    simp only [decide_true, true_and, decide_eq_true_eq, Content.openOrders.injEq, exists_eq_left']
    constructor
    · exact fun h => le_inj (by rw [hp]; exact ha _ hx a rfl) (by rw [hp]; exact ho) h
    · exact fun h => by rw [h]

/-- The TypeScript client finds no market, whatever the mints. -/
theorem C77_no_market {disc : Kind → Bytes} (hd : Discs disc) (accounts : List Account) (base quote : Nat) {x : Account}
    (hx : x ∈ findAccountsByMints disc accounts base quote) : ∀ m, x.2 ≠ .market m := by
  intro m hm
  unfold findAccountsByMints at hx
  obtain ⟨_, h⟩ := List.mem_filter.mp hx
  rw [Bool.and_eq_true] at h
  rw [hm, memcmp_short (X := le 32 quote) (by
    simp only [Content.data, List.length_append, marketBytes_length, hd.len, Ts.le_length]; omega)] at h
  cases h.2

/-- The search that would work: the mints are at 576 and 608. -/
theorem C77_offsets {disc : Kind → Bytes} (hd : Discs disc) {m : MarketData} {base quote : Nat} (hb : isAddress base) (hq : isAddress quote)
    (hm : isAddress m.baseMint ∧ isAddress m.quoteMint) :
    (memcmp 576 (le 32 base) (Content.data disc (.market m)) && memcmp 608 (le 32 quote) (Content.data disc (.market m))) = true ↔
      m.baseMint = base ∧ m.quoteMint = quote := by
  have hp : (256 : Nat) ^ 32 = 2 ^ 256 := by decide
  obtain ⟨A, C, he, hl⟩ := market_mints m (disc .market) (hd.len _)
  simp only [Content.data]
  rw [he, Bool.and_eq_true, memcmp_at hl (by rw [Ts.le_length, Ts.le_length])]
  rw [← List.append_assoc A, memcmp_at (by simp [hl, Ts.le_length]) (by rw [Ts.le_length, Ts.le_length])]
  rw [decide_eq_true_eq, decide_eq_true_eq]
  constructor
  · rintro ⟨h1, h2⟩
    exact ⟨le_inj (by rw [hp]; exact hm.1) (by rw [hp]; exact hb) h1, le_inj (by rw [hp]; exact hm.2) (by rw [hp]; exact hq) h2⟩
  · rintro ⟨h1, h2⟩
    rw [h1, h2]; exact ⟨rfl, rfl⟩

/-! ### cases -/

namespace FindCase

/-- Some discriminators. -/
def disc : Kind → Bytes
  | .market => [1, 2, 3, 4, 5, 6, 7, 8]
  | .openOrders => [2, 2, 3, 4, 5, 6, 7, 8]
  | .indexer => [3, 2, 3, 4, 5, 6, 7, 8]
  | .bookSide => [4, 2, 3, 4, 5, 6, 7, 8]
  | .eventHeap => [5, 2, 3, 4, 5, 6, 7, 8]
  | .stubOracle => [6, 2, 3, 4, 5, 6, 7, 8]

theorem discs : Discs disc := ⟨fun k => by cases k <;> rfl, fun k k' => by cases k <;> cases k' <;> simp [disc]⟩

/-- A market of the mints 10 and 11. -/
def market : MarketData :=
  { bump := 255, baseDecimals := 9, quoteDecimals := 6, marketAuthority := 101, timeExpiry := 0, collectFeeAdmin := 1, openOrdersAdmin := 0,
    consumeEventsAdmin := 0, closeMarketAdmin := 2, name := 7, bids := 12, asks := 13, eventHeap := 14, oracleA := 50, oracleB := 0,
    confFilter := 0, maxStalenessSlots := -1, quoteLotSize := 10, baseLotSize := 100, seqNum := 5, registrationTime := 3, makerFee := -200,
    takerFee := 400, feesAccrued := 0, feesToReferrers := 0, referrerRebatesAccrued := 0, feesAvailable := 0, makerVolume := 0,
    takerVolumeWoOo := 0, baseMint := 10, quoteMint := 11, marketBaseVault := 20, baseDepositTotal := 0, marketQuoteVault := 21,
    quoteDepositTotal := 0 }

def openOrders (owner : Nat) : OpenOrdersData :=
  { owner := owner, market := 100, name := 0, delegate := 0, accountNum := 1, bump := 254, version := 1, rest := zeros 1120 }

def accounts : List Account :=
  [(100, .market market), (41, .openOrders (openOrders 31)), (42, .openOrders (openOrders 32)), (43, .openOrders (openOrders 31)),
   (12, .other .bookSide (zeros 90944))]

end FindCase
open FindCase

/-- The hypotheses of `C77_owner` hold here and two of three accounts are found. -/
example : Discs disc ∧ isAddress 31 ∧ (∀ x ∈ accounts, ∀ a, x.2 = .openOrders a → isAddress a.owner) ∧
    (∀ x ∈ accounts, ∀ b, x.2 ≠ .other .openOrders b) ∧ (fetchOpenbookAccounts disc accounts 31).map (·.1) = [41, 43] := by
  refine ⟨discs, by unfold isAddress; decide, ?_, ?_, by decide +kernel⟩
  · intro x hx a ha
    simp only [accounts, List.mem_cons, List.not_mem_nil, or_false] at hx
    rcases hx with rfl | rfl | rfl | rfl | rfl <;> simp only [Content.openOrders.injEq, reduceCtorEq] at ha <;> subst ha <;>
      simp [isAddress, openOrders]
  · intro x hx b hb
    simp only [accounts, List.mem_cons, List.not_mem_nil, or_false] at hx
    rcases hx with rfl | rfl | rfl | rfl | rfl <;> simp at hb

/-- There is a market of the mints 10 and 11; the search for it finds nothing. -/
theorem C77_missed : (100, Content.market market) ∈ accounts ∧ market.baseMint = 10 ∧ market.quoteMint = 11 ∧
    findAccountsByMints disc accounts 10 11 = [] :=
  ⟨by simp [accounts], rfl, rfl, by decide +kernel⟩

end OB
