import Verif.Proofs.TsDecode
import Verif.Props.C85_Fields
import Verif.Props.C54_Index
/-!
C94 — The TypeScript library reads markets, open orders accounts and indexers as the program has stored them.

The program maps its structs onto the data of an account, the library walks the types of openbook_v2.ts.  Both descriptions of the bytes
are written down separately in the model; the theorems say that they agree in every field, for every content that can come about.  (Book
sides: C75, event heap: C84.)
-/
namespace OB
open Spec Layout

/-- A market is decoded to what it holds, in every field. -/
theorem C94_market {s : State} (h : SizedReachable s) {disc : Bytes} (hd : disc.length = 8) {x : MarketExtra} (hx : MarketExtraFits x) :
    ∃ y, Ts.decodeMarket (marketAcctBytes disc x s.g.market) = .ok y ∧ MarketIs x s.g.market y :=
  Ts.decodeMarket_is hd hx (C85_fits h).market

/-- An open orders account is decoded to what it holds, in every field, with all its slots in order. -/
theorem C94_account {s : State} (h : SizedReachable s) {k : Pubkey} {a : OOA} (ha : s.g.accts.get? k = some a) {disc : Bytes}
    (hd : disc.length = 8) {x : AcctExtra} (hx : AcctExtraFits x) :
    ∃ y, Ts.decodeOpenOrders (acctBytes disc x a) = .ok y ∧ AcctIs x a y :=
  Ts.decodeOpenOrders_is hd hx ((C85_fits h).accounts _ (acct_mem ha)).2

/-- An indexer is decoded to what it holds, whatever bytes are left over in its account. -/
theorem C94_indexer {A : Addresses} {w : World} (h : WReachable A w) {o : Pubkey} {ix : Indexer} (hi : w.indexers o = some ix)
    (hk : ∀ n, FitsKey (A.ooAddr o n)) {disc : Bytes} (hd : disc.length = 8) {bump : Nat} (hb : bump < 2 ^ 8) (left : Bytes) :
    ∃ y, Ts.decodeIndexer (indexerBytes disc bump ix left) = .ok y ∧ y.bump = bump ∧ y.createdCounter = ix.createdCounter ∧
      y.addresses = ix.addresses := by
  obtain ⟨-, h2, h3, h4⟩ := (wreachable_WInv h).index o ix hi
  refine ⟨_, Ts.decodeIndexer_bytes hd hb (by omega) (by omega) (fun x hx => ?_) left, rfl, rfl, rfl⟩
  obtain ⟨k, hk1⟩ := (h4 x).mp hx
  obtain ⟨-, n, -, -, -, rfl⟩ := (wreachable_WInv h).addr k x o hk1
  exact hk n

/-- Data is decoded only as the type whose discriminator it begins with: what the library takes for a market or an account is not an
account of another type, and it is read as that type. -/
theorem C94_kind {disc : String → Bytes} {name name' : String} {data : Bytes} {y : Ts.Decoded} (h : Ts.decodeAccount disc name data = .ok y)
    (hd : data.take 8 = disc name') (hi : disc name = disc name' → name = name') : name = name' ∧
    ((∃ m, y = .market m ∧ name' = "market" ∧ Ts.decodeMarket data = .ok m) ∨
     (∃ a, y = .openOrders a ∧ name' = "openOrdersAccount" ∧ Ts.decodeOpenOrders data = .ok a) ∨
     (∃ i, y = .indexer i ∧ name' = "openOrdersIndexer" ∧ Ts.decodeIndexer data = .ok i) ∨
     ∃ e, y = .heap e ∧ name' = "eventHeap" ∧ Ts.decodeHeap data = .ok e) := by
  unfold Ts.decodeAccount at h
  split at h
  · cases h
  next h1 =>
    simp only [ne_eq, Decidable.not_not] at h1
    have hn := hi (h1.symm.trans hd)
    refine ⟨hn, ?_⟩
    rw [← hn]
    have key : ∀ {α : Type} {r : Ts.Js α} {f : α → Ts.Decoded}, (do return f (← r) : Ts.Js Ts.Decoded) = .ok y → ∃ a, y = f a ∧ r = .ok a := by
      intro α r f h
      cases r with
      | error e => cases h
      | ok a => injection h with h; exact ⟨a, h.symm, rfl⟩
    split at h
    next h2 => obtain ⟨a, e1, e2⟩ := key h; exact .inl ⟨a, e1, h2, e2⟩
    split at h
    next h2 => obtain ⟨a, e1, e2⟩ := key h; exact .inr (.inl ⟨a, e1, h2, e2⟩)
    split at h
    next h2 => obtain ⟨a, e1, e2⟩ := key h; exact .inr (.inr (.inl ⟨a, e1, h2, e2⟩))
    split at h
    next h2 => obtain ⟨a, e1, e2⟩ := key h; exact .inr (.inr (.inr ⟨a, e1, h2, e2⟩))
    cases h

/-! A market with fees accrued and orders on both sides, and the account of a trader with free and locked amounts, some slots in use. -/
example : ∃ s, SizedReachable s ∧ (s.book.resting.length = 4 ∧ 0 < s.g.market.quoteDepositTotal ∧
    ∃ k a, s.g.accts.get? k = some a ∧ 0 < a.position.asksBaseLots ∧ ∃ o ∈ a.openOrders, o.isFree = false) := by
  obtain ⟨s, h1, h2⟩ := SizedCase.exec_sized (a := Scenario.args) (ops := Scenario.ops1)
    (p := fun s => decide (s.book.resting.length = 4 ∧ 0 < s.g.market.quoteDepositTotal ∧
      ∃ x ∈ s.g.accts, s.g.accts.get? x.1 = some x.2 ∧ 0 < x.2.position.asksBaseLots ∧ ∃ o ∈ x.2.openOrders, o.isFree = false))
    (by decide +kernel) (by decide +kernel) (by decide +kernel)
  obtain ⟨h3, h4, x, -, h5⟩ := of_decide_eq_true h2
  exact ⟨s, h1, h3, h4, x.1, x.2, h5⟩

example : MarketExtraFits { bump := 255, baseDecimals := 9, quoteDecimals := 6, name := 77, bids := 1, asks := 2, eventHeap := 3,
                            confFilter := 5, maxStalenessSlots := -1, registrationTime := 1700000000 } :=
  ⟨by decide, by decide, by decide, by decide, by simp [FitsI64]⟩

example : ∃ w ix, WReachable Scenario.addrs w ∧ w.indexers 3 = some ix ∧ ix.addresses.length = 2 ∧ ix.createdCounter = 3 := by
  obtain ⟨w, h1, h2⟩ := Scenario.wexec_spec (ops := Scenario.wops)
    (p := fun w => (w.indexers 3).any (fun ix : Indexer => decide (ix.addresses.length = 2 ∧ ix.createdCounter = 3))) (by decide +kernel)
  cases h : w.indexers 3 with
  | none => rw [h] at h2; cases h2
  | some ix =>
    rw [h] at h2
    exact ⟨w, ix, h1, h, of_decide_eq_true h2⟩

end OB
