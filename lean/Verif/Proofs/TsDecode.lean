import Verif.Spec.TsDecode
import Verif.Proofs.TsEvents
/-! The TypeScript library decodes what the program has stored in markets, open orders accounts and indexers. -/
namespace OB.Ts
open OB.Layout OB.Spec

theorem js_bind {α β : Type} (a : α) (f : α → Js β) : (Except.ok a : Js α) >>= f = f a := rfl

theorem fieldI_le (x : Int) (r : Bytes) (h : FitsI64 x) : fieldI (leI64 x ++ r) = .ok (x, r) := by
  obtain ⟨h1, h2⟩ := h
  unfold fieldI leI64
  rw [field_le 8 _ _ (asU64_fits _), js_bind]
  simp only [pure, Except.pure]
  rw [asI64_asU64 ⟨by unfold i64Min; omega, by unfold i64Max; omega⟩]

theorem skip_zeros (k : Nat) (r : Bytes) : skip k (zeros k ++ r) = .ok r := by
  unfold skip
  rw [field_skip k _ _ (zeros_length k)]
  rfl

theorem skip_last (k : Nat) : skip k (zeros k) = .ok [] := by
  have h := skip_zeros k []
  rwa [List.append_nil] at h

/-- Every number of the record fits the type of its field. -/
structure DataFits (m : Find.MarketData) : Prop where
  h1 : m.bump < 256 ^ 1
  h2 : m.baseDecimals < 256 ^ 1
  h3 : m.quoteDecimals < 256 ^ 1
  k1 : m.marketAuthority < 256 ^ 32
  k2 : m.collectFeeAdmin < 256 ^ 32
  k3 : m.openOrdersAdmin < 256 ^ 32
  k4 : m.consumeEventsAdmin < 256 ^ 32
  k5 : m.closeMarketAdmin < 256 ^ 32
  k6 : m.bids < 256 ^ 32
  k7 : m.asks < 256 ^ 32
  k8 : m.eventHeap < 256 ^ 32
  k9 : m.oracleA < 256 ^ 32
  k10 : m.oracleB < 256 ^ 32
  k11 : m.baseMint < 256 ^ 32
  k12 : m.quoteMint < 256 ^ 32
  k13 : m.marketBaseVault < 256 ^ 32
  k14 : m.marketQuoteVault < 256 ^ 32
  n1 : m.name < 256 ^ 16
  i1 : FitsI64 m.timeExpiry
  i2 : FitsI64 m.maxStalenessSlots
  i3 : FitsI64 m.quoteLotSize
  i4 : FitsI64 m.baseLotSize
  i5 : FitsI64 m.registrationTime
  i6 : FitsI64 m.makerFee
  i7 : FitsI64 m.takerFee
  u1 : m.confFilter < 256 ^ 8
  u2 : m.seqNum < 256 ^ 8
  u3 : m.referrerRebatesAccrued < 256 ^ 8
  u4 : m.feesAvailable < 256 ^ 8
  u5 : m.baseDepositTotal < 256 ^ 8
  u6 : m.quoteDepositTotal < 256 ^ 8
  w1 : m.feesAccrued < 256 ^ 16
  w2 : m.feesToReferrers < 256 ^ 16
  w3 : m.makerVolume < 256 ^ 16
  w4 : m.takerVolumeWoOo < 256 ^ 16

theorem decodeMarket_bytes (disc : Bytes) (m : Find.MarketData) (hd : disc.length = 8) (h : DataFits m) :
    decodeMarket (disc ++ Find.marketBytes m) = .ok m := by
  obtain ⟨⟩ := h
  unfold decodeMarket Find.marketBytes
  rw [drop_at _ _ 8 hd]
  repeat' first
    | (rw [field_le _ _ _ (by assumption), js_bind]; dsimp only)
    | (rw [fieldI_le _ _ (by assumption), js_bind]; dsimp only)
    | rw [skip_zeros, js_bind]
  rw [skip_last, js_bind]
  rfl

theorem toNat_lt {x : Int} {k : Nat} (h : x < (2 : Int) ^ k) : x.toNat < 2 ^ k := by
  have h1 : ((2 ^ k : Nat) : Int) = (2 : Int) ^ k := by simp
  have h2 : (0 : Nat) < 2 ^ k := Nat.pow_pos (by decide)
  omega

theorem key32 {k : Nat} (h : FitsKey k) : k < 256 ^ 32 := by simpa [FitsKey] using h

theorem dataFits {x : MarketExtra} {m : Market} (hx : MarketExtraFits x) (hm : MarketFits m) : DataFits (marketData x m) := by
  obtain ⟨x1, x2, x3, x4, x5⟩ := hx
  obtain ⟨m1, m2, m3, m4, m5⟩ := hm
  simp only [List.mem_cons, List.not_mem_nil, or_false, forall_eq_or_imp, forall_eq, FitsU64, FitsU128] at x1 x3 x5 m1 m2 m4 m5
  refine ⟨?_, ?_, ?_, key32 m1.1, key32 m1.2.1, key32 m1.2.2.1, key32 m1.2.2.2.1, key32 m1.2.2.2.2.1, key32 x3.1, key32 x3.2.1,
    key32 x3.2.2, key32 m1.2.2.2.2.2.1, key32 m1.2.2.2.2.2.2.1, key32 m1.2.2.2.2.2.2.2.1, key32 m1.2.2.2.2.2.2.2.2.1,
    key32 m1.2.2.2.2.2.2.2.2.2.1, key32 m1.2.2.2.2.2.2.2.2.2.2, ?_, m2.1, x5.1, m2.2.1, m2.2.2.1, x5.2, m2.2.2.2.1, m2.2.2.2.2,
    ?_, ?_, ?_, ?_, ?_, ?_, ?_, ?_, ?_, ?_⟩
  all_goals simp only [marketData]; omega

theorem decodeMarket_is {disc : Bytes} {x : MarketExtra} {m : Market} (hd : disc.length = 8) (hx : MarketExtraFits x) (hm : MarketFits m) :
    ∃ y, decodeMarket (marketAcctBytes disc x m) = .ok y ∧ MarketIs x m y := by
  refine ⟨_, decodeMarket_bytes disc _ hd (dataFits hx hm), ?_⟩
  obtain ⟨-, -, -, m4, m5⟩ := hm
  simp only [List.mem_cons, List.not_mem_nil, or_false, forall_eq_or_imp, forall_eq, FitsU64, FitsU128] at m4 m5
  constructor <;> first | rfl | (simp only [marketData]; omega)

/-! ### open orders accounts -/

theorem decodePosition_bytes (p : Position) (r : Bytes) (h : PositionFits p) : decodePosition (positionBytes p ++ r) = .ok (p, r) := by
  obtain ⟨h1, h2, h3⟩ := h
  simp only [List.mem_cons, List.not_mem_nil, or_false, forall_eq_or_imp, forall_eq, FitsU64, FitsU128] at h1 h2 h3
  obtain ⟨a1, a2, a3⟩ := h1
  obtain ⟨b1, b2, b3, b4, b5⟩ := h2
  obtain ⟨c1, c2⟩ := h3
  unfold decodePosition positionBytes leU
  simp only [List.append_assoc]
  rw [fieldI_le _ _ a1, js_bind]; dsimp only
  rw [fieldI_le _ _ a2, js_bind]; dsimp only
  rw [field_le 8 _ _ (by omega), js_bind]; dsimp only
  rw [field_le 8 _ _ (by omega), js_bind]; dsimp only
  rw [field_le 8 _ _ (by omega), js_bind]; dsimp only
  rw [field_le 8 _ _ (by omega), js_bind]; dsimp only
  rw [field_le 8 _ _ (by omega), js_bind]; dsimp only
  rw [field_le 16 _ _ (by omega), js_bind]; dsimp only
  rw [field_le 16 _ _ (by omega), js_bind]; dsimp only
  rw [fieldI_le _ _ a3, js_bind]; dsimp only
  rw [skip_zeros, js_bind]
  simp only [pure, Except.pure, Int.toNat_of_nonneg b1.1, Int.toNat_of_nonneg b2.1, Int.toNat_of_nonneg b3.1, Int.toNat_of_nonneg b4.1,
    Int.toNat_of_nonneg b5.1, Int.toNat_of_nonneg c1.1, Int.toNat_of_nonneg c2.1]

/-- A slot as the library holds it. -/
def slotAcct (o : OpenOrder) : SlotAcct :=
  { id := o.id, clientId := o.clientId, lockedPrice := o.lockedPrice, isFree := boolTag o.isFree, sideAndTree := sideAndTree o.side o.comp }

theorem sideAndTree_lt (s : Side) (c : Comp) : sideAndTree s c < 256 ^ 1 := by cases s <;> cases c <;> decide

theorem decodeSlot_bytes (o : OpenOrder) (r : Bytes) (h : SlotFits o) : decodeSlot (slotBytes o ++ r) = .ok (slotAcct o, r) := by
  obtain ⟨h1, h2, h3⟩ := h
  unfold decodeSlot slotBytes
  simp only [List.append_assoc]
  rw [field_le 16 _ _ (by omega), js_bind]; dsimp only
  rw [field_le 8 _ _ (by omega), js_bind]; dsimp only
  rw [fieldI_le _ _ h3, js_bind]; dsimp only
  rw [field_le 1 _ _ (boolTag_lt _), js_bind]; dsimp only
  rw [field_le 1 _ _ (sideAndTree_lt _ _), js_bind]; dsimp only
  rw [skip_zeros, js_bind]
  rfl

theorem decodeSlots_bytes (os : List OpenOrder) (h : ∀ o ∈ os, SlotFits o) :
    decodeSlots os.length (os.flatMap slotBytes) = .ok (os.map slotAcct) := by
  induction os with
  | nil => rfl
  | cons o os ih =>
    rw [List.length_cons, List.flatMap_cons]
    unfold decodeSlots
    rw [decodeSlot_bytes o _ (h o List.mem_cons_self), js_bind]; dsimp only
    rw [ih (fun x hx => h x (List.mem_cons_of_mem _ hx)), js_bind]
    rfl

theorem slotIs (o : OpenOrder) : SlotIs o (slotAcct o) := by
  obtain ⟨f, s, c, id, cid, lp⟩ := o
  constructor <;> first | rfl | (cases f <;> cases s <;> cases c <;> simp [slotAcct, boolTag, sideAndTree])

theorem decodeOpenOrders_is {disc : Bytes} {x : AcctExtra} {a : OOA} (hd : disc.length = 8) (hx : AcctExtraFits x) (ha : AccountFits a) :
    ∃ y, decodeOpenOrders (acctBytes disc x a) = .ok y ∧ AcctIs x a y := by
  obtain ⟨x1, x2, x3, x4⟩ := hx
  obtain ⟨a1, a2, a3, a4, a5⟩ := ha
  refine ⟨{ owner := a.owner, market := x.market, name := x.name, delegate := a.delegate, accountNum := x.accountNum, bump := x.bump,
            version := 1, position := a.position, openOrders := a.openOrders.map slotAcct }, ?_, ⟨rfl, rfl, rfl, rfl, rfl, rfl, rfl, ?_⟩⟩
  · unfold decodeOpenOrders acctBytes Find.openOrdersBytes
    rw [drop_at _ _ 8 hd]; dsimp only
    rw [field_le 32 _ _ (key32 a1), js_bind]; dsimp only
    rw [field_le 32 _ _ (key32 x1), js_bind]; dsimp only
    rw [field_le 32 _ _ (key32 x2), js_bind]; dsimp only
    rw [field_le 32 _ _ (key32 a2), js_bind]; dsimp only
    rw [field_le 4 _ _ (by omega), js_bind]; dsimp only
    rw [field_le 1 _ _ (by omega), js_bind]; dsimp only
    rw [field_le 1 _ _ (by omega), js_bind]; dsimp only
    rw [skip_zeros, js_bind]
    rw [decodePosition_bytes _ _ a3, js_bind]; dsimp only
    have h := decodeSlots_bytes a.openOrders a4
    rw [a5] at h
    rw [h, js_bind]
    rfl
  · rw [List.forall₂_map_right_iff]
    exact List.forall₂_same.mpr (fun o _ => slotIs o)

/-! ### indexers -/

theorem decodeKeys_bytes (ks : List Nat) (r : Bytes) (h : ∀ k ∈ ks, FitsKey k) : decodeKeys ks.length (ks.flatMap (le 32) ++ r) = .ok ks := by
  induction ks with
  | nil => rfl
  | cons k ks ih =>
    rw [List.length_cons, List.flatMap_cons, List.append_assoc]
    unfold decodeKeys
    rw [field_le 32 _ _ (key32 (h k List.mem_cons_self)), js_bind]; dsimp only
    rw [ih (fun x hx => h x (List.mem_cons_of_mem _ hx)), js_bind]
    rfl

theorem decodeIndexer_bytes {disc : Bytes} (hd : disc.length = 8) {bump : Nat} (hb : bump < 2 ^ 8) {ix : Indexer}
    (hc : ix.createdCounter < 2 ^ 32) (hl : ix.addresses.length < 2 ^ 32) (hk : ∀ k ∈ ix.addresses, FitsKey k) (left : Bytes) :
    decodeIndexer (indexerBytes disc bump ix left) = .ok { bump := bump, createdCounter := ix.createdCounter, addresses := ix.addresses } := by
  unfold decodeIndexer indexerBytes
  rw [drop_at _ _ 8 hd]
  rw [field_le 1 _ _ (by omega), js_bind]; dsimp only
  rw [field_le 4 _ _ (by omega), js_bind]; dsimp only
  rw [field_le 4 _ _ (by omega), js_bind]; dsimp only
  rw [decodeKeys_bytes _ _ hk, js_bind]
  rfl

end OB.Ts
