import Verif.Proofs.FieldsTree
import Verif.Proofs.OOA
import Verif.Proofs.Keys
/-! The open orders accounts, the market and the event heap fit their fields after every operation on them. -/
namespace OB
open Spec

def inU128 (x : Int) : Prop := 0 ≤ x ∧ x ≤ u128Max

theorem asU64_in (x : Int) : inU64 (asU64 x) := ⟨asU64_nonneg x, asU64_le x⟩

structure FPos (p : Position) : Prop where
  bb : inI64 p.bidsBaseLots
  ab : inI64 p.asksBaseLots
  bf : inU64 p.baseFreeNative
  qf : inU64 p.quoteFreeNative
  lf : inU64 p.lockedMakerFees
  rr : inU64 p.referrerRebatesAvailable
  pc : inU64 p.penaltyHeapCount
  mv : inU128 p.makerVolume
  tv : inU128 p.takerVolume
  bq : inI64 p.bidsQuoteLots

def FSlot (o : OpenOrder) : Prop := o.id < 2 ^ 128 ∧ o.clientId < 2 ^ 64 ∧ inI64 o.lockedPrice

structure FAcct (a : OOA) : Prop where
  owner : FitsKey a.owner
  delegate : FitsKey a.delegate
  pos : FPos a.position
  slots : ∀ o ∈ a.openOrders, FSlot o
  len : a.openOrders.length = 24

structure FMarket (m : Market) : Prop where
  keys : ∀ k ∈ [m.marketAuthority, m.collectFeeAdmin, m.openOrdersAdmin, m.consumeEventsAdmin, m.closeMarketAdmin, m.oracleA, m.oracleB,
    m.baseMint, m.quoteMint, m.marketBaseVault, m.marketQuoteVault], FitsKey k
  i64s : ∀ x ∈ [m.timeExpiry, m.quoteLotSize, m.baseLotSize, m.makerFee, m.takerFee], inI64 x
  bls : 0 < m.baseLotSize
  qls : 0 < m.quoteLotSize
  seq : m.seqNum < 2 ^ 64
  rra : inU64 m.referrerRebatesAccrued
  fav : inU64 m.feesAvailable
  bdt : inU64 m.baseDepositTotal
  qdt : inU64 m.quoteDepositTotal
  facc : inU128 m.feesAccrued
  ftr : inU128 m.feesToReferrers
  mv : inU128 m.makerVolume
  tv : inU128 m.takerVolumeWoOo

def FAccts (as : Accts) : Prop := ∀ x ∈ as, FitsKey x.1 ∧ FAcct x.2

structure FLedger (g : Ledger) : Prop where
  market : FMarket g.market
  heap : HeapFits g.heap
  accts : FAccts g.accts

theorem FSlot.default : FSlot OpenOrder.default := ⟨by decide, by decide, by decide⟩

theorem zero_u64 : inU64 0 := ⟨by decide, by decide⟩
theorem zero_u128 : inU128 0 := ⟨by decide, by decide⟩
theorem zero_i64 : inI64 0 := ⟨by decide, by decide⟩

theorem FPos.empty : FPos {} := ⟨zero_i64, zero_i64, zero_u64, zero_u64, zero_u64, zero_u64, zero_u64, zero_u128, zero_u128, zero_i64⟩

theorem FAcct.fresh {o d : Pubkey} (ho : FitsKey o) (hd : FitsKey d) : FAcct (OOA.fresh o d) := by
  refine ⟨ho, hd, FPos.empty, fun x hx => ?_, by simp [OOA.fresh, maxOpenOrders]⟩
  rw [List.eq_of_mem_replicate hx]
  exact FSlot.default

theorem slots_set {l : List OpenOrder} (h : ∀ o ∈ l, FSlot o) (i : Nat) {x : OpenOrder} (hx : FSlot x) : ∀ o ∈ l.set i x, FSlot o := by
  intro o ho
  rcases List.mem_or_eq_of_mem_set ho with h1 | rfl
  · exact h o h1
  · exact hx

theorem FAcct.withPos {a : OOA} (h : FAcct a) {p : Position} (hp : FPos p) : FAcct { a with position := p } :=
  ⟨h.owner, h.delegate, hp, h.slots, h.len⟩

theorem FAcct.removeOrder {a a' : OOA} (h : FAcct a) {slot : Nat} {q lp : Int} (hk : a.removeOrder slot q lp = .ok a') : FAcct a' := by
  obtain ⟨oo, hr⟩ := removeOrder_inv hk
  have hp := h.pos
  rw [hr.res]
  refine ⟨h.owner, h.delegate, ?_, slots_set h.slots _ FSlot.default, by simp [h.len]⟩
  have h1 := hr.range
  unfold relPos
  cases hs : oo.side <;> simp only [hs] at h1
  · exact ⟨h1.1, hp.ab, hp.bf, hp.qf, hp.lf, hp.rr, hp.pc, hp.mv, hp.tv, h1.2.2⟩
  · exact ⟨hp.bb, h1, hp.bf, hp.qf, hp.lf, hp.rr, hp.pc, hp.mv, hp.tv, hp.bq⟩

theorem FAcct.cancelOrder {a a' : OOA} (h : FAcct a) {slot : Nat} {q : Int} {m : Market} (hk : a.cancelOrder slot q m = .ok a') : FAcct a' := by
  have hp := h.pos
  unfold OOA.cancelOrder at hk
  simp only [bind_ok] at hk
  obtain ⟨oo, -, _, -, _, -, _, -, fees, -, p', h1, hk⟩ := hk
  refine FAcct.removeOrder (h.withPos ?_) hk
  cases hs : oo.side <;> simp only [hs, bind_ok, ckU64_ok, pure_ok] at h1
  · obtain ⟨_, ⟨-, rfl⟩, _, ⟨r2, rfl⟩, _, ⟨r3, rfl⟩, rfl⟩ := h1
    exact ⟨hp.bb, hp.ab, hp.bf, r2, r3, hp.rr, hp.pc, hp.mv, hp.tv, hp.bq⟩
  · obtain ⟨_, ⟨r1, rfl⟩, rfl⟩ := h1
    exact ⟨hp.bb, hp.ab, r1, hp.qf, hp.lf, hp.rr, hp.pc, hp.mv, hp.tv, hp.bq⟩

theorem FAcct.addOrder {a a' : OOA} (h : FAcct a) {side : Side} {c : Comp} {l : LeafNode} {cid : Nat} {lp : Int} (h1 : l.key < 2 ^ 128)
    (h2 : cid < 2 ^ 64) (h3 : inI64 lp) (hk : a.addOrder side c l cid lp = .ok a') : FAcct a' := by
  have hp := h.pos
  unfold OOA.addOrder at hk
  simp only [bind_ok, pure_ok] at hk
  obtain ⟨p', h4, _, -, rfl⟩ := hk
  refine ⟨h.owner, h.delegate, ?_, slots_set h.slots _ ⟨h1, h2, h3⟩, by simp [h.len]⟩
  cases side <;> simp only [bind_ok, ckI64_ok, pure_ok] at h4
  · obtain ⟨_, ⟨r1, rfl⟩, _, ⟨-, rfl⟩, _, ⟨r2, rfl⟩, rfl⟩ := h4
    exact ⟨r1, hp.ab, hp.bf, hp.qf, hp.lf, hp.rr, hp.pc, hp.mv, hp.tv, r2⟩
  · obtain ⟨_, ⟨r1, rfl⟩, rfl⟩ := h4
    exact ⟨hp.bb, r1, hp.bf, hp.qf, hp.lf, hp.rr, hp.pc, hp.mv, hp.tv, hp.bq⟩

theorem FAcct.executeMaker {a a' : OOA} {m m' : Market} (h : FAcct a) (hm : FMarket m) {f : FillEvent}
    (hk : a.executeMaker m f = .ok (a', m')) : FAcct a' ∧ FMarket m' := by
  have hp := h.pos
  unfold OOA.executeMaker at hk
  simp only [bind_ok, ite_bind] at hk
  obtain ⟨_, -, _, -, mf, -, mr, -, ⟨lp, lmf, ab⟩, -, p1, h1, mv, h2, rr, h3, mrr, h4, mmv, h5, mfa, h6, a2, h7, _, -, hk⟩ := hk
  simp only [pure_ok, Prod.mk.injEq] at hk
  obtain ⟨rfl, rfl⟩ := hk
  rw [ckU128_ok] at h2 h5 h6
  rw [ckU64_ok] at h3 h4
  obtain ⟨r2, rfl⟩ := h2
  obtain ⟨r3, rfl⟩ := h3
  obtain ⟨r4, rfl⟩ := h4
  obtain ⟨r5, rfl⟩ := h5
  obtain ⟨r6, rfl⟩ := h6
  refine ⟨?_, hm.keys, hm.i64s, hm.bls, hm.qls, hm.seq, r4, hm.fav, hm.bdt, hm.qdt, r6, hm.ftr, r5, hm.tv⟩
  have q1 : FPos p1 := by
    cases hs : f.takerSide.invert <;> simp only [hs, bind_ok, ckU64_ok, ckI64_ok, pure_ok] at h1
    · obtain ⟨_, ⟨-, rfl⟩, _, ⟨s1, rfl⟩, _, ⟨-, rfl⟩, _, ⟨s2, rfl⟩, _, ⟨s3, rfl⟩, rfl⟩ := h1
      exact ⟨hp.bb, hp.ab, s1, s2, s3, hp.rr, hp.pc, hp.mv, hp.tv, hp.bq⟩
    · obtain ⟨_, ⟨-, rfl⟩, _, ⟨-, rfl⟩, _, ⟨s1, rfl⟩, rfl⟩ := h1
      exact ⟨hp.bb, hp.ab, hp.bf, s1, hp.lf, hp.rr, hp.pc, hp.mv, hp.tv, hp.bq⟩
  have q2 := h.withPos (p := { p1 with makerVolume := p1.makerVolume + _, referrerRebatesAvailable := p1.referrerRebatesAvailable + mf })
    ⟨q1.bb, q1.ab, q1.bf, q1.qf, q1.lf, r3, q1.pc, r2, q1.tv, q1.bq⟩
  split at h7
  · exact q2.removeOrder h7
  · cases hs : f.takerSide.invert <;> simp only [hs, bind_ok, ckI64_ok, pure_ok] at h7
    · obtain ⟨_, ⟨s1, rfl⟩, _, ⟨-, rfl⟩, _, ⟨s2, rfl⟩, rfl⟩ := h7
      exact q2.withPos ⟨s1, q1.ab, q1.bf, q1.qf, q1.lf, r3, q1.pc, r2, q1.tv, s2⟩
    · obtain ⟨_, ⟨s1, rfl⟩, rfl⟩ := h7
      exact q2.withPos ⟨q1.bb, s1, q1.bf, q1.qf, q1.lf, r3, q1.pc, r2, q1.tv, q1.bq⟩

theorem FAcct.executeTaker {a a' : OOA} {m m' : Market} (h : FAcct a) (hm : FMarket m) {sd : Side} {b q f r : Int}
    (hk : a.executeTaker m sd b q f r = .ok (a', m')) : FAcct a' ∧ FMarket m' := by
  have hp := h.pos
  unfold OOA.executeTaker at hk
  simp only [bind_ok, ckU128_ok, ckU64_ok, pure_ok, Prod.mk.injEq] at hk
  obtain ⟨p1, h1, _, ⟨r1, rfl⟩, _, ⟨r2, rfl⟩, _, ⟨r3, rfl⟩, rfl, rfl⟩ := hk
  refine ⟨h.withPos ?_, hm.keys, hm.i64s, hm.bls, hm.qls, hm.seq, r3, hm.fav, hm.bdt, hm.qdt, hm.facc, hm.ftr, hm.mv, hm.tv⟩
  have q1 : FPos p1 := by
    cases sd <;> simp only [bind_ok, ckU64_ok, pure_ok] at h1
    · obtain ⟨_, ⟨s1, rfl⟩, rfl⟩ := h1
      exact ⟨hp.bb, hp.ab, s1, hp.qf, hp.lf, hp.rr, hp.pc, hp.mv, hp.tv, hp.bq⟩
    · obtain ⟨_, ⟨-, rfl⟩, _, ⟨s1, rfl⟩, rfl⟩ := h1
      exact ⟨hp.bb, hp.ab, hp.bf, s1, hp.lf, hp.rr, hp.pc, hp.mv, hp.tv, hp.bq⟩
  exact ⟨q1.bb, q1.ab, q1.bf, q1.qf, q1.lf, r2, q1.pc, q1.mv, r1, q1.bq⟩

/-! Accounts by key -/

theorem FAccts.get {as : Accts} (h : FAccts as) {k : Pubkey} {a : OOA} (hk : as.get k = .ok a) : FitsKey k ∧ FAcct a := by
  rw [Accts.get_ok] at hk
  unfold Accts.get? at hk
  rw [Option.map_eq_some_iff] at hk
  obtain ⟨x, h1, rfl⟩ := hk
  have h2 := h x (List.mem_of_find?_eq_some h1)
  have h3 := List.find?_some h1
  simp only [decide_eq_true_eq] at h3
  rw [← h3]; exact h2

theorem FAccts.set {as : Accts} (h : FAccts as) (k : Pubkey) {a : OOA} (ha : FAcct a) : FAccts (as.set k a) := by
  induction as with
  | nil => exact h
  | cons x xs ih =>
    unfold Accts.set
    have h1 := h x (List.mem_cons_self)
    have h2 : FAccts xs := fun y hy => h y (List.mem_cons_of_mem _ hy)
    split
    · rename_i hx
      intro y hy
      rcases List.mem_cons.mp hy with rfl | hy
      · exact ⟨hx ▸ h1.1, ha⟩
      · exact h2 y hy
    · intro y hy
      rcases List.mem_cons.mp hy with rfl | hy
      · exact h1
      · exact ih h2 y hy

theorem FAccts.del {as : Accts} (h : FAccts as) (k : Pubkey) : FAccts (as.del k) := by
  induction as with
  | nil => exact h
  | cons x xs ih =>
    unfold Accts.del
    have h1 := h x (List.mem_cons_self)
    have h2 : FAccts xs := fun y hy => h y (List.mem_cons_of_mem _ hy)
    split
    · exact h2
    · intro y hy
      rcases List.mem_cons.mp hy with rfl | hy
      · exact h1
      · exact ih h2 y hy

theorem FLedger.setAcct {g : Ledger} (h : FLedger g) (k : Pubkey) {a : OOA} (ha : FAcct a) : FLedger { g with accts := g.accts.set k a } :=
  ⟨h.market, h.heap, h.accts.set k ha⟩

/-! Event heap -/

def FEvNode (n : EventNode) : Prop := n.next < 2 ^ 16 ∧ n.prev < 2 ^ 16 ∧ eventFits n.event

theorem Spec.HeapFits.get' {h : EventHeap} (hf : HeapFits h) {i : Nat} {n : EventNode} (hk : h.get i = .ok n) : i < maxNumEvents ∧ FEvNode n := by
  unfold EventHeap.get at hk
  simp only [bind_ok, assertR, req_ok, pure_ok] at hk
  obtain ⟨_, h1, rfl⟩ := hk
  exact ⟨h1, hf.nodes i h1⟩

theorem Spec.HeapFits.set' {h : EventHeap} (hf : HeapFits h) (i : Nat) {n : EventNode} (hn : FEvNode n) : HeapFits (h.set i n) := by
  refine ⟨hf.heads, fun k hk => ?_⟩
  unfold EventHeap.set
  dsimp only
  split
  · exact hn
  · exact hf.nodes k hk

theorem Spec.HeapFits.pushBack {h h' : EventHeap} (hf : HeapFits h) {e : Event} (he : eventFits e) (hk : h.pushBack e = .ok h') : HeapFits h' := by
  have hc : maxNumEvents = 600 := rfl
  unfold EventHeap.pushBack at hk
  simp only [bind_ok, assertR, req_ok] at hk
  obtain ⟨_, -, sn, h1, ⟨nn, np, h2⟩, h3, _, h4, _, h5, hk⟩ := hk
  simp only [pure_ok] at hk
  subst hk
  obtain ⟨a1, a2⟩ := hf.get' h1
  have hf1 : HeapFits { h with freeHead := sn.next } := ⟨⟨a2.1, hf.heads.2⟩, hf.nodes⟩
  have q : nn < 2 ^ 16 ∧ np < 2 ^ 16 ∧ HeapFits h2 := by
    split at h3
    · simp only [ok_ok, Prod.mk.injEq] at h3
      obtain ⟨rfl, rfl, rfl⟩ := h3
      exact ⟨by omega, by omega, ⟨hf1.heads.1, by show h.freeHead < _; omega, hf1.heads.2.2⟩, hf1.nodes⟩
    · simp only [bind_ok, ok_ok, Prod.mk.injEq] at h3
      obtain ⟨x, b1, p, b2, n, b3, rfl, rfl, rfl⟩ := h3
      obtain ⟨c1, c2⟩ := hf1.get' b1
      obtain ⟨c3, c4⟩ := hf1.get' b2
      have e1 := hf1.set' x.prev (n := { p with next := h.freeHead }) ⟨by show h.freeHead < _; omega, c4.2.1, c4.2.2⟩
      obtain ⟨c5, c6⟩ := e1.get' b3
      exact ⟨by omega, c2.2.1, e1.set' _ ⟨c6.1, by show h.freeHead < _; omega, c6.2.2⟩⟩
  obtain ⟨q1, q2, q3⟩ := q
  dsimp only at h4 h5
  have q4 : HeapFits { h2 with count := h2.count + 1, seqNum := h2.seqNum + 1 } :=
    ⟨⟨q3.heads.1, q3.heads.2.1, by show h2.count + 1 < _; omega, by show h2.seqNum + 1 < _; omega⟩, q3.nodes⟩
  exact q4.set' h.freeHead ⟨q1, q2, he⟩

theorem Spec.HeapFits.deleteSlot {h h' : EventHeap} (hf : HeapFits h) {i : Nat} {e : Event} (hk : h.deleteSlot i = .ok (e, h')) : HeapFits h' := by
  have hc : maxNumEvents = 600 := rfl
  unfold EventHeap.deleteSlot at hk
  split at hk
  · cases hk
  · rename_i hcond
    simp only [bind_ok, assertR, req_ok, pure_ok, Prod.mk.injEq] at hk
    obtain ⟨p, h1, n, h2, _, h3, _, h4, -, rfl⟩ := hk
    have hi : i < maxNumEvents := by
      by_contra hx
      exact hcond (.inl (by omega))
    have b0 := hf.nodes i hi
    obtain ⟨b1, b2⟩ := hf.get' h1
    have e1 := hf.set' (h.nodes i).prev (n := { p with next := (h.nodes i).next }) ⟨b0.1, b2.2.1, b2.2.2⟩
    obtain ⟨b3, b4⟩ := e1.get' h2
    have e2 := e1.set' (h.nodes i).next (n := { n with prev := (h.nodes i).prev }) ⟨b4.1, b0.2.1, b4.2.2⟩
    have e3 := (e2.nodes i hi).2.2
    have hn : noNode < 2 ^ 16 := by decide
    refine HeapFits.set' (h := { ((h.set (h.nodes i).prev { p with next := (h.nodes i).next }).set (h.nodes i).next { n with prev := (h.nodes i).prev }) with
      usedHead := _, count := _, freeHead := i }) ⟨⟨by show i < _; omega, ?_, ?_, e2.heads.2.2.2⟩, e2.nodes⟩ i ⟨hf.heads.1, hn, e3⟩
    · dsimp only
      split
      · exact hn
      · split
        · exact b0.1
        · exact e2.heads.2.1
    · have := e2.heads.2.2.1
      dsimp only
      omega

theorem Spec.HeapFits.init : HeapFits EventHeap.init := by
  refine ⟨⟨by decide, by decide, by decide, by decide⟩, fun i hi => ?_⟩
  have hc : maxNumEvents = 600 := rfl
  refine ⟨?_, by show noNode < _; decide, by show eventFits Event.zero; decide⟩
  show (if i = maxNumEvents - 1 then noNode else i + 1) < _
  have hn : noNode = 65535 := rfl
  split <;> omega

end OB
