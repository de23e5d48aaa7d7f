import Verif.Proofs.Obl
import Verif.Proofs.VBook
/-! The ledger invariant relative to the resting orders and the event queue, and its preservation by event processing. -/
namespace OB

theorem cB_congr (k : Pubkey) {o o' : Obl} (h1 : o.acct = o'.acct) (h2 : o.side = o'.side) (h3 : o.qty = o'.qty) :
    cB k o = cB k o' := by unfold cB; rw [h1, h2, h3]
theorem cA_congr (k : Pubkey) {o o' : Obl} (h1 : o.acct = o'.acct) (h2 : o.side = o'.side) (h3 : o.qty = o'.qty) :
    cA k o = cA k o' := by unfold cA; rw [h1, h2, h3]
theorem cQ_congr (k : Pubkey) {o o' : Obl} (h1 : o.acct = o'.acct) (h2 : o.side = o'.side) (h3 : o.qty = o'.qty)
    (h4 : o.lp = o'.lp) : cQ k o = cQ k o' := by unfold cQ; rw [h1, h2, h3, h4]
theorem cN_congr {m : Market} (k : Pubkey) {o o' : Obl} (h1 : o.acct = o'.acct) (h2 : o.side = o'.side)
    (h3 : o.need m = o'.need m) : cN m k o = cN m k o' := by unfold cN; rw [h1, h2, h3]

theorem cB_split (k : Pubkey) {o o1 o2 : Obl} (a1 : o1.acct = o.acct) (a2 : o2.acct = o.acct) (s1 : o1.side = o.side)
    (s2 : o2.side = o.side) (h : o1.qty + o2.qty = o.qty) : cB k o1 + cB k o2 = cB k o := by
  unfold cB; rw [a1, a2, s1, s2]; split <;> omega
theorem cA_split (k : Pubkey) {o o1 o2 : Obl} (a1 : o1.acct = o.acct) (a2 : o2.acct = o.acct) (s1 : o1.side = o.side)
    (s2 : o2.side = o.side) (h : o1.qty + o2.qty = o.qty) : cA k o1 + cA k o2 = cA k o := by
  unfold cA; rw [a1, a2, s1, s2]; split <;> omega
theorem cQ_split (k : Pubkey) {o o1 o2 : Obl} (a1 : o1.acct = o.acct) (a2 : o2.acct = o.acct) (s1 : o1.side = o.side)
    (s2 : o2.side = o.side) (h : o.side = .bid → o1.qty * o1.lp + o2.qty * o2.lp = o.qty * o.lp) :
    cQ k o1 + cQ k o2 = cQ k o := by
  unfold cQ; rw [a1, a2, s1, s2]; split
  · rename_i hc; exact h hc.2
  · rfl
theorem cN_split {m : Market} (k : Pubkey) {o o1 o2 : Obl} (a1 : o1.acct = o.acct) (a2 : o2.acct = o.acct) (s1 : o1.side = o.side)
    (s2 : o2.side = o.side) (h : o.side = .bid → o1.need m + o2.need m ≤ o.need m) :
    cN m k o1 + cN m k o2 ≤ cN m k o := by
  unfold cN; rw [a1, a2, s1, s2]; split
  · rename_i hc; exact h hc.2
  · exact Int.le_refl _

/-! ### replacing an obligation -/

structure Repl (m : Market) (o : Obl) (N : List Obl) : Prop where
  term : o.term = true
  ok : ∀ x ∈ N, OblOk m x
  acct : ∀ x ∈ N, x.acct = o.acct
  one : ∃ t, N.filter Obl.term = [t] ∧ t.slot = o.slot ∧ t.oo = o.oo
  sB : ∀ k, osum (cB k) N = cB k o
  sA : ∀ k, osum (cA k) N = cA k o
  sQ : ∀ k, osum (cQ k) N = cQ k o
  sN : ∀ k, osum (cN m k) N ≤ cN m k o

theorem Repl.mem {m : Market} {o : Obl} {N : List Obl} (h : Repl m o N) :
    ∃ t ∈ N, t.term = true ∧ t.acct = o.acct ∧ t.slot = o.slot ∧ t.oo = o.oo ∧ ∀ x ∈ N, x.term = true → x = t := by
  obtain ⟨t, h1, h2, h3⟩ := h.one
  have ht : t ∈ N.filter Obl.term := by rw [h1]; simp
  have ht' := List.mem_filter.mp ht
  refine ⟨t, ht'.1, ht'.2, h.acct t ht'.1, h2, h3, ?_⟩
  intro x hx hxt
  have : x ∈ N.filter Obl.term := List.mem_filter.mpr ⟨hx, hxt⟩
  rw [h1] at this
  simpa using this

theorem Repl.termKeys {m : Market} {o : Obl} {N : List Obl} (h : Repl m o N) (R : List Obl) :
    termKeys (N ++ R) = termKeys (o :: R) := by
  obtain ⟨t, h1, h2, h3⟩ := h.one
  obtain ⟨t', h1', h2', h3', h4', _, h6'⟩ := h.mem
  have : t = t' := h6' t (List.mem_of_mem_filter (by rw [h1]; simp)) (List.mem_filter.mp (show t ∈ N.filter Obl.term by rw [h1]; simp)).2
  subst this
  rw [termKeys_cons, if_pos h.term]
  unfold OB.termKeys
  rw [List.filter_append, h1, List.map_append]
  simp [h3', h4']

theorem Repl.termIds {m : Market} {o : Obl} {N : List Obl} (h : Repl m o N) (R : List Obl) :
    termIds (N ++ R) = termIds (o :: R) := by
  obtain ⟨t, h1, h2, h3⟩ := h.one
  rw [termIds_cons, if_pos h.term]
  unfold OB.termIds
  rw [List.filter_append, h1, List.map_append]
  simp [h3]

theorem GInv.replace {m : Market} {as : Accts} {o : Obl} {N R : List Obl} {dB dQ : Int} {ex : Pubkey → Int}
    (h : GInv m as (o :: R) dB dQ ex) (hr : Repl m o N) :
    GInv m as (N ++ R) (dB + osum (Obl.pendB m) N - o.pendB m) (dQ + osum (Obl.pendQ m) N - o.pendQ m) ex := by
  obtain ⟨t, t1, t2, t3, t4, t5, t6⟩ := hr.mem
  refine ⟨h.nodup, ?_, ?_, ?_, ?_, ?_, ?_, ?_, ?_, h.refs⟩
  · intro x hx
    rcases List.mem_append.mp hx with hx | hx
    · exact hr.ok x hx
    · exact h.ok x (by simp [hx])
  · intro x hx
    rcases List.mem_append.mp hx with hx | hx
    · rw [hr.acct x hx]; exact h.owner o (by simp)
    · exact h.owner x (by simp [hx])
  · intro k a ha
    have hk := h.acct k a ha
    refine ⟨?_, ?_, ?_, ?_, hk.len, ?_, hk.baseFree, hk.quoteFree, hk.locked, hk.refs⟩
    · rw [hk.bids, osum_append, osum_cons, hr.sB]
    · rw [hk.asks, osum_append, osum_cons, hr.sA]
    · rw [hk.quote, osum_append, osum_cons, hr.sQ]
    · have := hk.fees
      rw [osum_cons] at this
      rw [osum_append]
      have := hr.sN k
      omega
    · intro i oo h1 h2
      obtain ⟨x, x1, x2, x3, x4, x5⟩ := hk.used i oo h1 h2
      rcases List.mem_cons.mp x1 with rfl | x1
      · exact ⟨t, by simp [t1], t2, by rw [t3, x3], by rw [t4, x4], by rw [t5, x5]⟩
      · exact ⟨x, by simp [x1], x2, x3, x4, x5⟩
  · intro x hx hxt a ha
    rcases List.mem_append.mp hx with hx | hx
    · rw [t6 x hx hxt] at ha ⊢
      rw [t3] at ha
      rw [t4, t5]; exact h.link o (by simp) hr.term a ha
    · exact h.link x (by simp [hx]) hxt a ha
  · rw [hr.termKeys]; exact h.slots
  · rw [hr.termIds]; exact h.ids
  · have := h.base; rw [osum_cons] at this; rw [osum_append]; omega
  · have := h.quote; rw [osum_cons] at this; rw [osum_append]; omega

/-! ### adding a resting order -/

theorem GInv.add {m : Market} {as : Accts} {O : List Obl} {dB dQ : Int} {ex ex' : Pubkey → Int} (h : GInv m as O dB dQ ex)
    {s : Side} {c : Comp} {l : LeafNode} {cid : Nat} {lp : Int} {a a' : OOA} (ha : as.get? l.owner = some a)
    (hadd : AddRun a s c l cid lp a') {old : OpenOrder} (hslot : a.openOrders[l.ownerSlot]? = some old) (hfree : old.isFree = true)
    (ho : OblOk m (.rest s c l { isFree := false, side := s, comp := c, id := l.key, clientId := cid, lockedPrice := lp }))
    (hid : (s, l.key) ∉ termIds O)
    (hex : ∀ j, j ≠ l.owner → ex' j = ex j)
    (hf : ex' l.owner + (if s = .bid then ceilFee m.makerFee (l.quantity * lp * m.quoteLotSize) else 0) ≤ ex l.owner) :
    GInv m (as.set l.owner a')
      (.rest s c l { isFree := false, side := s, comp := c, id := l.key, clientId := cid, lockedPrice := lp } :: O)
      (dB + (if s = .ask then l.quantity * m.baseLotSize else 0))
      (dQ + (if s = .bid then l.quantity * lp * m.quoteLotSize else 0)) ex' := by
  have hok := h.acct _ a ha
  have hnot : ∀ o ∈ O, o.term = true → o.acct = l.owner → o.slot ≠ l.ownerSlot := by
    intro o ho' ht hacc hsl
    have := h.link o ho' ht a (by rw [hacc]; exact ha)
    rw [hsl, hslot] at this
    injection this with this
    have hu := (h.ok o ho').used ht
    rw [← this, hfree] at hu; cases hu
  have hpos := hadd.res
  have ha'1 : a'.openOrders = a.openOrders.set l.ownerSlot
    { isFree := false, side := s, comp := c, id := l.key, clientId := cid, lockedPrice := lp } := by rw [hpos]
  have ha'2 : a'.position = addPos s a.position l.quantity lp := by rw [hpos]
  refine ⟨by rw [Accts.keys_set]; exact h.nodup, ?_, ?_, ?_, ?_, ?_, ?_, ?_, ?_, ?_⟩
  · intro o ho'
    rcases List.mem_cons.mp ho' with rfl | ho'
    · exact ho
    · exact h.ok o ho'
  · intro o ho'
    have : ∃ b, as.get? o.acct = some b := by
      rcases List.mem_cons.mp ho' with rfl | ho'
      · exact ⟨a, ha⟩
      · exact h.owner o ho'
    obtain ⟨b, hb⟩ := this
    rw [Accts.get?_set]
    split
    · rw [ha]; exact ⟨a', rfl⟩
    · exact ⟨b, hb⟩
  · intro j b hj
    rw [Accts.get?_set] at hj
    split at hj
    · rename_i he; subst he
      rw [ha] at hj; simp only [Option.map_some, Option.some.injEq] at hj; subst hj
      have hfees := hok.fees
      cases s with
      | bid =>
        simp only [addPos] at ha'2
        simp only [if_true] at hf
        refine ⟨?_, ?_, ?_, ?_, ?_, ?_, ?_, ?_, ?_, ?_⟩
        · rw [ha'2, osum_cons]; simp [cB, Obl.acct, Obl.side, Obl.qty, hok.bids]; omega
        · rw [ha'2, osum_cons]; simp [cA, Obl.acct, Obl.side, hok.asks]
        · rw [ha'2, osum_cons]; simp [cQ, Obl.acct, Obl.side, Obl.qty, Obl.lp, hok.quote]; omega
        · rw [ha'2, osum_cons]; simp [cN, Obl.acct, Obl.side, Obl.need, Obl.qty, Obl.lp] at hfees ⊢; omega
        · rw [ha'1, List.length_set]; exact hok.len
        · intro i oo hi hu
          rw [ha'1, List.getElem?_set] at hi
          split at hi
          · rename_i he
            split at hi
            · injection hi with hi
              exact ⟨_, List.mem_cons_self, rfl, rfl, he, hi⟩
            · cases hi
          · obtain ⟨x, x1, x2⟩ := hok.used i oo hi hu
            exact ⟨x, List.mem_cons_of_mem _ x1, x2⟩
        all_goals rw [ha'2]
        · exact hok.baseFree
        · exact hok.quoteFree
        · exact hok.locked
        · exact hok.refs
      | ask =>
        simp only [addPos] at ha'2
        refine ⟨?_, ?_, ?_, ?_, ?_, ?_, ?_, ?_, ?_, ?_⟩
        · rw [ha'2, osum_cons]; simp [cB, Obl.acct, Obl.side, hok.bids]
        · rw [ha'2, osum_cons]; simp [cA, Obl.acct, Obl.side, Obl.qty, hok.asks]; omega
        · rw [ha'2, osum_cons]; simp [cQ, Obl.acct, Obl.side, hok.quote]
        · rw [ha'2, osum_cons]; simp [cN, Obl.acct, Obl.side] at hfees hf ⊢; omega
        · rw [ha'1, List.length_set]; exact hok.len
        · intro i oo hi hu
          rw [ha'1, List.getElem?_set] at hi
          split at hi
          · rename_i he
            split at hi
            · injection hi with hi
              exact ⟨_, List.mem_cons_self, rfl, rfl, he, hi⟩
            · cases hi
          · obtain ⟨x, x1, x2⟩ := hok.used i oo hi hu
            exact ⟨x, List.mem_cons_of_mem _ x1, x2⟩
        all_goals rw [ha'2]
        · exact hok.baseFree
        · exact hok.quoteFree
        · exact hok.locked
        · exact hok.refs
    · rename_i hne
      have hb := h.acct j b hj
      have hz : l.owner ≠ j := fun he => hne he.symm
      refine ⟨?_, ?_, ?_, ?_, hb.len, ?_, hb.baseFree, hb.quoteFree, hb.locked, hb.refs⟩
      · rw [hb.bids, osum_cons]; simp [cB, Obl.acct, hz]
      · rw [hb.asks, osum_cons]; simp [cA, Obl.acct, hz]
      · rw [hb.quote, osum_cons]; simp [cQ, Obl.acct, hz]
      · rw [hex j hne]; have := hb.fees; rw [osum_cons]; simpa [cN, Obl.acct, hz] using this
      · intro i oo hi hu
        obtain ⟨x, x1, x2⟩ := hb.used i oo hi hu
        exact ⟨x, List.mem_cons_of_mem _ x1, x2⟩
  · intro o ho' ht b hb
    rw [Accts.get?_set] at hb
    rcases List.mem_cons.mp ho' with rfl | ho'
    · replace hb : (if l.owner = l.owner then Option.map (fun _ => a') (as.get? l.owner) else as.get? l.owner) = some b := hb
      rw [if_pos rfl, ha] at hb
      simp only [Option.map_some, Option.some.injEq] at hb; subst hb
      rw [ha'1]
      show (a.openOrders.set l.ownerSlot _)[l.ownerSlot]? = _
      rw [List.getElem?_set_self hadd.hslot]; rfl
    · split at hb
      · rename_i he
        rw [ha] at hb; simp only [Option.map_some, Option.some.injEq] at hb; subst hb
        rw [ha'1, List.getElem?_set_ne (fun hsl => hnot o ho' ht he hsl.symm)]
        exact h.link o ho' ht a (by rw [he]; exact ha)
      · exact h.link o ho' ht b hb
  · rw [termKeys_cons]
    show ((l.owner, l.ownerSlot) :: termKeys O).Nodup
    rw [List.nodup_cons]
    refine ⟨?_, h.slots⟩
    intro hm
    unfold termKeys at hm
    obtain ⟨o, ho', he⟩ := List.mem_map.mp hm
    have := List.mem_filter.mp ho'
    simp only [Prod.mk.injEq] at he
    exact hnot o this.1 this.2 he.1 he.2
  · rw [termIds_cons]
    show ((s, l.key) :: termIds O).Nodup
    exact List.nodup_cons.mpr ⟨hid, h.ids⟩
  · rw [asum_set ha, osum_cons]
    have := h.base
    simp only [acctB, ha'2, Obl.pendB]
    cases s <;> simp [addPos, Int.add_mul] <;> omega
  · rw [asum_set ha, osum_cons]
    have := h.quote
    simp only [acctQ, ha'2, Obl.pendQ]
    cases s <;> simp [addPos, Int.add_mul] <;> omega
  · rw [asum_set ha]
    have := h.refs
    simp only [acctR, ha'2]
    cases s <;> simp [addPos] <;> omega

/-! ### frame -/

/-- What matching and event processing leave unchanged. -/
structure LotsOk (p : Position) : Prop where
  bids : p.bidsBaseLots ≤ i64Max
  asks : p.asksBaseLots ≤ i64Max
  quote : p.bidsQuoteLots ≤ i64Max

/-- How the referrer balance, the lot counters and (with maker fee `mf`) the locked fees of an account may change. -/
structure RefsUp (mf : Int) (p p' : Position) : Prop where
  refs : p.referrerRebatesAvailable ≤ p'.referrerRebatesAvailable
  lots : LotsOk p → LotsOk p'
  vol : p.makerVolume ≤ p'.makerVolume
  locked : mf ≤ 0 → p'.lockedMakerFees = p.lockedMakerFees

theorem RefsUp.refl (mf : Int) (p : Position) : RefsUp mf p p := ⟨Int.le_refl _, id, Int.le_refl _, fun _ => rfl⟩
theorem RefsUp.trans {mf : Int} {p q r : Position} (h : RefsUp mf p q) (h' : RefsUp mf q r) : RefsUp mf p r :=
  ⟨Int.le_trans h.refs h'.refs, fun x => h'.lots (h.lots x), Int.le_trans h.vol h'.vol, fun x => (h'.locked x).trans (h.locked x)⟩

theorem RefsUp.same {mf : Int} {p p' : Position} (h : p.referrerRebatesAvailable ≤ p'.referrerRebatesAvailable)
    (h1 : p'.bidsBaseLots = p.bidsBaseLots) (h2 : p'.asksBaseLots = p.asksBaseLots) (h3 : p'.bidsQuoteLots = p.bidsQuoteLots)
    (h4 : p'.makerVolume = p.makerVolume) (h5 : p'.lockedMakerFees = p.lockedMakerFees) :
    RefsUp mf p p' :=
  ⟨h, fun x => ⟨by rw [h1]; exact x.bids, by rw [h2]; exact x.asks, by rw [h3]; exact x.quote⟩, Int.le_of_eq h4.symm, fun _ => h5⟩

structure LFrame (g g' : Ledger) : Prop where
  cfg : g'.market = { g.market with
    seqNum := g'.market.seqNum, feesAccrued := g'.market.feesAccrued, referrerRebatesAccrued := g'.market.referrerRebatesAccrued,
    makerVolume := g'.market.makerVolume, takerVolumeWoOo := g'.market.takerVolumeWoOo }
  keys : g'.accts.map (·.1) = g.accts.map (·.1)
  accts : ∀ k a, g.accts.get? k = some a → ∃ a', g'.accts.get? k = some a' ∧ a'.owner = a.owner ∧ a'.delegate = a.delegate ∧
    a.position.baseFreeNative ≤ a'.position.baseFreeNative ∧ a.position.quoteFreeNative ≤ a'.position.quoteFreeNative ∧
    a'.position.penaltyHeapCount = a.position.penaltyHeapCount
  refs : ∀ k a a', g.accts.get? k = some a → g'.accts.get? k = some a' →
    RefsUp g.market.makerFee a.position a'.position
  earned : g'.market.referrerRebatesAccrued - g.market.referrerRebatesAccrued ≤ g'.market.feesAccrued - g.market.feesAccrued
  feesUp : g.market.feesAccrued ≤ g'.market.feesAccrued ∧ g.market.makerVolume ≤ g'.market.makerVolume

theorem refs_same {mf : Int} {A : Accts} {k : Pubkey} {a a' : OOA} (h : A.get? k = some a) (h' : A.get? k = some a') :
    RefsUp mf a.position a'.position := by
  rw [h] at h'; injection h' with h'; rw [h']; exact .refl _ _

theorem LFrame.refl (g : Ledger) : LFrame g g :=
  ⟨rfl, rfl, fun _ a h => ⟨a, h, rfl, rfl, Int.le_refl _, Int.le_refl _, rfl⟩, fun _ _ _ => refs_same, by omega, Int.le_refl _, Int.le_refl _⟩

theorem LFrame.trans {g1 g2 g3 : Ledger} (h1 : LFrame g1 g2) (h2 : LFrame g2 g3) : LFrame g1 g3 := by
  refine ⟨?_, h2.keys.trans h1.keys, ?_, ?_, by have := h1.earned; have := h2.earned; omega, Int.le_trans h1.feesUp.1 h2.feesUp.1, Int.le_trans h1.feesUp.2 h2.feesUp.2⟩
  · have e1 := h1.cfg
    have e2 := h2.cfg
    rw [e2, e1]
  · intro k a ha
    obtain ⟨b, hb, b1, b2, b3, b4, b5⟩ := h1.accts k a ha
    obtain ⟨c, hc, c1, c2, c3, c4, c5⟩ := h2.accts k b hb
    exact ⟨c, hc, c1.trans b1, c2.trans b2, Int.le_trans b3 c3, Int.le_trans b4 c4, c5.trans b5⟩
  · intro k a c ha hc
    obtain ⟨b, hb, _⟩ := h1.accts k a ha
    have e : g2.market.makerFee = g1.market.makerFee := by rw [h1.cfg]
    exact (h1.refs k a b ha hb).trans (e ▸ h2.refs k b c hb hc)

theorem LFrame.bls {g g' : Ledger} (h : LFrame g g') : g'.market.baseLotSize = g.market.baseLotSize := by rw [h.cfg]
theorem LFrame.qls {g g' : Ledger} (h : LFrame g g') : g'.market.quoteLotSize = g.market.quoteLotSize := by rw [h.cfg]
theorem LFrame.maker {g g' : Ledger} (h : LFrame g g') : g'.market.makerFee = g.market.makerFee := by rw [h.cfg]
theorem LFrame.taker {g g' : Ledger} (h : LFrame g g') : g'.market.takerFee = g.market.takerFee := by rw [h.cfg]

/-- Changing one account. -/
theorem LFrame.setAcct {g : Ledger} {k : Pubkey} {a a' : OOA} (ha : g.accts.get? k = some a) (ho : a'.owner = a.owner)
    (hd : a'.delegate = a.delegate) (hb : a.position.baseFreeNative ≤ a'.position.baseFreeNative)
    (hq : a.position.quoteFreeNative ≤ a'.position.quoteFreeNative)
    (hp : a'.position.penaltyHeapCount = a.position.penaltyHeapCount)
    (hr : RefsUp g.market.makerFee a.position a'.position) {m : Market} {h : EventHeap}
    (hm : m = { g.market with
      seqNum := m.seqNum, feesAccrued := m.feesAccrued, referrerRebatesAccrued := m.referrerRebatesAccrued,
      makerVolume := m.makerVolume, takerVolumeWoOo := m.takerVolumeWoOo })
    (he : m.referrerRebatesAccrued - g.market.referrerRebatesAccrued ≤ m.feesAccrued - g.market.feesAccrued)
    (hf : g.market.feesAccrued ≤ m.feesAccrued ∧ g.market.makerVolume ≤ m.makerVolume) :
    LFrame g { market := m, heap := h, accts := g.accts.set k a' } := by
  refine ⟨hm, Accts.keys_set _ _ _, ?_, ?_, he, hf⟩
  rotate_left
  · intro j b b' hj hj'
    by_cases he : j = k
    · subst he
      rw [ha] at hj; injection hj with hj; subst hj
      rw [Accts.get?_set_self a' ha] at hj'; injection hj' with hj'; subst hj'
      exact hr
    · rw [Accts.get?_set_ne a' he] at hj'
      exact refs_same hj hj'
  intro j b hj
  by_cases he : j = k
  · subst he
    rw [ha] at hj; injection hj with hj; subst hj
    exact ⟨a', Accts.get?_set_self a' ha, ho, hd, hb, hq, hp⟩
  · exact ⟨b, by rw [Accts.get?_set_ne a' he]; exact hj, rfl, rfl, Int.le_refl _, Int.le_refl _, rfl⟩

theorem LFrame.heap (g : Ledger) (h : EventHeap) : LFrame g { g with heap := h } :=
  ⟨rfl, rfl, fun _ a ha => ⟨a, ha, rfl, rfl, Int.le_refl _, Int.le_refl _, rfl⟩, fun _ _ _ => refs_same, by simp only; omega, Int.le_refl _, Int.le_refl _⟩

/-- A cancel only changes one account and frees funds. -/
theorem cancel_frame {a a' : OOA} {slot : Nat} {q : Int} {m : Market} (h : a.cancelOrder slot q m = .ok a') :
    a'.owner = a.owner ∧ a'.delegate = a.delegate ∧ a.position.baseFreeNative ≤ a'.position.baseFreeNative ∧
      a.position.quoteFreeNative ≤ a'.position.quoteFreeNative ∧
      a'.position.penaltyHeapCount = a.position.penaltyHeapCount := by
  obtain ⟨oo, fees, hr⟩ := cancelOrder_inv h
  rw [hr.res]
  refine ⟨rfl, rfl, ?_⟩
  have hfree := hr.free
  have hn := asU64_nonneg (q * m.baseLotSize)
  cases hs : oo.side with
  | bid =>
    rw [hs] at hfree
    have := hfree.1.1
    simp only [relPos, freePos]
    exact ⟨Int.le_refl _, by omega, trivial⟩
  | ask =>
    simp only [relPos, freePos]
    exact ⟨by omega, Int.le_refl _, trivial⟩

theorem maker_frame {a a' : OOA} {m m' : Market} {f : FillEvent} (h : a.executeMaker m f = .ok (a', m')) :
    a'.owner = a.owner ∧ a'.delegate = a.delegate ∧ a.position.baseFreeNative ≤ a'.position.baseFreeNative ∧
      a.position.quoteFreeNative ≤ a'.position.quoteFreeNative ∧
      a'.position.penaltyHeapCount = a.position.penaltyHeapCount := by
  obtain ⟨mf, rb, lf, ab, hr⟩ := executeMaker_inv h
  have hn := asU64_nonneg (f.quantity * m.baseLotSize)
  have hfree := hr.free
  have key : ∀ p, p = relPos f.takerSide.invert (makerPos f.takerSide.invert a.position (asU64 (f.quantity * m.baseLotSize))
      (asU64 (f.quantity * f.price * m.quoteLotSize)) mf rb lf ab) f.quantity (fillLockPrice f) →
      a.position.baseFreeNative ≤ p.baseFreeNative ∧ a.position.quoteFreeNative ≤ p.quoteFreeNative ∧
      p.penaltyHeapCount = a.position.penaltyHeapCount := by
    intro p hp
    cases hs : f.takerSide.invert with
    | bid =>
      rw [hs] at hp hfree
      have := hfree.2.2.1.1
      subst hp; simp only [relPos, makerPos]
      exact ⟨by omega, by omega, trivial⟩
    | ask =>
      rw [hs] at hp hfree
      have := hfree.2.1.1
      subst hp; simp only [relPos, makerPos]
      exact ⟨Int.le_refl _, by omega, trivial⟩
  cases ho : f.makerOut with
  | false => rw [hr.part ho]; exact ⟨rfl, rfl, key _ rfl⟩
  | true =>
    obtain ⟨oo, hrr⟩ := hr.out ho
    rw [hrr.res]
    refine ⟨rfl, rfl, ?_⟩
    have e : ∀ s p, (relPos s p f.quantity (fillLockPrice f)).baseFreeNative = p.baseFreeNative ∧
        (relPos s p f.quantity (fillLockPrice f)).quoteFreeNative = p.quoteFreeNative ∧
        (relPos s p f.quantity (fillLockPrice f)).penaltyHeapCount = p.penaltyHeapCount := by
      intro s p; cases s <;> exact ⟨rfl, rfl, rfl⟩
    have := key _ rfl
    simp only at this ⊢
    simp only [(e _ _).1, (e _ _).2.1, (e _ _).2.2] at this ⊢
    exact this

theorem cancel_refs {a a' : OOA} {slot : Nat} {q : Int} {m : Market} (h : a.cancelOrder slot q m = .ok a') :
    RefsUp m.makerFee a.position a'.position := by
  obtain ⟨oo, fees, hr⟩ := cancelOrder_inv h
  have hg := hr.range
  rw [hr.res]
  cases hs : oo.side with
  | bid =>
    rw [hs] at hg
    refine ⟨Int.le_refl _, fun x => ⟨hg.1.2, x.asks, hg.2.2⟩, Int.le_refl _, fun hm => ?_⟩
    show a.position.lockedMakerFees - fees = _
    rw [makerFeesCeilU_inv (asU64_nonneg _) hr.hfees, ceilFee_zero hm]; omega
  | ask => rw [hs] at hg; exact ⟨Int.le_refl _, fun x => ⟨x.bids, hg.2, x.quote⟩, Int.le_refl _, fun _ => rfl⟩

theorem maker_refs {a a' : OOA} {m m' : Market} {f : FillEvent} (h : a.executeMaker m f = .ok (a', m')) :
    RefsUp m.makerFee a.position a'.position ∧
    m'.referrerRebatesAccrued - m.referrerRebatesAccrued ≤ m'.feesAccrued - m.feesAccrued ∧ m.feesAccrued ≤ m'.feesAccrued ∧ m.makerVolume ≤ m'.makerVolume := by
  obtain ⟨mf, rb, lf, ab, hr⟩ := executeMaker_inv h
  have hmf : 0 ≤ mf := by
    have hf := hr.hfees
    split at hf
    · cases hf; exact Int.le_refl _
    · rw [makerFeesFloor_inv (asU64_nonneg _) hf]; exact floorFee_nonneg (asU64_nonneg _)
  have key : ∀ s, (makerPos s a.position (asU64 (f.quantity * m.baseLotSize))
      (asU64 (f.quantity * f.price * m.quoteLotSize)) mf rb lf ab).referrerRebatesAvailable =
        a.position.referrerRebatesAvailable + mf := by intro s; cases s <;> rfl
  have key2 : ∀ s p, (relPos s p f.quantity (fillLockPrice f)).referrerRebatesAvailable = p.referrerRebatesAvailable := by
    intro s p; cases s <;> rfl
  have hqn := asU64_nonneg (f.quantity * f.price * m.quoteLotSize)
  refine ⟨⟨?_, ?_, ?_, ?_⟩, by rw [hr.mkt]; simp only; omega, by rw [hr.mkt]; simp only; omega, by rw [hr.mkt]; simp only; omega⟩
  · cases ho : f.makerOut with
    | false =>
      rw [hr.part ho]
      simp only [key2, key]; omega
    | true =>
      obtain ⟨oo, hrr⟩ := hr.out ho
      rw [hrr.res]
      simp only [key2, key]; omega
  · have keyL : ∀ s, LotsOk a.position → LotsOk (makerPos s a.position (asU64 (f.quantity * m.baseLotSize))
        (asU64 (f.quantity * f.price * m.quoteLotSize)) mf rb lf ab) := by
      intro s x; cases s <;> exact ⟨x.bids, x.asks, x.quote⟩
    intro x
    cases ho : f.makerOut with
    | false =>
      have hg := hr.range
      rw [hr.part ho]
      cases hs : f.takerSide.invert with
      | bid => rw [hs] at hg; obtain ⟨g1, _, g2⟩ := hg ho; exact ⟨g1.2, x.asks, g2.2⟩
      | ask => rw [hs] at hg; have g1 := hg ho; exact ⟨x.bids, g1.2, x.quote⟩
    | true =>
      obtain ⟨oo, hrr⟩ := hr.out ho
      have hg := hrr.range
      have x' := keyL f.takerSide.invert x
      rw [hrr.res]
      cases hs : oo.side with
      | bid => rw [hs] at hg; exact ⟨hg.1.2, x'.asks, hg.2.2.2⟩
      | ask => rw [hs] at hg; exact ⟨x'.bids, hg.2, x'.quote⟩
  · have key : ∀ s, (makerPos s a.position (asU64 (f.quantity * m.baseLotSize))
        (asU64 (f.quantity * f.price * m.quoteLotSize)) mf rb lf ab).makerVolume =
          a.position.makerVolume + asU64 (f.quantity * f.price * m.quoteLotSize) := by intro s; cases s <;> rfl
    have key2 : ∀ s p, (relPos s p f.quantity (fillLockPrice f)).makerVolume = p.makerVolume := by
      intro s p; cases s <;> rfl
    cases ho : f.makerOut with
    | false =>
      rw [hr.part ho]
      simp only [key2, key]; omega
    | true =>
      obtain ⟨oo, hrr⟩ := hr.out ho
      rw [hrr.res]
      simp only [key2, key]; omega
  · intro hm
    have h0 : mf = 0 := by
      have hf := hr.hfees
      split at hf
      · cases hf; rfl
      · rw [makerFeesFloor_inv (asU64_nonneg _) hf, floorFee_zero hm]
    have h1 : lf = 0 := by
      by_cases hp : f.pegLimit ≠ -1 ∧ f.takerSide = .ask
      · rw [makerFeesFloor_inv (asU64_nonneg _) (hr.locked.peg hp).2.2.1, floorFee_zero hm]
      · rw [(hr.locked.fixed hp).1, h0]
    have key : ∀ s, (makerPos s a.position (asU64 (f.quantity * m.baseLotSize))
        (asU64 (f.quantity * f.price * m.quoteLotSize)) mf rb lf ab).lockedMakerFees = a.position.lockedMakerFees := by
      intro s; cases s
      · show a.position.lockedMakerFees - lf = _; omega
      · rfl
    have key2 : ∀ s p, (relPos s p f.quantity (fillLockPrice f)).lockedMakerFees = p.lockedMakerFees := by
      intro s p; cases s <;> rfl
    cases ho : f.makerOut with
    | false =>
      rw [hr.part ho]
      simp only [key2, key]
    | true =>
      obtain ⟨oo, hrr⟩ := hr.out ho
      rw [hrr.res]
      simp only [key2, key]

theorem maker_market {a a' : OOA} {m m' : Market} {f : FillEvent} (h : a.executeMaker m f = .ok (a', m')) :
    m' = { m with
      seqNum := m'.seqNum, feesAccrued := m'.feesAccrued, referrerRebatesAccrued := m'.referrerRebatesAccrued,
      makerVolume := m'.makerVolume, takerVolumeWoOo := m'.takerVolumeWoOo } ∧ m'.seqNum = m.seqNum := by
  obtain ⟨mf, rb, lf, ab, hr⟩ := executeMaker_inv h
  rw [hr.mkt]; exact ⟨rfl, rfl⟩

/-! ### the invariant relative to book and queue -/

/-- An obligation without its order slot. -/
inductive OKind
  | rest (s : Side) (c : Comp) (l : LeafNode)
  | ev (e : Event)

def Obl.k : Obl → OKind
  | rest s c l _ => .rest s c l
  | out e _ => .ev (.out e)
  | fill f _ => .ev (.fill f)

abbrev Rests := List (Side × Comp × LeafNode)

def restKs (L : Rests) : List OKind := L.map (fun x => OKind.rest x.1 x.2.1 x.2.2)
def evKs (q : List (Nat × Event)) : List OKind := q.map (fun x => OKind.ev x.2)

theorem map_perm_cons {α β : Type} {f : α → β} {O : List α} {x : β} {L : List β} (h : (O.map f).Perm (x :: L)) :
    ∃ o R, O.Perm (o :: R) ∧ f o = x ∧ (R.map f).Perm L := by
  have : x ∈ O.map f := h.mem_iff.mpr (by simp)
  obtain ⟨o, ho, hx⟩ := List.mem_map.mp this
  obtain ⟨A, B, rfl⟩ := List.append_of_mem ho
  refine ⟨o, A ++ B, List.perm_middle, hx, ?_⟩
  have h2 : ((A ++ o :: B).map f).Perm (x :: (A ++ B).map f) := by
    rw [← hx, ← List.map_cons]; exact List.perm_middle.map f
  exact (List.perm_cons x).mp (h2.symm.trans h)

/-- The ledger matches resting orders `L` and the event queue; all live order ids have sequence number at most `n`. -/
structure LInvW (g : Ledger) (L : Rests) (dB dQ : Int) (ex : Pubkey → Int) (n : Nat) (O : List Obl) (q : List (Nat × Event)) : Prop where
  heap : HeapRep g.heap q
  kinds : (O.map Obl.k).Perm (restKs L ++ evKs q)
  ginv : GInv g.market g.accts O dB dQ ex
  seq : ∀ x ∈ termIds O, 1 ≤ seqOf x.1 x.2 ∧ seqOf x.1 x.2 ≤ n

def LInv (g : Ledger) (L : Rests) (dB dQ : Int) (ex : Pubkey → Int) (n : Nat) : Prop := ∃ O q, LInvW g L dB dQ ex n O q

theorem LInv.perm {g : Ledger} {L L' : Rests} {dB dQ : Int} {ex : Pubkey → Int} {n : Nat} (h : LInv g L dB dQ ex n)
    (hp : L.Perm L') : LInv g L' dB dQ ex n := by
  obtain ⟨O, q, h⟩ := h
  exact ⟨O, q, h.heap, h.kinds.trans ((hp.map _).append_right _), h.ginv, h.seq⟩

theorem LInvW.permO {g : Ledger} {L : Rests} {dB dQ : Int} {ex : Pubkey → Int} {n : Nat} {O O' : List Obl} {q : List (Nat × Event)}
    (h : LInvW g L dB dQ ex n O q) (hp : O.Perm O') : LInvW g L dB dQ ex n O' q :=
  ⟨h.heap, ((hp.map _).symm.trans h.kinds), h.ginv.perm hp, fun x hx => h.seq x ((termIds_perm hp).mem_iff.mpr hx)⟩

/-- Take out a resting order. -/
theorem LInv.takeRest {g : Ledger} {s : Side} {c : Comp} {l : LeafNode} {L : Rests} {dB dQ : Int} {ex : Pubkey → Int} {n : Nat}
    (h : LInv g ((s, c, l) :: L) dB dQ ex n) :
    ∃ oo R q, LInvW g ((s, c, l) :: L) dB dQ ex n (.rest s c l oo :: R) q ∧ (R.map Obl.k).Perm (restKs L ++ evKs q) := by
  obtain ⟨O, q, h⟩ := h
  obtain ⟨o, R, h1, h2, h3⟩ := map_perm_cons (f := Obl.k) (x := .rest s c l) (L := restKs L ++ evKs q) h.kinds
  cases o with
  | rest s' c' l' oo => cases h2; exact ⟨oo, R, q, h.permO h1, h3⟩
  | out e oo => cases h2
  | fill f oo => cases h2

theorem termIds_sub {o : Obl} {R : List Obl} {x : Side × Nat} (h : x ∈ termIds R) : x ∈ termIds (o :: R) := by
  rw [termIds_cons]; split
  · exact List.mem_cons_of_mem _ h
  · exact h

/-- Cancelling the account order of a resting order. -/
theorem LInv.cancelRest {g : Ledger} {s : Side} {c : Comp} {l : LeafNode} {L : Rests} {dB dQ : Int} {ex : Pubkey → Int} {n : Nat}
    (h : LInv g ((s, c, l) :: L) dB dQ ex n) (hb : 0 < g.market.baseLotSize) (hq : 0 < g.market.quoteLotSize)
    {a a' : OOA} (ha : g.accts.get? l.owner = some a) (hc : a.cancelOrder l.ownerSlot l.quantity g.market = .ok a') :
    LInv { g with accts := g.accts.set l.owner a' } L dB dQ ex n ∧ LFrame g { g with accts := g.accts.set l.owner a' } := by
  obtain ⟨oo, R, q, hw, hk⟩ := h.takeRest
  have hg := hw.ginv.cancel (.inl ⟨s, c, l, oo, rfl⟩) hb hq ha hc
  obtain ⟨f1, f2, f3, f4, f5⟩ := cancel_frame hc
  exact ⟨⟨R, q, hw.heap, hk, hg, fun x hx => hw.seq x (termIds_sub hx)⟩, LFrame.setAcct ha f1 f2 f3 f4 f5 (cancel_refs hc) rfl (by omega) ⟨Int.le_refl _, Int.le_refl _⟩⟩

/-- The event of a removed order. -/
structure OutOf (ev : OutEvent) (s : Side) (l : LeafNode) : Prop where
  side : ev.side = s
  owner : ev.owner = l.owner
  slot : ev.ownerSlot = l.ownerSlot
  qty : ev.quantity = l.quantity

theorem LInv.processOut {g g' : Ledger} {s : Side} {c : Comp} {l : LeafNode} {L : Rests} {dB dQ : Int} {ex : Pubkey → Int} {n : Nat}
    (h : LInv g ((s, c, l) :: L) dB dQ ex n) (hb : 0 < g.market.baseLotSize) (hq : 0 < g.market.quoteLotSize)
    {ev : OutEvent} (he : OutOf ev s l) {hasOO : Bool} {owner : Pubkey} {rem : List Pubkey}
    (hp : processOutEvent ev hasOO owner rem g = .ok g') :
    LInv g' L dB dQ ex n ∧ LFrame g g' ∧ g'.market = g.market ∧
      ((g'.heap = g.heap ∧ (owner = ev.owner ∨ ev.owner ∈ rem)) ∨ g'.heap.events = g.heap.events ++ [.out ev]) := by
  have cancel : (owner = ev.owner ∨ ev.owner ∈ rem) → ∀ g'', (do
      let a ← g.accts.get ev.owner
      let a' ← a.cancelOrder ev.ownerSlot ev.quantity g.market
      return { g with accts := g.accts.set ev.owner a' } : R Ledger) = .ok g'' →
      LInv g'' L dB dQ ex n ∧ LFrame g g'' ∧ g''.market = g.market ∧
      ((g''.heap = g.heap ∧ (owner = ev.owner ∨ ev.owner ∈ rem)) ∨ g''.heap.events = g.heap.events ++ [.out ev]) := by
    intro hwho g'' hx
    simp only [bind_ok, pure_ok, Accts.get_ok] at hx
    obtain ⟨a, ha, a', hc, rfl⟩ := hx
    rw [he.owner] at ha hwho ⊢
    rw [he.slot, he.qty] at hc
    obtain ⟨h1, h2⟩ := h.cancelRest hb hq ha hc
    exact ⟨h1, h2, rfl, .inl ⟨rfl, hwho⟩⟩
  unfold processOutEvent at hp
  split at hp
  · rename_i hc; rw [hc.2] at hp; exact cancel (.inl hc.2) _ hp
  split at hp
  · rename_i hc; exact cancel (.inr (by simpa using hc)) _ hp
  · simp only [bind_ok, pure_ok] at hp
    obtain ⟨h', hpush, rfl⟩ := hp
    obtain ⟨oo, R, q, hw, hk⟩ := h.takeRest
    obtain ⟨slot, _, hr', _⟩ := pushBack_inv hw.heap hpush
    have ho := hw.ginv.ok (.rest s c l oo) (by simp)
    have hrepl : Repl g.market (.rest s c l oo) [.out ev oo] := by
      refine ⟨rfl, ?_, ?_, ⟨.out ev oo, rfl, he.slot, rfl⟩, ?_, ?_, ?_, ?_⟩
      · intro x hx
        simp only [List.mem_singleton] at hx; subst hx
        refine ⟨?_, ho.lp, ?_, ?_, ?_, ho.used, (fun _ _ _ _ hx => nomatch hx), (fun _ _ hx => nomatch hx)⟩
        · have := ho.qty; simp only [Obl.qty, he.qty] at this ⊢; exact this
        · have := ho.quote; simp only [Obl.qty, Obl.lp, he.qty] at this ⊢; exact this
        · have := ho.base; simp only [Obl.qty, he.qty] at this ⊢; exact this
        · have := ho.oside; simp only [Obl.side, he.side] at this ⊢; exact this
      · intro x hx; simp only [List.mem_singleton] at hx; subst hx; exact he.owner
      · intro k; rw [osum_cons, osum_nil, Int.add_zero]; exact cB_congr k he.owner he.side he.qty
      · intro k; rw [osum_cons, osum_nil, Int.add_zero]; exact cA_congr k he.owner he.side he.qty
      · intro k; rw [osum_cons, osum_nil, Int.add_zero]; exact cQ_congr k he.owner he.side he.qty rfl
      · intro k; rw [osum_cons, osum_nil, Int.add_zero]
        exact Int.le_of_eq (cN_congr k he.owner he.side (by simp only [Obl.need, Obl.qty, Obl.lp, he.qty]))
    have hg := hw.ginv.replace hrepl
    simp only [osum_cons, osum_nil, Obl.pendB, Obl.pendQ, Int.add_zero, Int.sub_zero] at hg
    refine ⟨⟨_, _, hr', ?_, hg, ?_⟩, LFrame.heap g h', rfl, .inr ?_⟩
    · simp only [List.cons_append, List.nil_append, List.map_cons, Obl.k, evKs, List.map_append, List.map_nil]
      refine ((List.perm_cons _).mpr hk).trans ?_
      rw [← List.append_assoc]
      exact (List.perm_append_singleton _ _).symm
    · intro x hx; rw [hrepl.termIds] at hx; exact hw.seq x hx
    · simp only []
      rw [hr'.events, hw.heap.events]; simp

/-- The fill of (part of) a resting order. -/
structure FillOf (m : Market) (f : FillEvent) (c : Comp) (l : LeafNode) : Prop where
  maker : f.maker = l.owner
  slot : f.makerSlot = l.ownerSlot
  peg : f.pegLimit = l.pegLimit
  pos : 1 ≤ f.quantity
  le : f.quantity ≤ l.quantity
  out : f.makerOut = true ↔ l.quantity = f.quantity
  fixed : c = .fixed → f.price = l.priceData
  pegged : c = .pegged → 1 ≤ f.price ∧ (f.takerSide = .ask → f.price ≤ l.pegLimit)
  quote : f.quantity * f.price * m.quoteLotSize ≤ i64Max

/-- What is left of a resting order after a fill. -/
def restAfter (f : FillEvent) (s : Side) (c : Comp) (l : LeafNode) : Rests :=
  if f.makerOut then [] else [(s, c, l.withQty (l.quantity - f.quantity))]

def FillEvent.pendB (m : Market) (f : FillEvent) : Int :=
  match f.takerSide with
  | .ask => f.quantity * m.baseLotSize
  | .bid => - (f.quantity * m.baseLotSize)

def FillEvent.pendQ (m : Market) (f : FillEvent) : Int :=
  match f.takerSide with
  | .ask => f.rebate m - f.quantity * f.price * m.quoteLotSize
  | .bid => f.quantity * f.price * m.quoteLotSize + f.rebate m

theorem fillRepl {m : Market} {f : FillEvent} {s : Side} {c : Comp} {l : LeafNode} {oo : OpenOrder}
    (ho : OblOk m (.rest s c l oo)) (hf : FillOf m f c l) (hs : s = f.takerSide.invert) (hb : 0 < m.baseLotSize)
    (hq : 0 < m.quoteLotSize) :
    Repl m (.rest s c l oo) (.fill f oo :: (if f.makerOut then [] else [.rest s c (l.withQty (l.quantity - f.quantity)) oo])) := by
  have hrest := ho.rest s c l oo rfl
  have hqty : 1 ≤ l.quantity := ho.qty
  have hlp : 1 ≤ oo.lockedPrice := ho.lp
  have hquote : l.quantity * oo.lockedPrice * m.quoteLotSize ≤ i64Max := ho.quote
  have hbase : l.quantity * m.baseLotSize ≤ i64Max := ho.base
  have hoside : oo.side = s := ho.oside rfl
  have h1 := hf.pos
  have h2 := hf.le
  -- the locked price of a bid
  have hlock : f.takerSide = .ask → fillLockPrice f = oo.lockedPrice := by
    intro ht
    have hsb : s = .bid := by rw [hs, ht]; rfl
    unfold fillLockPrice
    cases c with
    | fixed =>
      obtain ⟨_, _, g3, g4⟩ := hrest.fixed rfl
      rw [if_neg (by rw [hf.peg, g3]; simp), hf.fixed rfl, g4]
    | pegged =>
      obtain ⟨g1, g2⟩ := hrest.pegged rfl
      rw [if_pos ⟨by rw [hf.peg]; omega, ht⟩, hf.peg, g2 hsb]
  have hlock2 : f.takerSide = .bid → fillLockPrice f = f.price := by
    intro ht; unfold fillLockPrice; rw [if_neg (by rw [ht]; simp)]
  have hprice : 1 ≤ f.price := by
    cases c with
    | fixed => rw [hf.fixed rfl]; have := (hrest.fixed rfl).1; omega
    | pegged => exact (hf.pegged rfl).1
  have hmono : f.quantity * oo.lockedPrice ≤ l.quantity * oo.lockedPrice := Int.mul_le_mul_of_nonneg_right h2 (by omega)
  have hmono2 : f.quantity * oo.lockedPrice * m.quoteLotSize ≤ l.quantity * oo.lockedPrice * m.quoteLotSize :=
    Int.mul_le_mul_of_nonneg_right hmono (by omega)
  have hbmono : f.quantity * m.baseLotSize ≤ l.quantity * m.baseLotSize := Int.mul_le_mul_of_nonneg_right h2 (by omega)
  have okF : OblOk m (.fill f oo) := by
    refine ⟨h1, ?_, ?_, by show f.quantity * _ ≤ _; omega, ?_, fun _ => ho.used rfl, (fun _ _ _ _ hx => nomatch hx), ?_⟩
    · show 1 ≤ fillLockPrice f
      cases ht : f.takerSide with
      | ask => rw [hlock ht]; exact hlp
      | bid => rw [hlock2 ht]; exact hprice
    · show f.quantity * fillLockPrice f * _ ≤ _
      cases ht : f.takerSide with
      | ask => rw [hlock ht]; omega
      | bid => rw [hlock2 ht]; exact hf.quote
    · intro _; show oo.side = _; rw [hoside, hs]; rfl
    · intro f' oo' he
      injection he with he1 he2; subst he1
      refine ⟨hprice, hf.quote, fun ht => ?_⟩
      rw [hlock ht]
      cases c with
      | fixed =>
        obtain ⟨_, _, g3, g4⟩ := hrest.fixed rfl
        rw [hf.fixed rfl, g4]; exact Int.le_refl _
      | pegged =>
        obtain ⟨g1, g2⟩ := hrest.pegged rfl
        rw [g2 (by rw [hs, ht]; rfl)]; exact (hf.pegged rfl).2 ht
  cases hout : f.makerOut with
  | true =>
    have hqe := hf.out.mp hout
    simp only [if_true]
    refine ⟨rfl, ?_, ?_, ⟨.fill f oo, ?_, hf.slot, rfl⟩, ?_, ?_, ?_, ?_⟩
    · intro x hx; simp only [List.mem_singleton] at hx; subst hx; exact okF
    · intro x hx; simp only [List.mem_singleton] at hx; subst hx; exact hf.maker
    · simp [List.filter_cons, Obl.term, hout]
    · intro k; rw [osum_cons, osum_nil, Int.add_zero]; exact cB_congr k hf.maker hs.symm hqe.symm
    · intro k; rw [osum_cons, osum_nil, Int.add_zero]; exact cA_congr k hf.maker hs.symm hqe.symm
    · intro k; rw [osum_cons, osum_nil, Int.add_zero]
      cases ht : f.takerSide with
      | ask => exact cQ_congr k hf.maker hs.symm hqe.symm (hlock ht)
      | bid => simp [cQ, Obl.side, hs, ht, Side.invert]
    · intro k; rw [osum_cons, osum_nil, Int.add_zero]
      cases ht : f.takerSide with
      | ask =>
        unfold cN
        simp only [Obl.acct, Obl.side, hs, hf.maker, Obl.need, Obl.qty, Obl.lp, hlock ht, ← hqe]
        split
        · exact floor_le_ceil _ _
        · exact Int.le_refl _
      | bid => simp [cN, Obl.side, hs, ht, Side.invert]
  | false =>
    have hqe : f.quantity < l.quantity := by
      have : ¬ l.quantity = f.quantity := fun he => by have := hf.out.mpr he; rw [hout] at this; cases this
      omega
    simp only [Bool.false_eq_true, if_false]
    have hlq : (l.withQty (l.quantity - f.quantity)).quantity = l.quantity - f.quantity := rfl
    have e1 : (l.quantity - f.quantity) * oo.lockedPrice = l.quantity * oo.lockedPrice - f.quantity * oo.lockedPrice := Int.sub_mul _ _ _
    have e2 : (l.quantity - f.quantity) * m.baseLotSize = l.quantity * m.baseLotSize - f.quantity * m.baseLotSize := Int.sub_mul _ _ _
    have n1 : 0 ≤ f.quantity * oo.lockedPrice * m.quoteLotSize := Int.mul_nonneg (Int.mul_nonneg (by omega) (by omega)) (by omega)
    have n2 : 0 ≤ f.quantity * m.baseLotSize := Int.mul_nonneg (by omega) (by omega)
    refine ⟨rfl, ?_, ?_, ⟨.rest s c (l.withQty (l.quantity - f.quantity)) oo, ?_, rfl, rfl⟩, ?_, ?_, ?_, ?_⟩
    · intro x hx
      simp only [List.mem_cons, List.not_mem_nil, or_false] at hx
      rcases hx with rfl | rfl
      · exact okF
      · refine ⟨?_, hlp, ?_, ?_, fun _ => hoside, fun _ => ho.used rfl, ?_, (fun _ _ hx => nomatch hx)⟩
        · show 1 ≤ l.quantity - f.quantity; omega
        · show (l.quantity - f.quantity) * oo.lockedPrice * _ ≤ _
          rw [e1, Int.sub_mul]; omega
        · show (l.quantity - f.quantity) * _ ≤ _
          rw [e2]; omega
        · intro s' c' l' oo' he
          cases he
          exact ⟨hrest.key, hrest.id, hrest.comp, hrest.client, hrest.fixed, hrest.pegged⟩
    · intro x hx
      simp only [List.mem_cons, List.not_mem_nil, or_false] at hx
      rcases hx with rfl | rfl
      · exact hf.maker
      · rfl
    · simp [List.filter_cons, Obl.term, hout]
    · intro k; rw [osum_cons, osum_cons, osum_nil, Int.add_zero]
      exact cB_split k hf.maker rfl hs.symm rfl (by show f.quantity + (l.quantity - f.quantity) = l.quantity; omega)
    · intro k; rw [osum_cons, osum_cons, osum_nil, Int.add_zero]
      exact cA_split k hf.maker rfl hs.symm rfl (by show f.quantity + (l.quantity - f.quantity) = l.quantity; omega)
    · intro k; rw [osum_cons, osum_cons, osum_nil, Int.add_zero]
      refine cQ_split k hf.maker rfl hs.symm rfl (fun hbid => ?_)
      have ht : f.takerSide = .ask := by
        have : s = .bid := hbid
        rw [hs] at this; cases hx : f.takerSide <;> simp [hx, Side.invert] at this ⊢
      show f.quantity * fillLockPrice f + (l.quantity - f.quantity) * oo.lockedPrice = l.quantity * oo.lockedPrice
      rw [hlock ht, e1]; omega
    · intro k; rw [osum_cons, osum_cons, osum_nil, Int.add_zero]
      refine cN_split k hf.maker rfl hs.symm rfl (fun hbid => ?_)
      have ht : f.takerSide = .ask := by
        have : s = .bid := hbid
        rw [hs] at this; cases hx : f.takerSide <;> simp [hx, Side.invert] at this ⊢
      show floorFee m.makerFee (f.quantity * fillLockPrice f * m.quoteLotSize) +
        ceilFee m.makerFee ((l.quantity - f.quantity) * oo.lockedPrice * m.quoteLotSize) ≤
        ceilFee m.makerFee (l.quantity * oo.lockedPrice * m.quoteLotSize)
      rw [hlock ht, e1, Int.sub_mul]
      have := fee_split m.makerFee (f.quantity * oo.lockedPrice * m.quoteLotSize)
        (l.quantity * oo.lockedPrice * m.quoteLotSize - f.quantity * oo.lockedPrice * m.quoteLotSize)
      rw [show f.quantity * oo.lockedPrice * m.quoteLotSize + (l.quantity * oo.lockedPrice * m.quoteLotSize -
        f.quantity * oo.lockedPrice * m.quoteLotSize) = l.quantity * oo.lockedPrice * m.quoteLotSize by omega] at this
      exact this

theorem LInv.processFill {g g' : Ledger} {s : Side} {c : Comp} {l : LeafNode} {L : Rests} {dB dQ : Int} {ex : Pubkey → Int} {n : Nat}
    (h : LInv g ((s, c, l) :: L) dB dQ ex n) (hb : 0 < g.market.baseLotSize) (hq : 0 < g.market.quoteLotSize)
    {f : FillEvent} (hf : FillOf g.market f c l) (hs : s = f.takerSide.invert) {hasOO : Bool} {owner : Pubkey} {rem : List Pubkey}
    {p p' : Nat} (hp : processFillEvent f hasOO owner rem g p = .ok (g', p')) :
    LInv g' (restAfter f s c l ++ L) (dB + f.pendB g.market) (dQ + f.pendQ g.market) ex n ∧ LFrame g g' ∧
      g'.market.seqNum = g.market.seqNum ∧
      (g'.heap = g.heap ∨ g'.heap.events = g.heap.events ++ [.fill f]) := by
  obtain ⟨oo, R, q, hw, hk⟩ := h.takeRest
  have hrepl := fillRepl (hw.ginv.ok (.rest s c l oo) (by simp)) hf hs hb hq
  have hg := hw.ginv.replace hrepl
  have hids := hrepl.termIds R
  have eB : dB + osum (Obl.pendB g.market) (.fill f oo :: (if f.makerOut then [] else
      [.rest s c (l.withQty (l.quantity - f.quantity)) oo])) - Obl.pendB g.market (.rest s c l oo) = dB + f.pendB g.market := by
    have : osum (Obl.pendB g.market) (if f.makerOut then [] else
      [.rest s c (l.withQty (l.quantity - f.quantity)) oo]) = 0 := by split <;> simp [osum, Obl.pendB]
    rw [osum_cons, this]
    show dB + (f.pendB g.market + 0) - 0 = _
    omega
  have eQ : dQ + osum (Obl.pendQ g.market) (.fill f oo :: (if f.makerOut then [] else
      [.rest s c (l.withQty (l.quantity - f.quantity)) oo])) - Obl.pendQ g.market (.rest s c l oo) = dQ + f.pendQ g.market := by
    have : osum (Obl.pendQ g.market) (if f.makerOut then [] else
      [.rest s c (l.withQty (l.quantity - f.quantity)) oo]) = 0 := by split <;> simp [osum, Obl.pendQ]
    rw [osum_cons, this]
    show dQ + (f.pendQ g.market + 0) - 0 = _
    omega
  rw [eB, eQ, List.cons_append] at hg
  -- the rest as obligations
  have hrest : ((if f.makerOut then [] else [Obl.rest s c (l.withQty (l.quantity - f.quantity)) oo]).map Obl.k) =
      restKs (restAfter f s c l) := by
    unfold restAfter restKs; split <;> rfl
  have happ : restKs (restAfter f s c l ++ L) = restKs (restAfter f s c l) ++ restKs L := by simp [restKs]
  unfold processFillEvent at hp
  split at hp
  · split at hp
    · cases hp
    · simp only [bind_ok, pure_ok, Accts.get_ok] at hp
      obtain ⟨a, ha, ⟨a', m'⟩, hm, hp⟩ := hp
      cases hp
      have hd := GInv.deliver hg hb hq ha hm
      obtain ⟨f1, f2, f3, f4, f5⟩ := maker_frame hm
      obtain ⟨m1, m2⟩ := maker_market hm
      refine ⟨⟨_, q, hw.heap, ?_, hd, ?_⟩, LFrame.setAcct ha f1 f2 f3 f4 f5 (maker_refs hm).1 m1 (maker_refs hm).2.1 (maker_refs hm).2.2, m2, .inl rfl⟩
      · rw [List.map_append, hrest, happ, List.append_assoc]
        exact hk.append_left _
      · intro x hx
        apply hw.seq x
        rw [← hids]
        exact termIds_sub hx
  · simp only [bind_ok, pure_ok] at hp
    obtain ⟨h', hpush, hp⟩ := hp
    cases hp
    obtain ⟨slot, _, hr', _⟩ := pushBack_inv hw.heap hpush
    refine ⟨⟨_, _, hr', ?_, hg, ?_⟩, LFrame.heap g h', rfl, .inr ?_⟩
    · rw [List.map_cons, List.map_append, hrest, happ]
      simp only [Obl.k, evKs, List.map_append, List.map_cons, List.map_nil]
      rw [List.append_assoc]
      refine ((List.perm_cons _).mpr (hk.append_left _)).trans ?_
      rw [← List.append_assoc, ← List.append_assoc, ← List.append_assoc]
      exact (List.perm_append_singleton _ _).symm
    · intro x hx; rw [← List.cons_append, hids] at hx; exact hw.seq x hx
    · show h'.events = _
      rw [hr'.events, hw.heap.events]; simp

end OB
