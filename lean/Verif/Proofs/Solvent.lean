import Verif.Proofs.Deliver
/-! The recorded deposits cover every obligation, so that delivering or cancelling never overflows a balance. -/
namespace OB
open Spec

/-! ### sums over accounts of sums over obligations -/

theorem key_sum {as : Accts} (hn : (as.map (·.1)).Nodup) {k : Pubkey} {a : OOA} (ha : as.get? k = some a) (v : Int) :
    (as.map (fun x => if k = x.1 then v else 0)).sum = v := by
  have hz : ∀ (l : Accts), k ∉ l.map (·.1) → (l.map (fun x => if k = x.1 then v else 0)).sum = 0 := by
    intro l hl
    induction l with
    | nil => rfl
    | cons x l ih =>
      rw [List.map_cons, List.mem_cons] at hl
      rw [List.map_cons, List.sum_cons, ih (fun h => hl (.inr h)), if_neg (fun h => hl (.inl h))]; rfl
  induction as with
  | nil => cases ha
  | cons x xs ih =>
    rw [List.map_cons, List.nodup_cons] at hn
    rw [List.map_cons, List.sum_cons]
    rw [Accts.get?_cons] at ha
    split at ha
    · rename_i he
      rw [if_pos he.symm, hz xs (by rw [← he]; exact hn.1)]; omega
    · rename_i he
      rw [if_neg (fun h => he h.symm), ih hn.2 ha]; omega

theorem sum_add' {α : Type} (l : List α) (f g : α → Int) : (l.map (fun x => f x + g x)).sum = (l.map f).sum + (l.map g).sum := by
  induction l with
  | nil => rfl
  | cons x l ih => simp only [List.map_cons, List.sum_cons, ih]; omega

theorem sum_mul' {α : Type} (l : List α) (f : α → Int) (c : Int) : (l.map (fun x => f x * c)).sum = (l.map f).sum * c := by
  induction l with
  | nil => simp
  | cons x l ih => simp only [List.map_cons, List.sum_cons, ih, Int.add_mul]

theorem sum_le' {α : Type} (l : List α) {f g : α → Int} (h : ∀ x ∈ l, f x ≤ g x) : (l.map f).sum ≤ (l.map g).sum := by
  induction l with
  | nil => exact Int.le_refl _
  | cons x l ih =>
    simp only [List.map_cons, List.sum_cons]
    have := h x (by simp); have := ih (fun y hy => h y (by simp [hy])); omega

theorem osum_spread {as : Accts} (hn : (as.map (·.1)).Nodup) {O : List Obl} (ho : ∀ o ∈ O, ∃ a, as.get? o.acct = some a)
    (v : Obl → Int) : (as.map (fun x => osum (fun o => if o.acct = x.1 then v o else 0) O)).sum = osum v O := by
  induction O with
  | nil =>
    simp only [osum_nil]
    clear hn ho
    induction as with
    | nil => rfl
    | cons x xs ih => rw [List.map_cons, List.sum_cons, ih]; rfl
  | cons o O ih =>
    simp only [osum_cons]
    rw [sum_add', ih (fun o h => ho o (by simp [h]))]
    obtain ⟨a, ha⟩ := ho o (by simp)
    rw [key_sum hn ha]

/-- Contribution of an obligation to the locked funds. -/
def Obl.lockB (m : Market) (o : Obl) : Int := (if o.side = .ask then o.qty * m.baseLotSize else 0) + o.pendB m
def Obl.lockQ (m : Market) (o : Obl) : Int := (if o.side = .bid then o.qty * o.lp * m.quoteLotSize + o.need m else 0) + o.pendQ m

theorem asum_get_le {as : Accts} {k : Pubkey} {a : OOA} (ha : as.get? k = some a) (f : OOA → Int) (h : ∀ x ∈ as, 0 ≤ f x.2) :
    f a ≤ asum f as := by
  obtain ⟨A, B, h1, _, _⟩ := Accts.split ha
  rw [h1, asum_append, asum_cons]
  have hA : 0 ≤ asum f A := by
    have := sum_le' A (f := fun _ => 0) (g := fun x => f x.2) (fun x hx => h x (by rw [h1]; simp [hx]))
    simpa [asum] using this
  have hB : 0 ≤ asum f B := by
    have := sum_le' B (f := fun _ => 0) (g := fun x => f x.2) (fun x hx => h x (by rw [h1]; simp [hx]))
    simpa [asum] using this
  simp only
  omega

theorem asum_eq {as : Accts} (f : OOA → Int) (F : Pubkey × OOA → Int) (h : ∀ x ∈ as, f x.2 = F x) : asum f as = (as.map F).sum := by
  unfold asum; rw [List.map_congr_left h]

/-- What an obligation holds is never negative. -/
theorem OblOk.lock_nonneg {m : Market} {o : Obl} (h : OblOk m o) (hb : 0 < m.baseLotSize) (hq : 0 < m.quoteLotSize) :
    0 ≤ o.lockB m ∧ 0 ≤ o.lockQ m := by
  have h1 := h.qty
  have h2 := h.lp
  have hbn : 0 ≤ o.qty * m.baseLotSize := Int.mul_nonneg (by omega) (by omega)
  have hqn : 0 ≤ o.qty * o.lp * m.quoteLotSize := Int.mul_nonneg (Int.mul_nonneg (by omega) (by omega)) (by omega)
  cases o with
  | rest s c l oo =>
    have := ceilFee_nonneg (mf := m.makerFee) hqn
    unfold Obl.lockB Obl.lockQ Obl.pendB Obl.pendQ Obl.need
    constructor <;> simp only <;> split <;> omega
  | out e oo =>
    have := ceilFee_nonneg (mf := m.makerFee) hqn
    unfold Obl.lockB Obl.lockQ Obl.pendB Obl.pendQ Obl.need
    constructor <;> simp only <;> split <;> omega
  | fill f oo =>
    obtain ⟨p1, p2, p3⟩ := h.fill f oo rfl
    have hr : 0 ≤ f.rebate m := by
      unfold FillEvent.rebate
      split
      · exact Int.le_refl _
      · exact floorRebate_nonneg (Int.mul_nonneg (Int.mul_nonneg (by have : 1 ≤ f.quantity := h1; omega) (by omega)) (by omega))
    have hn : 0 ≤ floorFee m.makerFee (f.quantity * fillLockPrice f * m.quoteLotSize) := floorFee_nonneg hqn
    have hbn' : 0 ≤ f.quantity * m.baseLotSize := hbn
    have hqn' : 0 ≤ f.quantity * fillLockPrice f * m.quoteLotSize := hqn
    have hpn : 0 ≤ f.quantity * f.price * m.quoteLotSize :=
      Int.mul_nonneg (Int.mul_nonneg (by have : 1 ≤ f.quantity := h1; omega) (by omega)) (by omega)
    unfold Obl.lockB Obl.lockQ Obl.pendB Obl.pendQ Obl.need
    simp only [Obl.side, Obl.qty, Obl.lp]
    have hcase : f.takerSide = .bid ∨ f.takerSide = .ask := by cases f.takerSide <;> simp
    rcases hcase with hs | hs
    · simp [hs, Side.invert]; omega
    · have hle : f.quantity * f.price * m.quoteLotSize ≤ f.quantity * fillLockPrice f * m.quoteLotSize :=
        Int.mul_le_mul_of_nonneg_right (Int.mul_le_mul_of_nonneg_left (p3 hs) (by have : 1 ≤ f.quantity := h1; omega)) (by omega)
      simp [hs, Side.invert]; omega

/-- The recorded deposits cover the free balance of an account and what one of its obligations holds. -/
theorem GInv.covers {m : Market} {as : Accts} {o : Obl} {R : List Obl} {dB dQ : Int} {ex : Pubkey → Int} (h : GInv m as (o :: R) dB dQ ex)
    (hex : ∀ k, 0 ≤ ex k) (hb : 0 < m.baseLotSize) (hq : 0 < m.quoteLotSize) (hav : 0 ≤ m.feesAvailable) {k : Pubkey} {a : OOA}
    (ha : as.get? k = some a) :
    a.position.baseFreeNative + o.lockB m ≤ m.baseDepositTotal + dB ∧
    a.position.quoteFreeNative + m.referrerRebatesAccrued + o.lockQ m ≤ m.quoteDepositTotal + dQ ∧
    a.position.referrerRebatesAvailable ≤ m.referrerRebatesAccrued := by
  have hget : ∀ x ∈ as, as.get? x.1 = some x.2 := fun x hx => acct_get h.nodup hx
  have hB : asum (acctB m) as = asum (fun a => a.position.baseFreeNative) as +
      osum (fun o => if o.side = .ask then o.qty * m.baseLotSize else 0) (o :: R) := by
    rw [← osum_spread h.nodup h.owner]
    unfold asum
    rw [← sum_add']
    congr 1
    refine List.map_congr_left (fun x hx => ?_)
    have := (h.acct x.1 x.2 (hget x hx)).asks
    unfold acctB
    rw [this]
    have e : osum (cA x.1) (o :: R) * m.baseLotSize =
        osum (fun o => if o.acct = x.1 then (if o.side = .ask then o.qty * m.baseLotSize else 0) else 0) (o :: R) := by
      unfold osum
      rw [← sum_mul']
      congr 1
      refine List.map_congr_left (fun o _ => ?_)
      unfold cA
      by_cases h1 : o.acct = x.1 <;> by_cases h2 : o.side = .ask <;> simp [h1, h2]
    rw [e]
  have hQ : asum (fun a => a.position.quoteFreeNative) as + m.referrerRebatesAccrued +
      osum (fun o => if o.side = .bid then o.qty * o.lp * m.quoteLotSize + o.need m else 0) (o :: R) ≤ asum (acctQ m) as := by
    rw [h.refs, ← osum_spread h.nodup h.owner]
    unfold asum
    rw [← sum_add', ← sum_add']
    refine sum_le' _ (fun x hx => ?_)
    have h1 := (h.acct x.1 x.2 (hget x hx)).quote
    have h2 := (h.acct x.1 x.2 (hget x hx)).fees
    have h3 := hex x.1
    unfold acctQ acctR
    have e : osum (cQ x.1) (o :: R) * m.quoteLotSize + osum (cN m x.1) (o :: R) =
        osum (fun o => if o.acct = x.1 then (if o.side = .bid then o.qty * o.lp * m.quoteLotSize + o.need m else 0) else 0) (o :: R) := by
      unfold osum
      rw [← sum_mul', ← sum_add']
      congr 1
      refine List.map_congr_left (fun o _ => ?_)
      unfold cQ cN
      by_cases h1 : o.acct = x.1 <;> by_cases h2 : o.side = .bid <;> simp [h1, h2]
    rw [← e, h1]
    show x.2.position.quoteFreeNative + _ + _ ≤ _
    omega
  have hfree : a.position.baseFreeNative ≤ asum (fun a => a.position.baseFreeNative) as :=
    asum_get_le ha (fun a => a.position.baseFreeNative) (fun x hx => (h.acct x.1 x.2 (hget x hx)).baseFree.1)
  have hfreeQ : a.position.quoteFreeNative ≤ asum (fun a => a.position.quoteFreeNative) as :=
    asum_get_le ha (fun a => a.position.quoteFreeNative) (fun x hx => (h.acct x.1 x.2 (hget x hx)).quoteFree.1)
  have hr : a.position.referrerRebatesAvailable ≤ asum acctR as :=
    asum_get_le ha acctR (fun x hx => (h.acct x.1 x.2 (hget x hx)).refs.1)
  have sB : osum (fun o => if o.side = .ask then o.qty * m.baseLotSize else 0) (o :: R) + osum (Obl.pendB m) (o :: R) =
      osum (Obl.lockB m) (o :: R) := by
    unfold osum; rw [← sum_add']; rfl
  have sQ : osum (fun o => if o.side = .bid then o.qty * o.lp * m.quoteLotSize + o.need m else 0) (o :: R) +
      osum (Obl.pendQ m) (o :: R) = osum (Obl.lockQ m) (o :: R) := by
    unfold osum; rw [← sum_add']; rfl
  have n1 : o.lockB m ≤ osum (Obl.lockB m) (o :: R) :=
    osum_mem_le (fun o ho => ((h.ok o ho).lock_nonneg hb hq).1) (by simp)
  have n2 : o.lockQ m ≤ osum (Obl.lockQ m) (o :: R) :=
    osum_mem_le (fun o ho => ((h.ok o ho).lock_nonneg hb hq).2) (by simp)
  have b := h.base
  have q := h.quote
  have r := h.refs
  refine ⟨by omega, by omega, by omega⟩

/-! ### fee functions succeed -/

theorem makerFeesFloor_ok {m : Market} {a : Int} (h0 : 0 ≤ a) (h1 : a ≤ u64Max) (hm : m.makerFee ≤ 1000000) :
    m.makerFeesFloor a = .ok (floorFee m.makerFee a) := by
  have h : ∃ f, m.makerFeesFloor a = .ok f := by
    unfold Market.makerFeesFloor Market.unsignedMakerFeesFloor
    split
    · rename_i hp
      have hn := floorFee_nonneg (mf := m.makerFee) h0
      have hl := floorFee_le h0 hm
      unfold floorFee at hn hl
      rw [Int.max_eq_left (by omega)] at hn hl
      rw [natAbs_pos hp, feesScale, Int.tdiv_eq_ediv_of_nonneg (Int.mul_nonneg h0 (by omega))]
      exact ⟨_, ckU64_eq hn (by omega)⟩
    · exact ⟨_, rfl⟩
  obtain ⟨f, hf⟩ := h
  rw [hf, makerFeesFloor_inv h0 hf]

theorem makerRebateFloor_ok {m : Market} {a : Int} (h0 : 0 ≤ a) (h1 : a ≤ u64Max) (hm : -m.makerFee ≤ 1000000) :
    m.makerRebateFloor a = .ok (floorRebate m.makerFee a) := by
  have h : ∃ f, m.makerRebateFloor a = .ok f := by
    unfold Market.makerRebateFloor Market.unsignedMakerFeesFloor
    split
    · exact ⟨_, rfl⟩
    · rename_i hp
      have hn := floorFee_nonneg (mf := -m.makerFee) h0
      have hl := floorFee_le (mf := -m.makerFee) h0 hm
      unfold floorFee at hn hl
      rw [Int.max_eq_left (by omega)] at hn hl
      rw [natAbs_nonpos hp, feesScale, Int.tdiv_eq_ediv_of_nonneg (Int.mul_nonneg h0 (by omega))]
      exact ⟨_, ckU64_eq hn (by omega)⟩
  obtain ⟨f, hf⟩ := h
  rw [hf, makerRebateFloor_inv h0 hf]

theorem makerFeesCeilU_ok {m : Market} {a : Int} (h0 : 0 ≤ a) (h1 : a ≤ u64Max) (hm : m.makerFee ≤ 1000000) :
    m.makerFeesCeilU a = .ok (ceilFee m.makerFee a) := by
  have h : ∃ f, m.makerFeesCeilU a = .ok f := by
    unfold Market.makerFeesCeilU
    split
    · rename_i hp
      have hn := ceilFee_nonneg (mf := m.makerFee) h0
      have hl := ceilFee_le h0 hm
      unfold ceilFee at hn hl
      rw [Int.max_eq_left (by omega)] at hn hl
      rw [natAbs_pos hp, ceilFeeDivision_eq (Int.mul_nonneg h0 (by omega))]
      exact ⟨_, ckU64_eq hn (by omega)⟩
    · exact ⟨_, rfl⟩
  obtain ⟨f, hf⟩ := h
  rw [hf, makerFeesCeilU_inv h0 hf]

theorem takerFeesCeil_ok {m : Market} {a : Int} (h0 : 0 ≤ a) (h1 : a ≤ u64Max) (ht : 0 ≤ m.takerFee) (hm : m.takerFee ≤ 1000000) :
    ∃ f, m.takerFeesCeil a = .ok f := by
  have hn := ceilFee_nonneg (mf := m.takerFee) h0
  have hl := ceilFee_le h0 hm
  unfold ceilFee at hn hl
  rw [Int.max_eq_left (by omega)] at hn hl
  unfold Market.takerFeesCeil
  rw [ceilFeeDivision_eq (Int.mul_nonneg h0 (by omega))]
  exact ⟨_, ckU64_eq hn (by omega)⟩

/-! ### cancelling succeeds -/

/-- What the market provides for success. -/
structure Covered (m : Market) : Prop where
  bls : 0 < m.baseLotSize
  qls : 0 < m.quoteLotSize
  fees : FeesOk m
  avail : 0 ≤ m.feesAvailable
  base : m.baseDepositTotal ≤ u64Max
  quote : m.quoteDepositTotal ≤ u64Max

theorem Inv.covered {s : State} (h : Inv s) : Covered s.g.market :=
  ⟨h.core.bls, h.core.qls, h.core.fees, h.core.avail.1, h.vb.total.2, h.vq.total.2⟩

theorem GInv.lots {m : Market} {as : Accts} {o : Obl} {R : List Obl} {dB dQ : Int} {ex : Pubkey → Int} (h : GInv m as (o :: R) dB dQ ex)
    (hex : ∀ k, 0 ≤ ex k) (hq : 0 < m.quoteLotSize) {a : OOA} (ha : as.get? o.acct = some a) :
    (o.side = .bid → o.qty ≤ a.position.bidsBaseLots ∧ o.qty * o.lp ≤ a.position.bidsQuoteLots ∧ o.need m ≤ a.position.lockedMakerFees) ∧
    (o.side = .ask → o.qty ≤ a.position.asksBaseLots) := by
  have hk := h.acct _ a ha
  have hpos : ∀ x ∈ o :: R, 0 ≤ x.qty ∧ 0 ≤ x.qty * x.lp ∧ 0 ≤ x.need m := by
    intro x hx
    have hx := h.ok x hx
    have h1 := hx.qty
    have h2 := hx.lp
    have h3 : 0 ≤ x.qty * x.lp := Int.mul_nonneg (by omega) (by omega)
    have h4 : 0 ≤ x.qty * x.lp * m.quoteLotSize := Int.mul_nonneg h3 (by omega)
    refine ⟨by omega, h3, ?_⟩
    cases x with
    | rest => exact ceilFee_nonneg h4
    | out => exact ceilFee_nonneg h4
    | fill => exact floorFee_nonneg h4
  have nB : ∀ x ∈ o :: R, 0 ≤ cB o.acct x := fun x hx => by
    have := hpos x hx; unfold cB; split <;> omega
  have nA : ∀ x ∈ o :: R, 0 ≤ cA o.acct x := fun x hx => by
    have := hpos x hx; unfold cA; split <;> omega
  have nQ : ∀ x ∈ o :: R, 0 ≤ cQ o.acct x := fun x hx => by
    have := hpos x hx; unfold cQ; split <;> omega
  have nN : ∀ x ∈ o :: R, 0 ≤ cN m o.acct x := fun x hx => by
    have := hpos x hx; unfold cN; split <;> omega
  have mB := osum_mem_le nB (o := o) (by simp)
  have mA := osum_mem_le nA (o := o) (by simp)
  have mQ := osum_mem_le nQ (o := o) (by simp)
  have mN := osum_mem_le nN (o := o) (by simp)
  have e1 := hk.bids; have e2 := hk.asks; have e3 := hk.quote; have e4 := hk.fees; have e5 := hex o.acct
  refine ⟨fun hs => ?_, fun hs => ?_⟩
  · simp only [cB, cQ, cN, hs, and_self, if_true] at mB mQ mN
    refine ⟨?_, ?_, ?_⟩ <;> omega
  · simp only [cA, hs, and_self, if_true] at mA
    omega

/-- Cancelling a resting order or delivering a cancel event succeeds. -/
theorem GInv.cancel_ok {m : Market} {as : Accts} {o : Obl} {R : List Obl} {dB dQ : Int} {ex : Pubkey → Int} (h : GInv m as (o :: R) dB dQ ex)
    (hex : ∀ k, 0 ≤ ex k) (hc : Covered m) (hdB : m.baseDepositTotal + dB ≤ u64Max) (hdQ : m.quoteDepositTotal + dQ ≤ u64Max)
    (ho : (∃ s c l oo, o = .rest s c l oo) ∨ (∃ e oo, o = .out e oo)) {a : OOA} (ha : as.get? o.acct = some a) (hl : LotsOk a.position) :
    ∃ a', a.cancelOrder o.slot o.qty m = .ok a' := by
  have hok := h.ok o (by simp)
  have ht : o.term = true := by rcases ho with ⟨s, c, l, oo, rfl⟩ | ⟨e, oo, rfl⟩ <;> rfl
  have hlp : o.lp = o.oo.lockedPrice := by rcases ho with ⟨s, c, l, oo, rfl⟩ | ⟨e, oo, rfl⟩ <;> rfl
  have hneed : o.need m = ceilFee m.makerFee (o.qty * o.lp * m.quoteLotSize) := by
    rcases ho with ⟨s, c, l, oo, rfl⟩ | ⟨e, oo, rfl⟩ <;> rfl
  have hpb : o.pendB m = 0 ∧ o.pendQ m = 0 := by
    rcases ho with ⟨s, c, l, oo, rfl⟩ | ⟨e, oo, rfl⟩ <;> exact ⟨rfl, rfl⟩
  obtain ⟨c1, c2, c3⟩ := h.covers hex hc.bls hc.qls hc.avail ha
  obtain ⟨l1, l2⟩ := h.lots hex hc.qls ha
  have hA := h.acct _ a ha
  have b1 := hA.baseFree; have b2 := hA.quoteFree; have b3 := hA.locked; have b4 := hA.refs
  have h1 := hok.qty
  have h2 := hok.lp
  have q1 := hok.quote
  have q2 := hok.base
  have p1 : 0 ≤ o.qty * o.lp := Int.mul_nonneg (by omega) (by omega)
  have p2 : 0 ≤ o.qty * o.lp * m.quoteLotSize := Int.mul_nonneg p1 (by have := hc.qls; omega)
  have p3 : 0 ≤ o.qty * m.baseLotSize := Int.mul_nonneg (by omega) (by have := hc.bls; omega)
  have p4 : o.qty * o.lp ≤ o.qty * o.lp * m.quoteLotSize := by
    have := Int.mul_le_mul_of_nonneg_left (show 1 ≤ m.quoteLotSize by have := hc.qls; omega) p1
    omega
  have p5 := ceilFee_nonneg (mf := m.makerFee) p2
  have p6 := ceilFee_le p2 hc.fees.m1
  unfold i64Max at q1 q2
  unfold Obl.lockB at c1
  unfold Obl.lockQ at c2
  rw [hpb.1] at c1
  rw [hpb.2, hneed] at c2
  rw [hneed] at l1
  have eq1 : asU64 (o.qty * o.lp * m.quoteLotSize) = o.qty * o.lp * m.quoteLotSize := asU64_eq p2 (by unfold u64Max; omega)
  have eq2 : asU64 (o.qty * m.baseLotSize) = o.qty * m.baseLotSize := asU64_eq p3 (by unfold u64Max; omega)
  have hs := hok.oside ht
  have g1 := hl.bids; have g2 := hl.asks; have g3 := hl.quote
  unfold i64Max at g1 g2 g3
  unfold inU64 at b1 b2 b3 b4
  unfold u64Max at *
  refine cancelOrder_ok (oo := o.oo) (fees := ceilFee m.makerFee (o.qty * o.lp * m.quoteLotSize)) (h.link o (by simp) ht a ha) (hok.used ht)
    ⟨by unfold i64Min; omega, by unfold i64Max; omega⟩ (by rw [← hlp]; exact ⟨by unfold i64Min; omega, by unfold i64Max; omega⟩)
    (by rw [← hlp]; exact ⟨by unfold i64Min; omega, by unfold i64Max; omega⟩)
    (by rw [← hlp, eq1]; exact makerFeesCeilU_ok p2 (by unfold u64Max; omega) hc.fees.m1) ?_ ?_
  · rw [← hlp, eq1, eq2, hs]
    cases hsd : o.side with
    | bid =>
      have := l1 hsd
      rw [if_pos hsd] at c2
      refine ⟨⟨by omega, by unfold u64Max; omega⟩, ⟨by omega, by unfold u64Max; omega⟩, ⟨by omega, by unfold u64Max; omega⟩⟩
    | ask =>
      rw [if_pos hsd] at c1
      exact ⟨by omega, by unfold u64Max; omega⟩
  · rw [← hlp, hs]
    cases hsd : o.side with
    | bid =>
      have := l1 hsd
      exact ⟨⟨by unfold i64Min; omega, by unfold i64Max; omega⟩, ⟨by unfold i64Min; omega, by unfold i64Max; omega⟩⟩
    | ask =>
      have := l2 hsd
      exact ⟨by unfold i64Min; omega, by unfold i64Max; omega⟩

/-- The part of an order a fill unlocks. -/
theorem lockedAmounts_ok {m : Market} {f : FillEvent} {quoteN mf : Int} (hc : Covered m)
    (h1 : 1 ≤ f.quantity) (h2 : 1 ≤ fillLockPrice f) (hle : quoteN ≤ f.quantity * fillLockPrice f * m.quoteLotSize)
    (hquote : f.quantity * fillLockPrice f * m.quoteLotSize ≤ i64Max) (h0 : 0 ≤ quoteN)
    (hmf0 : 0 ≤ mf) (hmf : mf ≤ floorFee m.makerFee quoteN) :
    ∃ lf ab, OOA.lockedAmounts m f f.takerSide.invert quoteN mf = .ok (fillLockPrice f, lf, ab) ∧ 0 ≤ ab ∧ mf ≤ lf ∧
      lf ≤ floorFee m.makerFee (f.quantity * fillLockPrice f * m.quoteLotSize) ∧
      ab ≤ f.quantity * fillLockPrice f * m.quoteLotSize - quoteN + (lf - mf) := by
  have hside : f.takerSide.invert = .bid ↔ f.takerSide = .ask := by cases f.takerSide <;> simp [Side.invert]
  have hmono := floorFee_mono (mf := m.makerFee) hle
  unfold OOA.lockedAmounts
  simp only [hside]
  by_cases hp : f.pegLimit ≠ -1 ∧ f.takerSide = .ask
  · have e : fillLockPrice f = f.pegLimit := by unfold fillLockPrice; rw [if_pos hp]
    rw [e] at h2 hle hquote hmono ⊢
    have p1 : 0 ≤ f.quantity * f.pegLimit := Int.mul_nonneg (by omega) (by omega)
    have p2 : 0 ≤ f.quantity * f.pegLimit * m.quoteLotSize := Int.mul_nonneg p1 (by have := hc.qls; omega)
    have p4 : f.quantity * f.pegLimit ≤ f.quantity * f.pegLimit * m.quoteLotSize := by
      have := Int.mul_le_mul_of_nonneg_left (show 1 ≤ m.quoteLotSize by have := hc.qls; omega) p1
      omega
    have p6 := floorFee_le p2 hc.fees.m1
    rw [if_pos hp, ckI64_eq (by unfold i64Min; omega) (by omega)]
    simp only [ok_bind]
    rw [ckI64_eq (by unfold i64Min; omega) hquote]
    simp only [ok_bind]
    unfold i64Max at hquote
    rw [asU64_eq p2 (by unfold u64Max; omega), ckU64_eq (by omega) (by unfold u64Max; omega)]
    simp only [ok_bind]
    rw [makerFeesFloor_ok p2 (by unfold u64Max; omega) hc.fees.m1]
    simp only [ok_bind]
    rw [ckU64_eq (by omega) (by unfold u64Max; omega)]
    simp only [ok_bind]
    rw [ckU64_eq (by omega) (by unfold u64Max; omega)]
    simp only [ok_bind]
    exact ⟨_, _, rfl, by omega, by omega, by omega, by omega⟩
  · have e : fillLockPrice f = f.price := by unfold fillLockPrice; rw [if_neg hp]
    rw [if_neg hp, ← e]
    exact ⟨_, _, rfl, by omega, by omega, by omega, by omega⟩

/-- Delivering a fill to its maker succeeds unless a 128 bit statistic overflows. -/
theorem GInv.maker_ok {m : Market} {as : Accts} {f : FillEvent} {oo : OpenOrder} {O' : List Obl} {dB dQ : Int} {ex : Pubkey → Int}
    (h : GInv m as (.fill f oo :: O') dB dQ ex)
    (hex : ∀ k, 0 ≤ ex k) (hc : Covered m) (hdB : m.baseDepositTotal + dB ≤ u64Max) (hdQ : m.quoteDepositTotal + dQ ≤ u64Max)
    {a : OOA} (ha : as.get? f.maker = some a) (hl : LotsOk a.position)
    (hv0 : 0 ≤ a.position.makerVolume) (hv : a.position.makerVolume + fillQuote m f ≤ u128Max)
    (hmv0 : 0 ≤ m.makerVolume) (hmv : m.makerVolume + fillQuote m f ≤ u128Max)
    (hfa0 : 0 ≤ m.feesAccrued) (hfa : m.feesAccrued + fillQuote m f ≤ u128Max) :
    ∃ a' m', a.executeMaker m f = .ok (a', m') := by
  have hok := h.ok (.fill f oo) (by simp)
  obtain ⟨hp1, hp2, hp3⟩ := hok.fill f oo rfl
  obtain ⟨c1, c2, c3⟩ := h.covers hex hc.bls hc.qls hc.avail ha
  obtain ⟨l1, l2⟩ := h.lots hex hc.qls ha
  have hA := h.acct _ a ha
  have b1 := hA.baseFree; have b2 := hA.quoteFree; have b3 := hA.locked; have b4 := hA.refs
  have h1 : 1 ≤ f.quantity := hok.qty
  have h2 : 1 ≤ fillLockPrice f := hok.lp
  have q1 : f.quantity * fillLockPrice f * m.quoteLotSize ≤ i64Max := hok.quote
  have q2 : f.quantity * m.baseLotSize ≤ i64Max := hok.base
  have p1 : 0 ≤ f.quantity * fillLockPrice f := Int.mul_nonneg (by omega) (by omega)
  have p2 : 0 ≤ f.quantity * fillLockPrice f * m.quoteLotSize := Int.mul_nonneg p1 (by have := hc.qls; omega)
  have p3 : 0 ≤ f.quantity * m.baseLotSize := Int.mul_nonneg (by omega) (by have := hc.bls; omega)
  have p4 : f.quantity * fillLockPrice f ≤ f.quantity * fillLockPrice f * m.quoteLotSize := by
    have := Int.mul_le_mul_of_nonneg_left (show 1 ≤ m.quoteLotSize by have := hc.qls; omega) p1
    omega
  have r1 : 0 ≤ f.quantity * f.price := Int.mul_nonneg (by omega) (by omega)
  have r2 : 0 ≤ f.quantity * f.price * m.quoteLotSize := Int.mul_nonneg r1 (by have := hc.qls; omega)
  have r4 : f.quantity * f.price ≤ f.quantity * f.price * m.quoteLotSize := by
    have := Int.mul_le_mul_of_nonneg_left (show 1 ≤ m.quoteLotSize by have := hc.qls; omega) r1
    omega
  have hle : f.quantity * f.price * m.quoteLotSize ≤ f.quantity * fillLockPrice f * m.quoteLotSize := by
    refine Int.mul_le_mul_of_nonneg_right (Int.mul_le_mul_of_nonneg_left ?_ (by omega)) (by have := hc.qls; omega)
    cases hs : f.takerSide with
    | ask => exact hp3 hs
    | bid => unfold fillLockPrice; rw [hs]; simp
  have eq1 : asU64 (f.quantity * f.price * m.quoteLotSize) = f.quantity * f.price * m.quoteLotSize :=
    asU64_eq r2 (by unfold i64Max at hp2; unfold u64Max; omega)
  have eq2 : asU64 (f.quantity * m.baseLotSize) = f.quantity * m.baseLotSize :=
    asU64_eq p3 (by unfold i64Max at q2; unfold u64Max; omega)
  have hqU : f.quantity * f.price * m.quoteLotSize ≤ u64Max := by unfold i64Max at hp2; unfold u64Max; omega
  have ff0 := floorFee_nonneg (mf := m.makerFee) r2
  have ff1 := floorFee_le r2 hc.fees.m1
  have hfee : ∃ mf, (if f.maker = f.taker then .ok 0 else m.makerFeesFloor (f.quantity * f.price * m.quoteLotSize)) = .ok mf ∧
      0 ≤ mf ∧ mf ≤ floorFee m.makerFee (f.quantity * f.price * m.quoteLotSize) := by
    split
    · exact ⟨0, rfl, Int.le_refl _, ff0⟩
    · exact ⟨_, makerFeesFloor_ok r2 hqU hc.fees.m1, ff0, Int.le_refl _⟩
  have hreb : (if f.maker = f.taker then .ok 0 else m.makerRebateFloor (f.quantity * f.price * m.quoteLotSize)) = .ok (f.rebate m) ∧
      0 ≤ f.rebate m := by
    unfold FillEvent.rebate
    split
    · exact ⟨rfl, Int.le_refl _⟩
    · exact ⟨makerRebateFloor_ok r2 hqU (by have := hc.fees.m0; have := hc.fees.t1; omega), floorRebate_nonneg r2⟩
  obtain ⟨mf, hmf, mf0, mf1⟩ := hfee
  obtain ⟨hrb, rb0⟩ := hreb
  obtain ⟨lf, ab, hla, ab0, lf0, lf1, ab1⟩ := lockedAmounts_ok (f := f) hc h1 h2 hle q1 r2 mf0 mf1
  have fl1 := floorFee_le p2 hc.fees.m1
  have fqe : fillQuote m f = f.quantity * f.price * m.quoteLotSize := rfl
  rw [fqe] at hv hmv hfa
  obtain ⟨tf, htf⟩ := takerFeesCeil_ok (m := m) r2 hqU hc.fees.t0 hc.fees.t1
  have g1 := hl.bids; have g2 := hl.asks; have g3 := hl.quote
  have hrr : m.referrerRebatesAccrued + mf ≤ u64Max ∧ 0 ≤ m.referrerRebatesAccrued ∧
      (match f.takerSide.invert with
        | .bid => a.position.baseFreeNative + f.quantity * m.baseLotSize ≤ u64Max ∧
          a.position.quoteFreeNative + (f.rebate m + ab) ≤ u64Max ∧ 0 ≤ a.position.lockedMakerFees - lf
        | .ask => f.quantity * f.price * m.quoteLotSize + f.rebate m ≤ u64Max ∧
          a.position.quoteFreeNative + (f.quantity * f.price * m.quoteLotSize + f.rebate m - mf) ≤ u64Max) := by
    have z0 : 0 ≤ m.referrerRebatesAccrued := Int.le_trans b4.1 c3
    have z1 := b1.1
    have z2 := b2.1
    have hcase : f.takerSide = .bid ∨ f.takerSide = .ask := by cases f.takerSide <;> simp
    unfold Obl.lockB Obl.lockQ Obl.pendB Obl.pendQ Obl.need at *
    simp only [Obl.side, Obl.qty, Obl.lp] at *
    rcases hcase with hs | hs
    · simp [hs, Side.invert] at c1 c2 ⊢
      omega
    · simp [hs, Side.invert] at c1 c2 l1 ⊢
      omega
  obtain ⟨rr1, rr2, rr3⟩ := hrr
  have hrem : ∀ p : Position, p.bidsBaseLots = a.position.bidsBaseLots → p.asksBaseLots = a.position.asksBaseLots →
      p.bidsQuoteLots = a.position.bidsQuoteLots → ∃ a2, (if f.makerOut then
        OOA.removeOrder { a with position := p } f.makerSlot f.quantity (fillLockPrice f)
      else match f.takerSide.invert with
        | .bid => do
          let b ← ckI64 (p.bidsBaseLots - f.quantity)
          let q ← ckI64 (p.bidsQuoteLots - (← ckI64 (f.quantity * fillLockPrice f)))
          return { a with position := { p with bidsBaseLots := b, bidsQuoteLots := q } }
        | .ask => do
          let b ← ckI64 (p.asksBaseLots - f.quantity)
          return { a with position := { p with asksBaseLots := b } } : R OOA) = .ok a2 := by
    intro p e1 e2 e3
    unfold i64Max at q1
    cases ho : f.makerOut with
    | true =>
      rw [if_pos rfl]
      refine ⟨_, removeOrder_ok (oo := oo) (h.link (.fill f oo) (by simp) ho a ha) (hok.used ho) ?_⟩
      rw [show oo.side = f.takerSide.invert from hok.oside ho]
      cases hs : f.takerSide.invert with
      | bid =>
        obtain ⟨x1, x2, x3⟩ := l1 hs
        have x1 : f.quantity ≤ _ := x1
        have x2 : f.quantity * fillLockPrice f ≤ _ := x2
        simp only [e1, e3]
        unfold i64Max at g1 g3
        exact ⟨⟨by unfold i64Min; omega, by unfold i64Max; omega⟩, ⟨by unfold i64Min; omega, by unfold i64Max; omega⟩,
          ⟨by unfold i64Min; omega, by unfold i64Max; omega⟩⟩
      | ask =>
        have x1 : f.quantity ≤ _ := l2 hs
        simp only [e2]
        unfold i64Max at g2
        exact ⟨by unfold i64Min; omega, by unfold i64Max; omega⟩
    | false =>
      rw [if_neg (by simp)]
      cases hs : f.takerSide.invert with
      | bid =>
        obtain ⟨x1, x2, x3⟩ := l1 hs
        have x1 : f.quantity ≤ _ := x1
        have x2 : f.quantity * fillLockPrice f ≤ _ := x2
        simp only [e1, e3]
        unfold i64Max at g1 g3
        rw [ckI64_eq (by unfold i64Min; omega) (by unfold i64Max; omega), ckI64_eq (by unfold i64Min; omega) (by unfold i64Max; omega)]
        simp only [ok_bind]
        rw [ckI64_eq (by unfold i64Min; omega) (by unfold i64Max; omega)]
        exact ⟨_, rfl⟩
      | ask =>
        have x1 : f.quantity ≤ _ := l2 hs
        simp only [e2]
        unfold i64Max at g2
        rw [ckI64_eq (by unfold i64Min; omega) (by unfold i64Max; omega)]
        exact ⟨_, rfl⟩
  have fin : ∃ x, a.executeMaker m f = .ok x := by
    unfold OOA.executeMaker
    simp only [ite_bind]
    simp only [bind_ok, ckI64_ok, ckU64_ok, ckU128_ok, pure_ok]
    unfold u64Max at *
    unfold i64Max at q1 q2 hp2
    unfold u128Max at hv hmv hfa
    have htf' : ∀ m' : Market, m'.takerFee = m.takerFee →
        ∃ tf', (if f.quantity * f.price * m.quoteLotSize > 0 ∧ f.maker ≠ f.taker then m'.takerFeesCeil (f.quantity * f.price * m.quoteLotSize)
          else .ok 0) = .ok tf' := by
      intro m' e
      split
      · refine ⟨tf, ?_⟩
        unfold Market.takerFeesCeil at htf ⊢
        rw [e]; exact htf
      · exact ⟨0, rfl⟩
    cases hs : f.takerSide.invert with
    | bid =>
      rw [hs] at rr3 hla
      obtain ⟨s1, s2, s3⟩ := rr3
      obtain ⟨a2, ha2⟩ := hrem { a.position with
        baseFreeNative := a.position.baseFreeNative + f.quantity * m.baseLotSize
        quoteFreeNative := a.position.quoteFreeNative + (f.rebate m + ab)
        lockedMakerFees := a.position.lockedMakerFees - lf
        makerVolume := a.position.makerVolume + f.quantity * f.price * m.quoteLotSize
        referrerRebatesAvailable := a.position.referrerRebatesAvailable + mf } rfl rfl rfl
      rw [hs] at ha2
      obtain ⟨tf', htf'⟩ := htf' { m with
        referrerRebatesAccrued := m.referrerRebatesAccrued + mf
        makerVolume := m.makerVolume + f.quantity * f.price * m.quoteLotSize
        feesAccrued := m.feesAccrued + mf } rfl
      unfold inU64 u64Max at b1 b2 b3 b4
      refine ⟨(a2, { m with
        referrerRebatesAccrued := m.referrerRebatesAccrued + mf
        makerVolume := m.makerVolume + f.quantity * f.price * m.quoteLotSize
        feesAccrued := m.feesAccrued + mf }), _, ⟨⟨by unfold i64Min; omega, by unfold i64Max; omega⟩, rfl⟩, _, ⟨⟨by unfold i64Min; omega, by unfold i64Max; omega⟩, rfl⟩,
        mf, by rw [eq1]; exact hmf, f.rebate m, by rw [eq1]; exact hrb, (fillLockPrice f, lf, ab), by rw [eq1]; exact hla, ?_⟩
      refine ⟨{ a.position with
        baseFreeNative := a.position.baseFreeNative + f.quantity * m.baseLotSize
        quoteFreeNative := a.position.quoteFreeNative + (f.rebate m + ab)
        lockedMakerFees := a.position.lockedMakerFees - lf }, by
        simp only [bind_ok, ckI64_ok, ckU64_ok, pure_ok]
        exact ⟨_, ⟨⟨by unfold i64Min; omega, by unfold i64Max; omega⟩, rfl⟩, _, ⟨⟨by omega, by rw [eq2]; unfold u64Max; omega⟩, rfl⟩,
          _, ⟨⟨by omega, by unfold u64Max; omega⟩, rfl⟩, _, ⟨⟨by omega, by unfold u64Max; omega⟩, rfl⟩, _, ⟨⟨by omega, by unfold u64Max; omega⟩, rfl⟩, by rw [eq2]⟩, ?_⟩
      simp only
      rw [eq1]
      exact ⟨_, ⟨⟨by omega, by unfold u128Max; omega⟩, rfl⟩, _, ⟨⟨by omega, by omega⟩, rfl⟩,
        _, ⟨⟨by omega, by omega⟩, rfl⟩, _, ⟨⟨by omega, by unfold u128Max; omega⟩, rfl⟩,
        _, ⟨⟨by omega, by unfold u128Max; omega⟩, rfl⟩, a2, ha2, tf', htf', rfl⟩
    | ask =>
      rw [hs] at rr3 hla
      obtain ⟨s1, s2⟩ := rr3
      obtain ⟨a2, ha2⟩ := hrem { a.position with
        quoteFreeNative := a.position.quoteFreeNative + (f.quantity * f.price * m.quoteLotSize + f.rebate m - mf)
        makerVolume := a.position.makerVolume + f.quantity * f.price * m.quoteLotSize
        referrerRebatesAvailable := a.position.referrerRebatesAvailable + mf } rfl rfl rfl
      rw [hs] at ha2
      obtain ⟨tf', htf'⟩ := htf' { m with
        referrerRebatesAccrued := m.referrerRebatesAccrued + mf
        makerVolume := m.makerVolume + f.quantity * f.price * m.quoteLotSize
        feesAccrued := m.feesAccrued + mf } rfl
      unfold inU64 u64Max at b1 b2 b3 b4
      refine ⟨(a2, { m with
        referrerRebatesAccrued := m.referrerRebatesAccrued + mf
        makerVolume := m.makerVolume + f.quantity * f.price * m.quoteLotSize
        feesAccrued := m.feesAccrued + mf }), _, ⟨⟨by unfold i64Min; omega, by unfold i64Max; omega⟩, rfl⟩, _, ⟨⟨by unfold i64Min; omega, by unfold i64Max; omega⟩, rfl⟩,
        mf, by rw [eq1]; exact hmf, f.rebate m, by rw [eq1]; exact hrb, (fillLockPrice f, lf, ab), by rw [eq1]; exact hla, ?_⟩
      refine ⟨{ a.position with
        quoteFreeNative := a.position.quoteFreeNative + (f.quantity * f.price * m.quoteLotSize + f.rebate m - mf) }, by
        simp only [bind_ok, ckU64_ok, pure_ok]
        exact ⟨_, ⟨⟨by omega, by rw [eq1]; unfold u64Max; omega⟩, rfl⟩,
          _, ⟨⟨by omega, by rw [eq1]; unfold u64Max; omega⟩, rfl⟩, _, ⟨⟨by omega, by rw [eq1]; unfold u64Max; omega⟩, rfl⟩, by rw [eq1]⟩, ?_⟩
      simp only
      rw [eq1]
      exact ⟨_, ⟨⟨by omega, by unfold u128Max; omega⟩, rfl⟩, _, ⟨⟨by omega, by omega⟩, rfl⟩,
        _, ⟨⟨by omega, by omega⟩, rfl⟩, _, ⟨⟨by omega, by unfold u128Max; omega⟩, rfl⟩,
        _, ⟨⟨by omega, by unfold u128Max; omega⟩, rfl⟩, a2, ha2, tf', htf', rfl⟩
  obtain ⟨⟨a', m'⟩, hx⟩ := fin
  exact ⟨a', m', hx⟩

end OB
