import Verif.Proofs.StakeIx
/-!
What is due to an account is not negative, and not more than it has on the books.
-/
namespace OB
open Spec

theorem sum_kinds {g : Ledger} {L : Rests} {dB dQ : Int} {ex : Pubkey → Int} {n : Nat} {O : List Obl} {q : List (Nat × Event)}
    (h : LInvW g L dB dQ ex n O q) (F : OKind → Int) :
    osum (fun o => F o.k) O = (L.map (fun x => F (.rest x.1 x.2.1 x.2.2))).sum + (g.heap.events.map (fun e => F (.ev e))).sum := by
  have h1 : osum (fun o => F o.k) O = ((O.map Obl.k).map F).sum := by unfold osum; rw [List.map_map]; rfl
  have h2 : ((O.map Obl.k).map F).sum = ((restKs L ++ evKs q).map F).sum := by
    have := h.kinds.map F
    generalize (O.map Obl.k).map F = A at this ⊢
    generalize (restKs L ++ evKs q).map F = B at this ⊢
    induction this with
    | nil => rfl
    | cons x _ ih => simp only [List.sum_cons, ih]
    | swap x y l => simp only [List.sum_cons]; omega
    | trans _ _ ih1 ih2 => rw [ih1, ih2]
  rw [h1, h2, h.heap.events, List.map_append, List.sum_append]
  simp only [restKs, evKs, List.map_map]
  rfl

theorem total_filter (es : List Event) (k : Pubkey) (v : Event → Int) :
    total (es.filter (fun e => eventAccount e = k)) v = (es.map (fun e => if eventAccount e = k then v e else 0)).sum := by
  unfold total
  induction es with
  | nil => rfl
  | cons e es ih =>
    rw [List.filter_cons]
    by_cases h : eventAccount e = k
    · simp [h]; exact ih
    · simp [h]; exact ih

theorem sumOver_filter (L : Rests) (k : Pubkey) (v : Side → Comp → LeafNode → Int) :
    sumOver (L.filter (fun x => x.2.2.owner = k)) v = (L.map (fun x => if x.2.2.owner = k then v x.1 x.2.1 x.2.2 else 0)).sum := by
  unfold sumOver
  induction L with
  | nil => rfl
  | cons x L ih =>
    rw [List.filter_cons]
    by_cases h : x.2.2.owner = k
    · simp [h]; exact ih
    · simp [h]; exact ih

theorem osum_le {f g : Obl → Int} {O : List Obl} (h : ∀ o ∈ O, f o ≤ g o) : osum f O ≤ osum g O := by
  induction O with
  | nil => exact Int.le_refl 0
  | cons o O ih =>
    rw [osum_cons, osum_cons]
    have := h o (by simp); have := ih (fun o ho => h o (by simp [ho])); omega

theorem osum_add (f g : Obl → Int) (O : List Obl) : osum (fun o => f o + g o) O = osum f O + osum g O := by
  induction O with
  | nil => rfl
  | cons o O ih => rw [osum_cons, osum_cons, osum_cons, ih]; omega

theorem osum_mul (f : Obl → Int) (O : List Obl) (c : Int) : osum (fun o => f o * c) O = osum f O * c := by
  induction O with
  | nil => simp [osum]
  | cons o O ih => rw [osum_cons, osum_cons, ih, Int.add_mul]

/-- Contributions of an obligation to what is due. -/
def kB (m : Market) (k : Pubkey) : OKind → Int
  | .rest s _ l => if l.owner = k then lockedBase m s l else 0
  | .ev e => if eventAccount e = k then creditBase m e else 0
def kQ (m : Market) (k : Pubkey) (a : OOA) : OKind → Int
  | .rest s c l => if l.owner = k then heldQuote m s c l + heldFee m s c l else 0
  | .ev e => if eventAccount e = k then creditQuote m a e else 0
/-- Contributions to the value of trades not yet delivered. -/
def kW (m : Market) (k : Pubkey) : OKind → Int
  | .rest _ _ _ => 0
  | .ev e => if eventAccount e = k then queuedWorth m e else 0

theorem dueBase_osum {s : State} {dB dQ : Int} {ex : Pubkey → Int} {n : Nat} {O : List Obl} {q : List (Nat × Event)}
    (h : LInvW s.g s.book.resting dB dQ ex n O q) (k : Pubkey) (a : OOA) :
    dueBase s k a = a.position.baseFreeNative + osum (fun o => kB s.g.market k o.k) O := by
  rw [sum_kinds h]
  unfold dueBase eventsOf ordersOf
  rw [total_filter, sumOver_filter]
  simp only [kB]
  omega

theorem dueQuote_osum {s : State} {dB dQ : Int} {ex : Pubkey → Int} {n : Nat} {O : List Obl} {q : List (Nat × Event)}
    (h : LInvW s.g s.book.resting dB dQ ex n O q) (k : Pubkey) (a : OOA) :
    dueQuote s k a = a.position.quoteFreeNative + osum (fun o => kQ s.g.market k a o.k) O := by
  rw [sum_kinds h]
  unfold dueQuote eventsOf ordersOf
  rw [total_filter, sumOver_filter]
  simp only [kQ]
  omega

theorem worth_osum {s : State} {dB dQ : Int} {ex : Pubkey → Int} {n : Nat} {O : List Obl} {q : List (Nat × Event)}
    (h : LInvW s.g s.book.resting dB dQ ex n O q) (k : Pubkey) :
    total (eventsOf s k) (queuedWorth s.g.market) = osum (fun o => kW s.g.market k o.k) O := by
  rw [sum_kinds h]
  unfold eventsOf
  rw [total_filter]
  simp only [kW]
  have : ∀ L : Rests, (L.map (fun _ => (0 : Int))).sum = 0 := by
    intro L
    induction L with
    | nil => rfl
    | cons x L ih => rw [List.map_cons, List.sum_cons, ih]; rfl
  rw [this]; omega

theorem kB_nonneg {m : Market} {k : Pubkey} {o : Obl} (h : OblOk m o) (hb : 0 < m.baseLotSize) : 0 ≤ kB m k o.k := by
  have hq := h.qty
  have hp : 0 ≤ o.qty * m.baseLotSize := Int.mul_nonneg (by omega) (by omega)
  cases o with
  | rest s c l oo => simp only [Obl.k, kB, lockedBase]; split <;> (try split) <;> first | exact hp | exact Int.le_refl 0
  | out e oo => simp only [Obl.k, kB, creditBase]; split <;> (try split) <;> first | exact hp | exact Int.le_refl 0
  | fill f oo => simp only [Obl.k, kB, creditBase]; split <;> (try split) <;> first | exact hp | exact Int.le_refl 0

theorem lockedAt_oo {s : Side} {c : Comp} {l : LeafNode} {oo : OpenOrder} (h : RestOk s c l oo) (hs : s = .bid) :
    lockedAt c l = oo.lockedPrice := by
  cases c with
  | fixed => exact ((h.fixed rfl).2.2.2).symm
  | pegged => exact ((h.pegged rfl).2 hs).symm

theorem kQ_bounds {m : Market} {as : Accts} {O : List Obl} {dB dQ : Int} {ex : Pubkey → Int} (hg : GInv m as O dB dQ ex)
    (hl : 0 < m.quoteLotSize) (hf : m.makerFee ≤ 1000000) {k : Pubkey} {a : OOA} (ha : as.get? k = some a) {o : Obl} (ho : o ∈ O) :
    0 ≤ kQ m k a o.k ∧ kQ m k a o.k ≤ cQ k o * m.quoteLotSize + cN m k o + kW m k o.k := by
  have hok := hg.ok o ho
  have hq := hok.qty
  have hp := hok.lp
  have hqp : 0 ≤ o.qty * o.lp := Int.mul_nonneg (by omega) (by omega)
  have hv : 0 ≤ o.qty * o.lp * m.quoteLotSize := Int.mul_nonneg hqp (by omega)
  cases o with
  | rest s c l oo =>
    simp only [Obl.k, kQ, kW, cQ, cN, Obl.acct, Obl.side]
    by_cases e1 : l.owner = k
    · by_cases e2 : s = .bid
      · have hlk := lockedAt_oo (hok.rest _ _ _ _ rfl) e2
        simp only [e1, e2, and_self, if_true, heldQuote, heldFee, bidFee, bidValue, hlk]
        have := ceilFee_nonneg (mf := m.makerFee) hv
        simp only [Obl.need, Obl.qty, Obl.lp, ceilFee] at this hv ⊢
        omega
      · simp [e1, e2, heldQuote, heldFee]
    · simp [e1]
  | out e oo =>
    simp only [Obl.k, kQ, kW, cQ, cN, Obl.acct, Obl.side, eventAccount]
    by_cases e1 : e.owner = k
    · by_cases e2 : e.side = .bid
      · have hlink := hg.link _ ho rfl a (by show as.get? e.owner = some a; rw [e1]; exact ha)
        have hlk : eventLockedAt a (.out e) = oo.lockedPrice := by
          unfold eventLockedAt
          simp only [Obl.slot, Obl.oo] at hlink
          simp only [hlink]
        simp only [e1, e2, and_self, if_true, creditQuote, bidFee, bidValue, hlk, queuedWorth]
        have := ceilFee_nonneg (mf := m.makerFee) hv
        simp only [Obl.need, Obl.qty, Obl.lp, ceilFee] at this hv ⊢
        omega
      · simp [e1, e2, creditQuote, queuedWorth]
    · simp [e1]
  | fill f oo =>
    simp only [Obl.k, kQ, kW, cQ, cN, Obl.acct, Obl.side, eventAccount]
    by_cases e1 : f.maker = k
    · obtain ⟨p1, p2, p3⟩ := hok.fill _ _ rfl
      simp only [Obl.qty, Obl.lp] at hq hp hqp hv
      have hfq : 0 ≤ fillQuote m f := Int.mul_nonneg (Int.mul_nonneg (by omega) (by omega)) (by omega)
      have hreb : 0 ≤ fillRebate m f := by
        unfold fillRebate
        split
        · exact Int.le_refl 0
        · exact floorRebate_nonneg hfq
      have hmf0 : 0 ≤ fillMakerFee m f := by
        unfold fillMakerFee
        split
        · exact Int.le_refl 0
        · exact floorFee_nonneg hfq
      have hmf1 : fillMakerFee m f ≤ fillQuote m f := by
        unfold fillMakerFee
        split
        · exact hfq
        · exact floorFee_le hfq hf
      have hts : f.takerSide = .bid ∨ f.takerSide = .ask := by cases f.takerSide <;> simp
      rcases hts with hts | hts
      · simp only [e1, hts, Side.invert, reduceCtorEq, and_false, if_true, if_false, creditQuote, queuedWorth, makerWorth, Int.zero_mul]
        omega
      · simp only [e1, hts, Side.invert, and_self, if_true, creditQuote, queuedWorth, makerWorth, Obl.need, Obl.qty, Obl.lp]
        have hlp := p3 hts
        have hneed := floorFee_nonneg (mf := m.makerFee) hv
        by_cases hpeg : f.pegLimit = -1
        · have e3 : fillLockPrice f = f.price := by unfold fillLockPrice; rw [if_neg (fun h => h.1 hpeg)]
          rw [e3] at hneed ⊢
          simp only [fillLocked, fillLockedFee, hpeg, if_true]
          unfold fillQuote at *
          omega
        · have e3 : fillLockPrice f = f.pegLimit := by unfold fillLockPrice; rw [if_pos ⟨hpeg, hts⟩]
          rw [e3] at hneed hlp hv ⊢
          have hle : fillQuote m f ≤ f.quantity * f.pegLimit * m.quoteLotSize :=
            Int.mul_le_mul_of_nonneg_right (Int.mul_le_mul_of_nonneg_left hlp (by omega)) (by omega)
          have hmono := floorFee_mono (mf := m.makerFee) hle
          have hmf2 : fillMakerFee m f ≤ floorFee m.makerFee (fillQuote m f) := by
            unfold fillMakerFee
            split
            · exact floorFee_nonneg hfq
            · exact Int.le_refl _
          simp only [fillLocked, fillLockedFee, hpeg, if_false]
          unfold floorFee at *
          omega
    · simp [e1]

theorem worth_bounds {s : State} (hi : Inv s) {k : Pubkey} {a : OOA} (ha : s.g.accts.get? k = some a) :
    0 ≤ dueBase s k a ∧ 0 ≤ dueQuote s k a ∧ dueQuote s k a ≤ stakeQuote s k a := by
  obtain ⟨O, q, hw⟩ := hi.core.linv
  have hok := hw.ginv.acct k a ha
  have h1 := hok.baseFree.1
  have h2 := hok.quoteFree.1
  have h3 := hok.refs.1
  have hfees := hok.fees
  have hmf : s.g.market.makerFee ≤ 1000000 := hi.core.fees.m1
  have hb := fun o ho => kQ_bounds hw.ginv hi.core.qls hmf ha (o := o) ho
  have hB : 0 ≤ osum (fun o => kB s.g.market k o.k) O := osum_nonneg (fun o ho => kB_nonneg (hw.ginv.ok o ho) hi.core.bls)
  have hQ : 0 ≤ osum (fun o => kQ s.g.market k a o.k) O := osum_nonneg (fun o ho => (hb o ho).1)
  have hW := osum_le (fun o ho => (hb o ho).2)
  rw [osum_add, osum_add, osum_mul] at hW
  rw [dueBase_osum hw, dueQuote_osum hw]
  unfold stakeQuote
  rw [worth_osum hw, hok.quote]
  refine ⟨by omega, by omega, by omega⟩

end OB
