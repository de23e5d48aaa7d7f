import Verif.Proofs.Facts
import Verif.Proofs.FeeFun
import Verif.Spec.Cancel
import Verif.Props.Scenario
/-!
C17  Locked maker fees never underflow.

The third sentence of the property, that fills and cancels never fail, is C40_consume_events, C40_cancel_order and
C40_cancel_by_client_id.
-/
namespace OB
open Spec

/-- The maker fee released by a partial fill of `q` lots of a bid locked at price `p`: rounded down. -/
def partFee (m : Market) (q p : Int) : Int := bidValue m q p * max m.makerFee 0 / 1000000

/-- The maker fee locked for a bid of `sum fills + rest` lots covers the fees released by fills of the sizes `fills`, in whatever
order, and the fee released by cancelling the rest. -/
theorem C17_fee_covers_fills_and_cancel (m : Market) (p : Int) (fills : List Int) (rest : Int) :
    (fills.map (fun q => partFee m q p)).sum + bidFee m rest p ≤ bidFee m (fills.sum + rest) p := by
  induction fills with
  | nil => simp
  | cons q qs ih =>
    have h := fee_split m.makerFee (bidValue m q p) (bidValue m (qs.sum + rest) p)
    have e : bidValue m q p + bidValue m (qs.sum + rest) p = bidValue m ((q :: qs).sum + rest) p := by
      simp only [bidValue, List.sum_cons]
      rw [← Int.add_mul, ← Int.add_mul, Int.add_assoc]
    rw [e] at h
    rw [List.map_cons, List.sum_cons]
    have h : partFee m q p + bidFee m (qs.sum + rest) p ≤ bidFee m ((q :: qs).sum + rest) p := h
    omega

/-- The functions of the program compute these fees: the fee locked by a posted bid and released by a cancellation is
`maker_fees_ceil` (at type i64 and at type u64), the fee released by a fill is `maker_fees_floor`. -/
theorem C17_model_fees (m : Market) (q p x : Int) (h0 : 0 ≤ bidValue m q p) :
    (m.makerFeesCeilI (bidValue m q p) = .ok x → x = bidFee m q p) ∧ (m.makerFeesCeilU (bidValue m q p) = .ok x → x = bidFee m q p) ∧
      (m.makerFeesFloor (bidValue m q p) = .ok x → x = partFee m q p) :=
  ⟨makerFeesCeilI_inv h0, makerFeesCeilU_inv h0, makerFeesFloor_inv h0⟩

theorem osum_le {f g : Obl → Int} {O : List Obl} (h : ∀ o ∈ O, f o ≤ g o) : osum f O ≤ osum g O := by
  induction O with
  | nil => exact Int.le_refl _
  | cons o O ih =>
    rw [osum_cons, osum_cons]
    have := h o (by simp); have := ih (fun o ho => h o (by simp [ho])); omega

/-- In every reachable state the locked maker fees of an account cover what the cancellation of all its resting bids and the
delivery of all queued events will release. -/
theorem C17_locked_fees_suffice (s : State) (hr : Reachable s) (k : Pubkey) (a : OOA) (ha : (k, a) ∈ s.g.accts) :
    sumOrders s (fun sd c l => if l.owner = k then heldFee s.g.market sd c l else 0) +
      sumEvents s (fun e => if eventAccount e = k then releasedFee s.g.market a e else 0) ≤ a.position.lockedMakerFees := by
  have hi := reachable_Inv hr
  obtain ⟨O, q, hl⟩ := hi.core.linv
  have hget := acct_get hl.ginv.nodup ha
  have h1 := (hl.ginv.acct k a hget).fees
  let F : OKind → Int := fun x => match x with
    | .rest sd c l => if l.owner = k then heldFee s.g.market sd c l else 0
    | .ev e => if eventAccount e = k then releasedFee s.g.market a e else 0
  have h2 := hl.sum (fun o => F o.k) F (fun _ _ => rfl)
  have h3 : osum (fun o => F o.k) O ≤ osum (cN s.g.market k) O := by
    refine osum_le (fun o ho => ?_)
    have hok := hl.ginv.ok o ho
    have hlk := hl.ginv.link o ho
    have hq := hi.core.qls
    cases o with
    | rest sd c l oo =>
      show (if l.owner = k then heldFee s.g.market sd c l else 0) ≤
        (if l.owner = k ∧ sd = .bid then ceilFee s.g.market.makerFee (l.quantity * oo.lockedPrice * s.g.market.quoteLotSize) else 0)
      by_cases h1 : l.owner = k
      · by_cases h2 : sd = .bid
        · rw [if_pos h1, if_pos ⟨h1, h2⟩, heldFee, if_pos h2]
          have hr := hok.rest _ _ _ _ rfl
          have : oo.lockedPrice = lockedAt c l := by
            cases c with
            | fixed => exact (hr.fixed rfl).2.2.2
            | pegged => exact (hr.pegged rfl).2 h2
          rw [this]
          exact Int.le_refl _
        · rw [if_pos h1, if_neg (fun h => h2 h.2), heldFee, if_neg h2]; exact Int.le_refl _
      · rw [if_neg h1, if_neg (fun h => h1 h.1)]; exact Int.le_refl _
    | out e oo =>
      show (if e.owner = k then releasedFee s.g.market a (.out e) else 0) ≤
        (if e.owner = k ∧ e.side = .bid then ceilFee s.g.market.makerFee (e.quantity * oo.lockedPrice * s.g.market.quoteLotSize) else 0)
      by_cases h1 : e.owner = k
      · by_cases h2 : e.side = .bid
        · rw [if_pos h1, if_pos ⟨h1, h2⟩]
          have hs : a.openOrders[e.ownerSlot]? = some oo := hlk rfl a (by show s.g.accts.get? e.owner = _; rw [h1]; exact hget)
          simp only [releasedFee, if_pos h2, eventLockedAt, hs]
          exact Int.le_refl _
        · rw [if_pos h1, if_neg (fun h => h2 h.2)]
          simp only [releasedFee, if_neg h2]
          exact Int.le_refl _
      · rw [if_neg h1, if_neg (fun h => h1 h.1)]; exact Int.le_refl _
    | fill f oo =>
      show (if f.maker = k then releasedFee s.g.market a (.fill f) else 0) ≤
        (if f.maker = k ∧ f.takerSide.invert = .bid then floorFee s.g.market.makerFee (f.quantity * fillLockPrice f * s.g.market.quoteLotSize) else 0)
      obtain ⟨p1, _, _⟩ := hok.fill f oo rfl
      have p2 : 1 ≤ f.quantity := hok.qty
      by_cases h1 : f.maker = k
      · by_cases h2 : f.takerSide = .ask
        · rw [if_pos h1, if_pos ⟨h1, by rw [h2]; rfl⟩]
          simp only [releasedFee, if_pos h2, fillLockedFee, fillLocked, fillMakerFee, fillLockPrice, fillQuote]
          by_cases hp : f.pegLimit = -1
          · rw [if_pos hp, if_neg (c := f.pegLimit ≠ -1 ∧ f.takerSide = .ask) (fun h => h.1 hp)]
            split
            · exact floorFee_nonneg (Int.mul_nonneg (Int.mul_nonneg (by omega) (by omega)) (by omega))
            · exact Int.le_refl _
          · rw [if_neg hp, if_neg hp, if_pos ⟨hp, h2⟩]
            exact Int.le_refl _
        · have hb : f.takerSide = .bid := by cases hs : f.takerSide with
            | ask => exact absurd hs h2
            | bid => rfl
          rw [if_pos h1, if_neg (fun h => by rw [hb] at h; exact absurd h.2 (by decide))]
          simp only [releasedFee, if_neg h2]
          exact Int.le_refl _
      · rw [if_neg h1, if_neg (fun h => h1 h.1)]; exact Int.le_refl _
  have h4 : osum (fun o => F o.k) O = sumOrders s (fun sd c l => if l.owner = k then heldFee s.g.market sd c l else 0) +
      sumEvents s (fun e => if eventAccount e = k then releasedFee s.g.market a e else 0) := h2
  omega

/-- Account 41 has two bids in the book and 12 quote locked for their fees. -/
example : ∃ s, Reachable s ∧ ∃ a, (41, a) ∈ s.g.accts ∧ a.position.lockedMakerFees = 12 ∧
    sumOrders s (fun sd c l => if l.owner = 41 then heldFee s.g.market sd c l else 0) = 12 := by
  obtain ⟨s, h1, h2⟩ := Scenario.exec_spec (a := Scenario.args) (ops := Scenario.ops1) (p := fun s =>
    decide ((s.g.accts.get? 41).map (fun a => a.position.lockedMakerFees) = some 12 ∧
    sumOrders s (fun sd c l => if l.owner = 41 then heldFee s.g.market sd c l else 0) = 12)) (by decide +kernel)
  obtain ⟨a1, a2⟩ := of_decide_eq_true h2
  cases ha : s.g.accts.get? 41 with
  | none => rw [ha] at a1; cases a1
  | some a => rw [ha] at a1; injection a1 with a1; exact ⟨s, h1, a, acct_mem ha, a1, a2⟩

end OB
