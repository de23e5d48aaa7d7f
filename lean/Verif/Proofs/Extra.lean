import Verif.Proofs.StepAcct
/-! Further facts about all reachable states: lot counters fit, volumes are not negative, a closed market is empty. -/
namespace OB

/-- How the market record changes in one instruction. -/
theorem step_counters {s s' : State} {op : Op} (hi : Inv s) (h : step s op = .ok s') :
    s.g.market.feesAccrued ≤ s'.g.market.feesAccrued ∧ s.g.market.makerVolume ≤ s'.g.market.makerVolume := by
  have same : s'.g.market.feesAccrued = s.g.market.feesAccrued → s'.g.market.makerVolume = s.g.market.makerVolume →
    s.g.market.feesAccrued ≤ s'.g.market.feesAccrued ∧ s.g.market.makerVolume ≤ s'.g.market.makerVolume := fun h1 h2 => by omega
  have pay : ∀ {g1 : Ledger} {k : Pubkey}, LFrame s.g g1 → PayFrame g1 k s'.g →
    s.g.market.feesAccrued ≤ s'.g.market.feesAccrued ∧ s.g.market.makerVolume ≤ s'.g.market.makerVolume := by
    intro g1 k h1 h2
    obtain ⟨b, q, e⟩ := h2.market
    rw [e]; exact h1.feesUp
  cases step_run h with
  | idle _ _ _ _ h => exact same (by rw [h]) (by rw [h])
  | place op c o l r hop P => exact pay (P.fx hi hop.typed).frame1 P.pay
  | edit op c client e o l r hop P =>
    rcases P.split hi hop.typed with h | ⟨g1, h1, h2⟩
    · exact h.feesUp
    · exact pay h1 h2
  | multi c cancel t bids asks l now bs as rs hn hb ha P =>
    obtain ⟨hi1, f1⟩ := P.start hi
    have f2 := (multiLoop_res hi1.core (multiTyped hb ha) (Int.le_refl _) (Int.le_refl _) P.loop).2.1
    exact pay (f1.trans f2) P.pay
  | take c a o r ho P =>
    have hfx := P.fx hi (takeOrder_typed ho)
    have := hfx.frame1.feesUp
    rw [congrArg State.g P.res]
    show _ ≤ P.g2.market.feesAccrued ∧ _ ≤ P.g2.market.makerVolume
    rw [congrArg Ledger.market hfx.amts.res]
    exact this
  | consume op admin limit slots rem hop h => exact (consumeEvents_Inv hi h).2.feesUp
  | cancelOne signer k id h => exact (cancelOrderIx_frame hi h).feesUp
  | cancel op signer k limit so co a q hop auth h => exact (cancelAllFor_frame hi h).2.1.feesUp
  | prune admin k now limit q auth exp hc => exact (cancelAllFor_frame hi hc).2.1.feesUp
  | deposit op signer k ub uq now b q b0 q0 hop P =>
    rw [congrArg State.g P.res]; exact ⟨Int.le_refl _, Int.le_refl _⟩
  | settle c h P => rw [congrArg State.g P.res]; exact ⟨Int.le_refl _, Int.le_refl _⟩
  | settleExpired admin c now h P => rw [congrArg State.g P.res]; exact ⟨Int.le_refl _, Int.le_refl _⟩
  | sweep admin receiver h =>
    obtain ⟨_, _, _, t, _, h⟩ := sweepFees_inv h
    rw [h]; exact ⟨Int.le_refl _, Int.le_refl _⟩
  | setExpired admin now auth live res => rw [res]; exact ⟨Int.le_refl _, Int.le_refl _⟩
  | close admin now P => rw [P.res]; exact ⟨Int.le_refl _, Int.le_refl _⟩
  | createOO k owner d h _ hn res => rw [res]; exact ⟨Int.le_refl _, Int.le_refl _⟩
  | closeOO k owner a ha hown hp res => rw [res]; exact ⟨Int.le_refl _, Int.le_refl _⟩
  | delegate k owner d a ha hown res => rw [res]; exact ⟨Int.le_refl _, Int.le_refl _⟩
  | token k t _ _ res => rw [res]; exact ⟨Int.le_refl _, Int.le_refl _⟩
  | lamports k x _ _ res => rw [res]; exact ⟨Int.le_refl _, Int.le_refl _⟩

structure Extra (s : State) : Prop where
  lots : ∀ k a, s.g.accts.get? k = some a → LotsOk a.position ∧ 0 ≤ a.position.makerVolume
  volume : 0 ≤ s.g.market.makerVolume
  fees : 0 ≤ s.g.market.feesAccrued
  closed : s.closed = true → s.book.resting = [] ∧ s.g.heap.events = []
  locked : s.g.market.makerFee ≤ 0 → ∀ k a, s.g.accts.get? k = some a → a.position.lockedMakerFees = 0

theorem AcctsStep.locked {m : Market} {op : Op} {A A' : Accts} (h : AcctsStep m op A A') (hm : m.makerFee ≤ 0)
    (hl : ∀ k a, A.get? k = some a → a.position.lockedMakerFees = 0) (k : Pubkey) (a' : OOA) (ha' : A'.get? k = some a') :
    a'.position.lockedMakerFees = 0 := by
  cases ha : A.get? k with
  | none =>
    obtain ⟨o, d, _, rfl⟩ := h.new k a' ha ha'
    rfl
  | some a =>
    have l1 := hl k a ha
    rcases h.old k a ha with ⟨b, hb, hs⟩ | ⟨hn, _⟩
    · rw [ha'] at hb; injection hb with hb; subst hb
      cases hs with
      | kept _ _ _ _ _ up => rw [up.locked hm]; exact l1
      | paid _ _ _ _ up => rw [up.locked hm]; exact l1
      | settled c _ _ res =>
        rw [res]
        show a.position.lockedMakerFees - sweepOf m a.position = 0
        unfold sweepOf
        rw [if_neg (by omega)]; omega
      | delegate d _ res => rw [res]; exact l1
    · rw [ha'] at hn; cases hn

theorem AcctsStep.lots {m : Market} {op : Op} {A A' : Accts} (h : AcctsStep m op A A')
    (hl : ∀ k a, A.get? k = some a → LotsOk a.position ∧ 0 ≤ a.position.makerVolume) (k : Pubkey) (a' : OOA) (ha' : A'.get? k = some a') :
    LotsOk a'.position ∧ 0 ≤ a'.position.makerVolume := by
  cases ha : A.get? k with
  | none =>
    obtain ⟨o, d, _, rfl⟩ := h.new k a' ha ha'
    exact ⟨⟨by show (0 : Int) ≤ i64Max; decide, by show (0 : Int) ≤ i64Max; decide, by show (0 : Int) ≤ i64Max; decide⟩, Int.le_refl _⟩
  | some a =>
    obtain ⟨l1, l2⟩ := hl k a ha
    rcases h.old k a ha with ⟨b, hb, hs⟩ | ⟨hn, _⟩
    · rw [ha'] at hb; injection hb with hb; subst hb
      cases hs with
      | kept _ _ _ _ _ up => exact ⟨up.lots l1, Int.le_trans l2 up.vol⟩
      | paid _ _ _ _ up => exact ⟨up.lots l1, Int.le_trans l2 up.vol⟩
      | settled c _ _ res => rw [res]; exact ⟨⟨l1.bids, l1.asks, l1.quote⟩, l2⟩
      | delegate d _ res => rw [res]; exact ⟨l1, l2⟩
    · rw [ha'] at hn; cases hn

theorem step_Extra {s s' : State} {op : Op} (hi : Inv s) (hx : Extra s) (h : step s op = .ok s') : Extra s' := by
  have hc := step_counters hi h
  have := hx.volume
  have := hx.fees
  refine ⟨(step_accts hi h).lots hx.lots, by omega, by omega, fun hcl => ?_, fun hm => ?_⟩
  rotate_left
  · rw [(step_cfg hi h).1.maker] at hm
    exact (step_accts hi h).locked hm (hx.locked hm)
  rcases step_closed hi h with e | ⟨admin, now, _, P⟩
  · rw [e] at hcl
    rcases step_open hi h with h0 | ho
    · rw [h0] at hcl; cases hcl
    · obtain ⟨_, h2, h3, _⟩ := step_offMarket ho h
      rw [h2, h3]; exact hx.closed hcl
  · rw [P.res]
    exact ⟨resting_nil hi.core.bookOk P.bids P.asks, events_nil hi.core.linv P.heap⟩

theorem reachable_Extra {s : State} (h : Reachable s) : Extra s := by
  induction h with
  | init a now tokens lamports s h =>
    obtain ⟨h1, rfl⟩ := createMarket_inv h
    refine ⟨fun k a ha => (nomatch ha), ?_, ?_, fun h => (nomatch h), fun _ k a ha => (nomatch ha)⟩
    · exact Int.le_refl _
    · exact Int.le_refl _
  | step s s' op hs h ih => exact step_Extra (reachable_Inv hs) ih h
  | again s s' a now hs h ih =>
    obtain ⟨hc, _, _, _, rfl⟩ := recreateMarket_inv h
    have hh := closed_holds_nothing hs hc
    refine ⟨fun k a ha => ⟨?_, (ih.lots k a ha).2⟩, ?_, ?_, fun h => (nomatch h), fun _ k a ha => (hh k a ha).fees⟩
    · exact (ih.lots k a ha).1
    · exact Int.le_refl _
    · exact Int.le_refl _

end OB
