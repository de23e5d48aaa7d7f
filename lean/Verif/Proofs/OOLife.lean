import Verif.Proofs.Funds
/-! Creating and closing open orders accounts. -/
namespace OB

theorem Accts.get?_del {as : Accts} (hn : (as.map (·.1)).Nodup) {k j : Pubkey} :
    (as.del k).get? j = if j = k then none else as.get? j := by
  induction as with
  | nil => simp [Accts.del, Accts.get?_nil]
  | cons x xs ih =>
    rw [List.map_cons, List.nodup_cons] at hn
    rw [Accts.del]
    split
    · rename_i he
      split
      · rename_i hj
        rw [hj, ← he]
        exact Accts.get?_none_iff.mpr hn.1
      · rename_i hj
        rw [Accts.get?_cons, if_neg (fun h => hj (h.symm.trans he))]
    · rename_i he
      rw [Accts.get?_cons, ih hn.2, Accts.get?_cons]
      by_cases hj : j = k
      · rw [if_pos hj, if_neg (fun h => he (h.trans hj)), if_pos hj]
      · rw [if_neg hj, if_neg hj]

theorem Accts.keys_del {as : Accts} (k : Pubkey) (hn : (as.map (·.1)).Nodup) : ((as.del k).map (·.1)).Nodup := by
  induction as with
  | nil => exact List.nodup_nil
  | cons x xs ih =>
    rw [List.map_cons, List.nodup_cons] at hn
    rw [Accts.del]
    split
    · exact hn.2
    · rw [List.map_cons, List.nodup_cons]
      refine ⟨fun hm => hn.1 ?_, ih hn.2⟩
      have hsub : ∀ {as : Accts}, (as.del k).Sublist as := by
        intro as
        induction as with
        | nil => exact List.Sublist.refl _
        | cons y ys ih2 =>
          rw [Accts.del]; split
          · exact List.sublist_cons_self _ _
          · exact ih2.cons_cons _
      exact ((hsub (as := xs)).map _).subset hm

theorem fresh_acctB (m : Market) (o d : Pubkey) : acctB m (OOA.fresh o d) = 0 := by simp [acctB, OOA.fresh]
theorem fresh_acctQ (m : Market) (o d : Pubkey) : acctQ m (OOA.fresh o d) = 0 := by simp [acctQ, OOA.fresh]

/-- A fresh account owes nothing. -/
theorem GInv.create {m : Market} {as : Accts} {O : List Obl} {dB dQ : Int} (h : GInv m as O dB dQ (fun _ => 0)) {k : Pubkey}
    (hk : as.get? k = none) (o d : Pubkey) : GInv m (as ++ [(k, OOA.fresh o d)]) O dB dQ (fun _ => 0) := by
  have hne : ∀ x ∈ O, x.acct ≠ k := by
    intro x hx he
    obtain ⟨a, ha⟩ := h.owner x hx
    rw [he, hk] at ha; cases ha
  have hget : ∀ j a, as.get? j = some a → Accts.get? (as ++ [(k, OOA.fresh o d)]) j = some a := by
    intro j a ha; rw [Accts.get?_append, ha]; rfl
  refine ⟨?_, h.ok, fun x hx => ?_, fun j a hj => ?_, fun x hx ht a ha => ?_, h.slots, h.ids, ?_, ?_, ?_⟩
  · rw [List.map_append, List.map_cons, List.map_nil]
    have := Accts.get?_none_iff.mp hk
    rw [List.nodup_append]
    refine ⟨h.nodup, by simp, fun a ha b hb => ?_⟩
    rw [List.mem_singleton] at hb
    subst hb
    intro he; exact this (he ▸ ha)
  · obtain ⟨a, ha⟩ := h.owner x hx
    exact ⟨a, hget _ _ ha⟩
  · rw [Accts.get?_append] at hj
    cases hjj : as.get? j with
    | some b =>
      rw [hjj] at hj
      have hj : some b = some a := hj
      injection hj with hj
      rw [← hj]; exact h.acct j b hjj
    | none =>
      rw [hjj] at hj
      simp only [Option.none_or, Accts.get?_cons, Accts.get?_nil] at hj
      split at hj
      · rename_i he
        injection hj with hj
        subst hj he
        have z : inU64 0 := by unfold inU64 u64Max; omega
        refine ⟨?_, ?_, ?_, ?_, List.length_replicate, ?_, z, z, z, z⟩
        · exact (osum_zero (fun x hx => by simp [cB, hne x hx])).symm
        · exact (osum_zero (fun x hx => by simp [cA, hne x hx])).symm
        · exact (osum_zero (fun x hx => by simp [cQ, hne x hx])).symm
        · rw [osum_zero (fun x hx => by simp [cN, hne x hx])]; exact Int.le_refl 0
        · intro i oo hi hf
          have : oo ∈ List.replicate maxOpenOrders OpenOrder.default := List.mem_of_getElem? hi
          rw [List.eq_of_mem_replicate this] at hf
          cases hf
      · cases hj
  · obtain ⟨b, hb⟩ := h.owner x hx
    have := hget _ _ hb
    rw [ha] at this
    injection this with this
    subst this
    exact h.link x hx ht a hb
  · rw [asum_append, asum_cons, asum_nil, fresh_acctB]; have := h.base; omega
  · rw [asum_append, asum_cons, asum_nil, fresh_acctQ]; have := h.quote; omega
  · rw [asum_append, asum_cons, asum_nil]; have := h.refs
    show _ = _ + (0 + 0); omega

structure EmptyPos (p : Position) : Prop where
  bids : p.bidsBaseLots = 0
  asks : p.asksBaseLots = 0
  base : p.baseFreeNative = 0
  quote : p.quoteFreeNative = 0
  fees : p.lockedMakerFees = 0
  refs : p.referrerRebatesAvailable = 0
  pen : p.penaltyHeapCount = 0
  bidsQ : p.bidsQuoteLots = 0

theorem isEmpty_iff {p : Position} : p.isEmpty = true ↔ EmptyPos p := by
  unfold Position.isEmpty
  simp only [decide_eq_true_eq]
  constructor
  · rintro ⟨h1, h2, h3, h4, h5, h6, h7, h8⟩; exact ⟨h1, h2, h3, h4, h5, h6, h7, h8⟩
  · rintro ⟨h1, h2, h3, h4, h5, h6, h7, h8⟩; exact ⟨h1, h2, h3, h4, h5, h6, h7, h8⟩

/-- Nothing is owed to an account without locked lots. -/
theorem GInv.noObl {m : Market} {as : Accts} {O : List Obl} {dB dQ : Int} {ex : Pubkey → Int} (h : GInv m as O dB dQ ex) {k : Pubkey}
    {a : OOA} (ha : as.get? k = some a) (h1 : a.position.bidsBaseLots = 0) (h2 : a.position.asksBaseLots = 0) :
    ∀ o ∈ O, o.acct ≠ k := by
  intro o ho he
  have hq := (h.ok o ho).qty
  have hA := h.acct k a ha
  cases hs : o.side with
  | bid =>
    have := osum_mem_le (f := cB k) (O := O) (fun x hx => by
      unfold cB; have := (h.ok x hx).qty; split <;> omega) ho
    rw [← hA.bids, h1] at this
    unfold cB at this
    rw [if_pos ⟨he, hs⟩] at this
    omega
  | ask =>
    have := osum_mem_le (f := cA k) (O := O) (fun x hx => by
      unfold cA; have := (h.ok x hx).qty; split <;> omega) ho
    rw [← hA.asks, h2] at this
    unfold cA at this
    rw [if_pos ⟨he, hs⟩] at this
    omega

theorem GInv.close {m : Market} {as : Accts} {O : List Obl} {dB dQ : Int} {ex : Pubkey → Int} (h : GInv m as O dB dQ ex) {k : Pubkey}
    {a : OOA} (ha : as.get? k = some a) (he : EmptyPos a.position) : GInv m (as.del k) O dB dQ ex := by
  have hno := h.noObl ha he.bids he.asks
  refine ⟨Accts.keys_del k h.nodup, h.ok, fun x hx => ?_, fun j b hj => ?_, fun x hx ht b hb => ?_, h.slots, h.ids, ?_, ?_, ?_⟩
  · obtain ⟨b, hb⟩ := h.owner x hx
    exact ⟨b, by rw [Accts.get?_del h.nodup, if_neg (hno x hx)]; exact hb⟩
  · rw [Accts.get?_del h.nodup] at hj
    split at hj
    · cases hj
    · exact h.acct j b hj
  · rw [Accts.get?_del h.nodup, if_neg (hno x hx)] at hb
    exact h.link x hx ht b hb
  · rw [asum_del ha]
    have e : acctB m a = 0 := by simp [acctB, he.base, he.asks]
    rw [e]; have := h.base; omega
  · rw [asum_del ha]
    have e : acctQ m a = 0 := by simp [acctQ, he.quote, he.bidsQ, he.fees, he.refs]
    rw [e]; have := h.quote; omega
  · rw [asum_del ha]
    have e : acctR a = 0 := he.refs
    rw [e]; have := h.refs; omega

end OB
