import Verif.Proofs.BookEv
import Verif.Spec.Room
/-! Making room on a full book side: from the slab to the orders. -/
namespace OB
open Spec

theorem filter_map_true (s : Side) (c : Comp) (L : List LeafNode) :
    (L.map (fun l => (s, c, l))).filter (fun x : Side × Comp × LeafNode => x.1 = s) = L.map (fun l => (s, c, l)) := by
  rw [List.filter_eq_self]
  intro x hx
  obtain ⟨l, _, rfl⟩ := List.mem_map.mp hx
  simp

theorem filter_map_false {s s' : Side} (h : s' ≠ s) (c : Comp) (L : List LeafNode) :
    (L.map (fun l => (s', c, l))).filter (fun x : Side × Comp × LeafNode => x.1 = s) = [] := by
  rw [List.filter_eq_nil_iff]
  intro x hx
  obtain ⟨l, _, rfl⟩ := List.mem_map.mp hx
  simp [h]

theorem resting_side (book : Book) (s : Side) :
    book.resting.filter (fun x => x.1 = s) = sideRests s (book.side s).orders := by
  unfold Book.resting sideRests
  simp only [List.filter_append]
  cases s with
  | bid =>
    rw [filter_map_true .bid .fixed _, filter_map_true .bid .pegged _, filter_map_false (by decide) .fixed _,
      filter_map_false (by decide) .pegged _]
    simp [Book.side]
  | ask =>
    rw [filter_map_true .ask .fixed _, filter_map_true .ask .pegged _, filter_map_false (by decide) .fixed _,
      filter_map_false (by decide) .pegged _]
    simp [Book.side]

theorem sideRests_length {s : Side} {b : BookSide} {ot : Comp → Option T} (h : BSOk b ot) :
    (sideRests s b.orders).length = (OT.lvs (ot .fixed)).length + (OT.lvs (ot .pegged)).length := by
  unfold sideRests
  rw [h.orders .fixed, h.orders .pegged]
  simp

/-- A full side holds at least 512 orders. -/
theorem full_many {s : Side} {b : BookSide} {ot : Comp → Option T} (h : BSOk b ot) (hf : b.isFull = true) :
    512 ≤ (sideRests s b.orders).length := by
  rw [sideRests_length h]
  have h1 := (OT.hs_length (ot .fixed))
  have h2 := (OT.hs_length (ot .pegged))
  have h3 := h.slab.length
  unfold BookSide.isFull Nodes.isFull maxOrderTreeNodes at hf
  simp only [decide_eq_true_eq] at hf
  simp only [List.length_append] at h3
  by_cases e1 : OT.lvs (ot .fixed) = [] <;> by_cases e2 : OT.lvs (ot .pegged) = []
  · simp only [e1, e2, List.length_nil] at *; omega
  · have := h2.2.1 e2; simp only [e1, List.length_nil] at *; omega
  · have := h1.2.1 e1; simp only [e2, List.length_nil] at *; omega
  · have := h1.2.1 e1; have := h2.2.1 e2; omega

/-- A side that is not full holds at most 512 orders. -/
theorem notFull_few {s : Side} {b : BookSide} {ot : Comp → Option T} (h : BSOk b ot) (hf : b.isFull = false) :
    (sideRests s b.orders).length ≤ 512 := by
  rw [sideRests_length h]
  have h1 := (OT.hs_length (ot .fixed))
  have h2 := (OT.hs_length (ot .pegged))
  have h3 := h.slab.length
  have h4 := h.slab.bump
  unfold BookSide.isFull Nodes.isFull at hf
  unfold maxOrderTreeNodes at hf h4
  simp only [decide_eq_false_iff_not] at hf
  simp only [List.length_append] at h3
  by_cases e1 : OT.lvs (ot .fixed) = [] <;> by_cases e2 : OT.lvs (ot .pegged) = []
  · simp only [e1, e2, List.length_nil] at *; omega
  · have := h2.2.1 e2; simp only [e1, List.length_nil] at *; omega
  · have := h1.2.1 e1; simp only [e2, List.length_nil] at *; omega
  · have := h1.2.1 e1; have := h2.2.1 e2; omega

/-- A side never holds more than 513 orders. -/
theorem side_le {s : Side} {b : BookSide} {ot : Comp → Option T} (h : BSOk b ot) : (sideRests s b.orders).length ≤ 513 := by
  rw [sideRests_length h]
  have h1 := (OT.hs_length (ot .fixed))
  have h2 := (OT.hs_length (ot .pegged))
  have h3 := h.slab.length_le
  unfold maxOrderTreeNodes at h3
  simp only [List.length_append] at h3
  by_cases e1 : OT.lvs (ot .fixed) = [] <;> by_cases e2 : OT.lvs (ot .pegged) = []
  · simp only [e1, e2, List.length_nil] at *; omega
  · have := h2.2.1 e2; simp only [e1, List.length_nil] at *; omega
  · have := h1.2.1 e1; simp only [e2, List.length_nil] at *; omega
  · have := h1.2.1 e1; have := h2.2.1 e2; omega

theorem rankPrice_evict {oracle : Option Int} {s : Side} {c : Comp} {l : LeafNode} {oo : OpenOrder} (h : RestOk s c l oo) :
    rankPrice oracle c l = evictPrice oracle c l := by
  have hk := h.key
  have hd : l.priceData = l.key / 2 ^ 64 := by
    unfold LeafNode.priceData two64
    rw [Nat.shiftRight_eq_div_pow]; omega
  cases c with
  | fixed =>
    obtain ⟨h1, h2, _⟩ := h.fixed rfl
    unfold rankPrice evictPrice priceOf
    rw [hd] at h1 h2 ⊢
    simp only [Option.map_some, Option.some.injEq]
    omega
  | pegged =>
    unfold rankPrice evictPrice priceOf
    cases oracle with
    | none => rfl
    | some o =>
      simp only [Option.map_some, Option.some.injEq]
      rw [oraclePeggedPriceOffset_eq (by unfold LeafNode.priceData; exact Nat.mod_lt _ (by decide)), hd]
      unfold satAddI64 i64Max i64Min
      show max (max _ (min _ _)) _ = _
      have : ((2 : Int) ^ 63) = 9223372036854775808 := by decide
      omega

theorem isBetter_iff {s : Side} {p q : Int} : s.isPriceBetter p q = true ↔ betterPrice s p q := by
  cases s <;> simp [Side.isPriceBetter, betterPrice]

theorem expiry_lt {l : LeafNode} {now : Nat} (h : l.expiry < now) (hn : (now : Int) ≤ i64Max) :
    l.timeInForce ≠ 0 ∧ l.timestamp + l.timeInForce < now := by
  unfold LeafNode.expiry at h
  unfold i64Max at hn
  split at h
  · unfold u64MaxN at h; omega
  · rename_i hx; exact ⟨hx, h⟩

theorem lt_expiry {l : LeafNode} {now : Nat} (h : expiredBefore now l) : l.expiry < now := by
  unfold LeafNode.expiry
  rw [if_neg h.1]; exact h.2

end OB
