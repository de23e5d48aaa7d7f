import Verif.Proofs.Bits
import Mathlib.Data.List.Perm.Basic
import Mathlib.Data.List.Nodup
import Mathlib.Data.List.Range
/-! Allocation in the node slab. -/
namespace OB

/-- Free list of the slab. -/
def FreeC (nd : Nat → AnyNode) : Nat → List Nat → Prop
  | _, [] => True
  | hd, [x] => hd = x ∧ ∃ n, nd x = .lastFree n
  | hd, x :: y :: l => hd = x ∧ nd x = .free y ∧ FreeC nd y (y :: l)

theorem FreeC.congr {nd nd' : Nat → AnyNode} {hd : Nat} {l : List Nat} (h : FreeC nd hd l) (he : ∀ y ∈ l, nd' y = nd y) :
    FreeC nd' hd l := by
  induction l generalizing hd with
  | nil => trivial
  | cons x l ih =>
    cases l with
    | nil => exact ⟨h.1, by rw [he x (by simp)]; exact h.2⟩
    | cons y l => exact ⟨h.1, by rw [he x (by simp)]; exact h.2.1, ih h.2.2 (fun z hz => he z (List.mem_cons_of_mem _ hz))⟩

/-- `us` are the handles in use; all other handles below the bump index are on the free list. -/
structure Slab (t : Nodes) (us : List Nat) : Prop where
  ex : ∃ fl, FreeC t.nodes t.freeListHead fl ∧ t.freeListLen = fl.length ∧ (us ++ fl).Perm (List.range t.bumpIndex)
  bump : t.bumpIndex ≤ maxOrderTreeNodes

theorem Slab.perm {t : Nodes} {us us' : List Nat} (h : Slab t us) (hp : us.Perm us') : Slab t us' := by
  obtain ⟨⟨fl, h1, h2, h3⟩, h4⟩ := h
  exact ⟨⟨fl, h1, h2, (hp.append_right fl).symm.trans h3⟩, h4⟩

theorem Slab.nodup {t : Nodes} {us : List Nat} (h : Slab t us) : us.Nodup := by
  obtain ⟨⟨fl, h1, h2, h3⟩, h4⟩ := h
  exact (List.nodup_append.mp (h3.nodup_iff.mpr List.nodup_range)).1

theorem Slab.lt {t : Nodes} {us : List Nat} (h : Slab t us) {x : Nat} (hx : x ∈ us) : x < maxOrderTreeNodes := by
  obtain ⟨⟨fl, h1, h2, h3⟩, h4⟩ := h
  have := h3.mem_iff.mp (List.mem_append_left fl hx)
  simp at this; omega

theorem Slab.length {t : Nodes} {us : List Nat} (h : Slab t us) : us.length + t.freeListLen = t.bumpIndex := by
  obtain ⟨⟨fl, h1, h2, h3⟩, h4⟩ := h
  have := h3.length_eq
  simp at this; omega

theorem Slab.length_le {t : Nodes} {us : List Nat} (h : Slab t us) : us.length ≤ maxOrderTreeNodes := by
  have := h.length; have := h.bump; omega

/-- Writing a node in use. -/
theorem Slab.set {t : Nodes} {us : List Nat} (h : Slab t us) {x : Nat} (hx : x ∈ us) (v : AnyNode) : Slab (t.set x v) us := by
  obtain ⟨⟨fl, h1, h2, h3⟩, h4⟩ := h
  refine ⟨⟨fl, h1.congr ?_, h2, h3⟩, h4⟩
  intro y hy
  have hnd := h3.nodup_iff.mpr List.nodup_range
  have : y ≠ x := by rintro rfl; exact (List.nodup_append.mp hnd).2.2 y hx y hy rfl
  simp [Nodes.set, this]

/-- Handles still available. -/
def Nodes.avail (t : Nodes) : Nat := t.freeListLen + (maxOrderTreeNodes - t.bumpIndex)

theorem node_inner {t : Nodes} {h : Nat} {i : InnerNode} (hlt : h < maxOrderTreeNodes) (hn : t.nodes h = .inner i) :
    t.node h = .ok (some (.inner i)) := by
  unfold Nodes.node; rw [show assertR (h < maxOrderTreeNodes) = .ok () from req_true hlt]; simp only [ok_bind, hn]; rfl

theorem node_leaf {t : Nodes} {h : Nat} {l : LeafNode} (hlt : h < maxOrderTreeNodes) (hn : t.nodes h = .leaf l) :
    t.node h = .ok (some (.leaf l)) := by
  unfold Nodes.node; rw [show assertR (h < maxOrderTreeNodes) = .ok () from req_true hlt]; simp only [ok_bind, hn]; rfl

theorem nodeU_inner {t : Nodes} {h : Nat} {i : InnerNode} (hlt : h < maxOrderTreeNodes) (hn : t.nodes h = .inner i) :
    t.nodeU h = .ok (.inner i) := by
  unfold Nodes.nodeU; rw [node_inner hlt hn]; rfl

theorem nodeU_leaf {t : Nodes} {h : Nat} {l : LeafNode} (hlt : h < maxOrderTreeNodes) (hn : t.nodes h = .leaf l) :
    t.nodeU h = .ok (.leaf l) := by
  unfold Nodes.nodeU; rw [node_leaf hlt hn]; rfl

/-- A node is an inner node or a leaf. -/
def AnyNode.isTree : AnyNode → Prop
  | .inner _ => True
  | .leaf _ => True
  | _ => False

theorem node_tree {t : Nodes} {h : Nat} (hlt : h < maxOrderTreeNodes) (hn : (t.nodes h).isTree) :
    t.node h = .ok (some (t.nodes h)) := by
  cases hc : t.nodes h with
  | inner i => exact node_inner hlt hc
  | leaf l => exact node_leaf hlt hc
  | _ => rw [hc] at hn; exact hn.elim

theorem nodeU_tree {t : Nodes} {h : Nat} (hlt : h < maxOrderTreeNodes) (hn : (t.nodes h).isTree) :
    t.nodeU h = .ok (t.nodes h) := by
  unfold Nodes.nodeU; rw [node_tree hlt hn]; rfl

/-- Allocation. -/
theorem insert_spec {t : Nodes} {us : List Nat} (hs : Slab t us) (v : AnyNode) :
    (t.avail = 0 ∧ t.insert v = .error .someError) ∨
    ∃ h t', t.insert v = .ok (h, t') ∧ h ∉ us ∧ Slab t' (h :: us) ∧ t'.nodes = (t.set h v).nodes ∧
      t'.side = t.side ∧ t'.avail + 1 = t.avail := by
  obtain ⟨⟨fl, h1, h2, h3⟩, h4⟩ := hs
  have hnd := h3.nodup_iff.mpr List.nodup_range
  unfold Nodes.insert
  cases fl with
  | nil =>
    simp only [List.length_nil] at h2
    rw [if_pos h2]
    by_cases hb : t.bumpIndex < maxOrderTreeNodes
    · right
      rw [req_true (⟨hb, by unfold maxOrderTreeNodes at hb; omega⟩ : t.bumpIndex < maxOrderTreeNodes ∧ t.bumpIndex < 4294967295)]
      refine ⟨_, _, rfl, ?_, ⟨⟨[], trivial, h2, ?_⟩, by show t.bumpIndex + 1 ≤ _; omega⟩, rfl, rfl, ?_⟩
      · intro hx
        have := h3.mem_iff.mp (List.mem_append_left [] hx)
        simp at this
      · simp only [List.append_nil] at h3 ⊢
        show (t.bumpIndex :: us).Perm (List.range (t.bumpIndex + 1))
        rw [List.range_succ]
        exact (List.Perm.cons _ h3).trans (List.perm_append_singleton _ _).symm
      · simp only [Nodes.avail, Nodes.set]; omega
    · left
      refine ⟨by unfold Nodes.avail; omega, ?_⟩
      unfold req
      rw [if_neg (fun h => hb h.1)]; rfl
  | cons x fl =>
    right
    simp only [List.length_cons] at h2
    rw [if_neg (by omega)]
    have hx : t.freeListHead = x := by cases fl with
      | nil => exact h1.1
      | cons y fl => exact h1.1
    have hxlt : x < maxOrderTreeNodes := by
      have := h3.mem_iff.mp (List.mem_append_right us (List.mem_cons_self))
      simp at this; omega
    have hxus : x ∉ us := by
      intro hm; exact (List.nodup_append.mp hnd).2.2 x hm x (by simp) rfl
    have hxfl : x ∉ fl := (List.nodup_cons.mp (List.nodup_append.mp hnd).2.1).1
    simp only [hx]
    rw [show assertR (x < maxOrderTreeNodes) = .ok () from req_true hxlt]
    have hperm : (x :: us ++ fl).Perm (List.range t.bumpIndex) := by
      refine List.Perm.trans ?_ h3
      rw [List.cons_append]
      exact List.perm_middle.symm
    cases fl with
    | nil =>
      obtain ⟨_, n, hn⟩ := h1
      simp only [ok_bind, hn]
      rw [show assertR (t.freeListLen = 1) = .ok () from req_true (by simpa using h2)]
      simp only [ok_bind, pure_bind']
      refine ⟨x, _, rfl, hxus, ⟨⟨[], trivial, ?_, hperm⟩, h4⟩, rfl, rfl, ?_⟩
      · show t.freeListLen - 1 = 0; simp at h2; omega
      · simp only [Nodes.avail, Nodes.set]; omega
    | cons y fl =>
      obtain ⟨_, hn, hfc⟩ := h1
      simp only [ok_bind, hn]
      rw [show assertR (t.freeListLen > 1) = .ok () from req_true (by simp at h2; omega)]
      simp only [ok_bind, pure_bind']
      refine ⟨x, _, rfl, hxus, ⟨⟨y :: fl, ?_, ?_, hperm⟩, h4⟩, rfl, rfl, ?_⟩
      · refine hfc.congr ?_
        intro z hz
        have : z ≠ x := by rintro rfl; exact hxfl hz
        simp [Nodes.set, this]
      · show t.freeListLen - 1 = _; simp at h2 ⊢; omega
      · simp only [Nodes.avail, Nodes.set]; omega

/-- Deallocation. -/
theorem remove_spec {t : Nodes} {us : List Nat} {h : Nat} (hs : Slab t (h :: us)) (hn : (t.nodes h).isTree) :
    ∃ t', t.remove h = .ok (some (t.nodes h, t')) ∧ Slab t' us ∧ (∀ x, x ≠ h → t'.nodes x = t.nodes x) ∧
      t'.side = t.side ∧ t'.avail = t.avail + 1 := by
  have hlt := hs.lt (x := h) (by simp)
  obtain ⟨⟨fl, h1, h2, h3⟩, h4⟩ := hs
  have hnd := h3.nodup_iff.mpr List.nodup_range
  have hfl : h ∉ fl := by
    intro hm; exact (List.nodup_append.mp hnd).2.2 h (by simp) h hm rfl
  unfold Nodes.remove
  rw [node_tree hlt hn]
  simp only [ok_bind]
  refine ⟨_, rfl, ⟨⟨h :: fl, ?_, ?_, ?_⟩, h4⟩, ?_, rfl, ?_⟩
  · cases fl with
    | nil =>
      simp only [List.length_nil] at h2
      refine ⟨rfl, t.freeListHead, ?_⟩
      simp [Nodes.set, h2]
    | cons y fl =>
      simp only [List.length_cons] at h2
      have hy : t.freeListHead = y := by cases fl with
        | nil => exact h1.1
        | cons z fl => exact h1.1
      refine ⟨rfl, ?_, ?_⟩
      · simp [Nodes.set, h2, hy]
      · refine FreeC.congr (nd := t.nodes) (hd := y) ?_ ?_
        · have h5 := h1; rw [hy] at h5; exact h5
        · intro z hz
          have : z ≠ h := by rintro rfl; exact hfl hz
          simp [Nodes.set, this]
  · simp [h2]
  · refine List.Perm.trans ?_ h3
    rw [List.cons_append]
    exact List.perm_middle
  · intro x hx; simp [Nodes.set, hx]
  · simp only [Nodes.avail, Nodes.set]; omega

end OB
