import Verif.Props.C18_Driver
import Verif.Proofs.BookSide
/-! The book side refines the order map. -/
namespace OB

theorem drain_spec {t : Nodes} (n : Nat) {it : TreeIter} {L : List (Nat × LeafNode)} (h : IterAt t it L) (hn : L.length ≤ n) :
    drain t n it = .ok (L.map (·.2)) := by
  induction n generalizing it L with
  | zero => have : L = [] := List.length_eq_zero_iff.mp (by omega); subst this; rfl
  | succ n ih =>
    obtain ⟨it', h1, h2⟩ := treeIter_next h
    rw [drain, h1]
    cases L with
    | nil => rfl
    | cons x L =>
      simp only [List.head?_cons, ok_bind]
      rw [ih h2 (by simpa using hn)]; rfl

/-- The model state holds the abstract map. -/
def Holds (b : BookSide) (M : OrderMap) (ot : Comp → Option T) : Prop :=
  BSOk b ot ∧ ∀ c k l, M c k = some l ↔ l ∈ OT.lvs (ot c) ∧ l.key = k

theorem Holds.none {b : BookSide} {M : OrderMap} {ot : Comp → Option T} (h : Holds b M ot) {c : Comp} {k : Nat} :
    M c k = none ↔ ∀ l ∈ OT.lvs (ot c), l.key ≠ k := by
  constructor
  · intro hm l hl he
    have := (h.2 c k l).mpr ⟨hl, he⟩
    rw [hm] at this; cases this
  · intro hall
    cases hm : M c k with
    | none => rfl
    | some l => have := (h.2 c k l).mp hm; exact absurd this.2 (hall l this.1)

theorem T.hs_length (t : T) : t.hs.length + 1 = 2 * t.lvs.length := by
  rw [T.lvs, List.length_map]; exact t.leaves_length

theorem OT.hs_length (o : Option T) : (OT.hs o).length ≤ 2 * (OT.lvs o).length ∧
    (OT.lvs o ≠ [] → (OT.hs o).length + 1 = 2 * (OT.lvs o).length) ∧ (OT.lvs o).length ≤ (OT.hs o).length := by
  cases o with
  | none => simp [OT.hs, OT.lvs]
  | some t =>
    have := t.hs_length
    have := t.lvs_length_pos
    simp only [OT.hs, OT.lvs]
    exact ⟨by omega, fun _ => by omega, by omega⟩

theorem Holds.atLeast {b : BookSide} {M : OrderMap} {ot : Comp → Option T} (h : Holds b M ot) (hf : b.nodes.avail < 2) :
    M.AtLeast 512 := by
  refine ⟨(OT.lvs (ot .fixed)).map (fun l => (Comp.fixed, l.key)) ++ (OT.lvs (ot .pegged)).map (fun l => (Comp.pegged, l.key)),
    ?_, ?_, ?_⟩
  · rw [List.nodup_append]
    have hk : ∀ c, ((OT.lvs (ot c)).map (fun l => (c, l.key))).Nodup := by
      intro c
      unfold List.Nodup
      rw [List.pairwise_map]
      refine (h.1.rep c).sorted.imp ?_
      intro x y hxy he
      injection he with _ he; omega
    refine ⟨hk _, hk _, ?_⟩
    intro x hx y hy he
    simp only [List.mem_map] at hx hy
    obtain ⟨_, _, rfl⟩ := hx
    obtain ⟨_, _, rfl⟩ := hy
    cases he
  · have h1 := h.1.slab.avail_eq
    have h2 := OT.hs_length (ot .fixed)
    have h3 := OT.hs_length (ot .pegged)
    simp only [List.length_append, List.length_map] at h1 ⊢
    unfold maxOrderTreeNodes at h1
    by_cases e1 : OT.lvs (ot .fixed) = []
    · have := h2.2.2
      by_cases e2 : OT.lvs (ot .pegged) = []
      · have z1 : (OT.lvs (ot .fixed)).length = 0 := by rw [e1]; rfl
        have z2 : (OT.lvs (ot .pegged)).length = 0 := by rw [e2]; rfl
        omega
      · have z1 : (OT.lvs (ot .fixed)).length = 0 := by rw [e1]; rfl
        have := h3.2.1 e2; omega
    · have := h2.2.1 e1; omega
  · intro x hx
    rw [List.mem_append] at hx
    simp only [List.mem_map] at hx
    rcases hx with ⟨l, hl, rfl⟩ | ⟨l, hl, rfl⟩
    · rw [(h.2 _ _ l).mpr ⟨hl, rfl⟩]; simp
    · rw [(h.2 _ _ l).mpr ⟨hl, rfl⟩]; simp

theorem treeStep_spec {b : BookSide} {M : OrderMap} {ot : Comp → Option T} (h : Holds b M ot) (op : MapOp) (hop : op.Ok) :
    ∃ out b' M' ot', treeStep b op = .ok (out, b') ∧ MapStep M op out M' ∧ Holds b' M' ot' ∧ b'.side = b.side := by
  cases op with
  | insert c l =>
    unfold treeStep
    cases hm : M c l.key with
    | none =>
      rcases bs_insertLeaf h.1 c hop (h.none.mp hm) with ⟨h1, h2⟩ | ⟨hd, b', ot', g1, g2, g3, g4, g5⟩
      · refine ⟨.full, b, M, ot, ?_, .full M c l hm (h.atLeast h1), h, rfl⟩
        simp only [h2]
      · refine ⟨.inserted none, b', M.set c l.key (some l), ot', ?_, ?_, ⟨g2, ?_⟩, g5⟩
        · simp only [g1]
        · have := MapStep.insert M c l; rwa [hm] at this
        · intro c' k' l'
          unfold OrderMap.set
          by_cases hc : c' = c
          · subst hc
            rw [g3.mem_iff, List.mem_cons]
            by_cases hk : k' = l.key
            · subst hk
              simp only [true_and, if_true]
              constructor
              · intro he; injection he with he; subst he; exact ⟨.inl rfl, rfl⟩
              · rintro ⟨rfl | hl', he⟩
                · rfl
                · exact absurd he ((h.none.mp hm) l' hl')
            · simp only [hk, and_false, if_false, h.2]
              constructor
              · rintro ⟨a, b⟩; exact ⟨.inr a, b⟩
              · rintro ⟨rfl | a, b⟩
                · exact absurd b.symm hk
                · exact ⟨a, b⟩
          · have hc' : c' = c.other := by cases c <;> cases c' <;> simp_all [Comp.other]
            simp only [hc, false_and, if_false]
            rw [hc', g4, ← hc']; exact h.2 c' k' l'
    | some old =>
      obtain ⟨o1, o2⟩ := (h.2 c l.key old).mp hm
      obtain ⟨hd, old', rest, b', ot', g1, g2, g3, g4, g5, g6, g7⟩ := bs_insertLeaf_replace h.1 c hop ⟨old, o1, o2⟩
      have he : old' = old := sorted_key_inj (h.1.rep c).sorted (g4.mem_iff.mpr (by simp)) o1 (by rw [g3, o2])
      subst he
      refine ⟨.inserted (some old'), b', M.set c l.key (some l), ot', ?_, ?_, ⟨g2, ?_⟩, g7⟩
      · simp only [g1]
      · have := MapStep.insert M c l; rwa [hm] at this
      · have hrest : ∀ x ∈ rest, x.key ≠ l.key := by
          intro x hx he
          have hx' : x ∈ OT.lvs (ot c) := g4.mem_iff.mpr (by simp [hx])
          have := sorted_key_inj (h.1.rep c).sorted hx' o1 (by rw [he, g3])
          subst this
          have hnd : (OT.lvs (ot c)).Nodup := (h.1.rep c).sorted.imp (by intro a b hab he; subst he; omega)
          have := g4.nodup_iff.mp hnd
          exact (List.nodup_cons.mp this).1 hx
        intro c' k' l'
        unfold OrderMap.set
        by_cases hc : c' = c
        · subst hc
          rw [g5.mem_iff, List.mem_cons]
          by_cases hk : k' = l.key
          · subst hk
            simp only [true_and, if_true]
            constructor
            · intro he; injection he with he; subst he; exact ⟨.inl rfl, rfl⟩
            · rintro ⟨rfl | hl', he⟩
              · rfl
              · exact absurd he (hrest l' hl')
          · simp only [hk, and_false, if_false, h.2]
            rw [g4.mem_iff, List.mem_cons]
            constructor
            · rintro ⟨rfl | a, b⟩
              · exact absurd (by rw [← b, g3]) hk
              · exact ⟨.inr a, b⟩
            · rintro ⟨rfl | a, b⟩
              · exact absurd b.symm hk
              · exact ⟨.inr a, b⟩
        · have hc' : c' = c.other := by cases c <;> cases c' <;> simp_all [Comp.other]
          simp only [hc, false_and, if_false]
          rw [hc', g6, ← hc']; exact h.2 c' k' l'
  | remove c k =>
    unfold treeStep
    rcases bs_removeByKey h.1 c k with ⟨h1, h2⟩ | ⟨l, b', ot', g1, g2, g3, g4, g5, g6⟩
    · have hm := h.none.mpr h2
      refine ⟨.removed none, b, M.set c k none, ot, ?_, ?_, ⟨h.1, ?_⟩, rfl⟩
      · simp only [h1]; rfl
      · have := MapStep.remove M c k; rwa [hm] at this
      · intro c' k' l'
        unfold OrderMap.set
        split
        · rename_i he
          obtain ⟨rfl, rfl⟩ := he
          constructor
          · intro h; cases h
          · rintro ⟨a, b⟩; exact absurd b (h2 _ a)
        · exact h.2 c' k' l'
    · have hl : l ∈ OT.lvs (ot c) := g4.mem_iff.mpr (by simp)
      have hm : M c k = some l := (h.2 c k l).mpr ⟨hl, g2⟩
      refine ⟨.removed (some l), b', M.set c k none, ot', ?_, ?_, ⟨g3, ?_⟩, g6⟩
      · simp only [g1]; rfl
      · have := MapStep.remove M c k; rwa [hm] at this
      · have hrest : ∀ x ∈ OT.lvs (ot' c), x.key ≠ k := by
          intro x hx he
          have hx' : x ∈ OT.lvs (ot c) := g4.mem_iff.mpr (by simp [hx])
          have := sorted_key_inj (h.1.rep c).sorted hx' hl (by rw [he, g2])
          subst this
          have hnd : (OT.lvs (ot c)).Nodup := (h.1.rep c).sorted.imp (by intro a b hab he; subst he; omega)
          have := g4.nodup_iff.mp hnd
          exact (List.nodup_cons.mp this).1 hx
        intro c' k' l'
        unfold OrderMap.set
        by_cases hc : c' = c
        · subst hc
          by_cases hk : k' = k
          · subst hk
            simp only [true_and, if_true]
            constructor
            · intro h; cases h
            · rintro ⟨a, b⟩; exact absurd b (hrest _ a)
          · simp only [hk, and_false, if_false, h.2]
            rw [g4.mem_iff, List.mem_cons]
            constructor
            · rintro ⟨rfl | a, b⟩
              · exact absurd (by rw [← b, g2]) hk
              · exact ⟨a, b⟩
            · rintro ⟨a, b⟩; exact ⟨.inr a, b⟩
        · have hc' : c' = c.other := by cases c <;> cases c' <;> simp_all [Comp.other]
          simp only [hc, false_and, if_false]
          rw [hc', g5, ← hc']; exact h.2 c' k' l'

theorem treeRun_spec {b : BookSide} {M : OrderMap} {ot : Comp → Option T} (h : Holds b M ot) (ops : List MapOp)
    (hop : ∀ op ∈ ops, op.Ok) :
    ∃ outs b' M' ot', treeRun b ops = .ok (outs, b') ∧ MapRun M ops outs M' ∧ Holds b' M' ot' ∧ b'.side = b.side := by
  induction ops generalizing b M ot with
  | nil => exact ⟨[], b, M, ot, rfl, .nil M, h, rfl⟩
  | cons op ops ih =>
    obtain ⟨out, b1, M1, ot1, h1, h2, h3, h4⟩ := treeStep_spec h op (hop op (by simp))
    obtain ⟨outs, b2, M2, ot2, g1, g2, g3, g4⟩ := ih h3 (fun op' ho => hop op' (by simp [ho]))
    refine ⟨out :: outs, b2, M2, ot2, ?_, .cons h2 g2, g3, by rw [g4, h4]⟩
    rw [treeRun, h1]; simp only [ok_bind]; rw [g1]; rfl

theorem Holds.enumerates {b : BookSide} {M : OrderMap} {ot : Comp → Option T} (h : Holds b M ot) (c : Comp) :
    Enumerates b.side (M c) ((OT.ord b.side (ot c)).map (·.2)) := by
  have hs := (h.1.rep c).sorted
  rw [OT.lvs_eq] at hs
  refine ⟨?_, ?_⟩
  · rw [OT.ord_eq]
    cases b.side with
    | bid => simp only [List.map_reverse]; rw [List.pairwise_reverse]; exact hs
    | ask => exact hs
  · intro k l
    rw [h.2 c k l, OT.lvs_eq, OT.ord_eq]
    cases b.side <;> simp

theorem Holds.iterated {b : BookSide} {M : OrderMap} {ot : Comp → Option T} (h : Holds b M ot) (c : Comp) :
    OB.iterated b c = .ok ((OT.ord b.side (ot c)).map (·.2)) := by
  obtain ⟨it, i1, i2⟩ := treeIter_new (h.1.slabC c) (h.1.rep c)
  unfold OB.iterated
  rw [i1]
  simp only [ok_bind]
  refine drain_spec 1025 i2 ?_
  have e1 : (OT.ord b.nodes.side (ot c)).length = (OT.lvs (ot c)).length := by
    rw [OT.ord_eq, OT.lvs_eq]; cases b.nodes.side <;> simp
  show (OT.ord b.nodes.side (ot c)).length ≤ 1025
  rw [e1]
  have := (OT.hs_length (ot c)).2.2
  have := (h.1.slabC c).length_le
  simp only [List.length_append] at this
  unfold maxOrderTreeNodes at this
  omega

end OB
