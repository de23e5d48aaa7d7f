import Verif.Proofs.TreeOps
/-! Iteration, minimum / maximum and earliest expiry of the crit-bit tree. -/
namespace OB

/-- Leaves in iteration order: descending keys for bids, ascending for asks. -/
def T.ord (s : Side) (t : T) : List (Nat × LeafNode) :=
  match s with
  | .bid => t.leaves.reverse
  | .ask => t.leaves

def OT.ord (s : Side) : Option T → List (Nat × LeafNode)
  | none => []
  | some t => t.ord s

theorem OT.ord_eq (s : Side) (ot : Option T) :
    OT.ord s ot = match s with | .bid => (OT.leaves ot).reverse | .ask => OT.leaves ot := by
  cases ot <;> cases s <;> rfl

theorem OT.lvs_eq (ot : Option T) : OT.lvs ot = (OT.leaves ot).map (·.2) := by cases ot <;> rfl

/-- The subtree is stored in the slab with valid handles. -/
def Good (t : Nodes) (tr : T) : Prop := Rep t.nodes tr ∧ (∀ h ∈ tr.hs, h < maxOrderTreeNodes) ∧ tr.height ≤ Nodes.fuel

theorem Good.sub {t : Nodes} {h p k : Nat} {a b : T} (hg : Good t (.node h p k a b)) : Good t a ∧ Good t b := by
  obtain ⟨⟨h1, h2, h3⟩, h4, h5⟩ := hg
  rw [T.hs_node] at h4
  simp only [T.height] at h5
  exact ⟨⟨h2, fun x hx => h4 x (by simp [hx]), by omega⟩, ⟨h3, fun x hx => h4 x (by simp [hx]), by omega⟩⟩

theorem Good.nodeU {t : Nodes} {tr : T} (hg : Good t tr) : t.nodeU tr.handle = .ok tr.any := by
  rw [nodeU_tree (hg.2.1 _ (by simp [T.hs])) (by rw [hg.1.any]; exact tr.any_isTree), hg.1.any]

theorem Good.node {t : Nodes} {tr : T} (hg : Good t tr) : t.node tr.handle = .ok (some tr.any) := by
  rw [node_tree (hg.2.1 _ (by simp [T.hs])) (by rw [hg.1.any]; exact tr.any_isTree), hg.1.any]

theorem RootRep.good {t : Nodes} {r : Root} {tr : T} {o : List Nat} (hs : Slab t (OT.hs (some tr) ++ o))
    (hr : RootRep t.nodes r (some tr)) : Good t tr :=
  ⟨hr.2.2.1, fun h hh => hs.lt (by simp [OT.hs, hh]), Slab.height hs⟩

/-- The stack of the iterator: each inner node has its second child still to be visited. -/
def StackRep (t : Nodes) : List InnerNode → List T → Prop :=
  List.Forall₂ (fun i tr => i.child (!TreeIter.leftBit t.side) = tr.handle ∧ Good t tr)

/-- The iterator has the leaves `L` still to yield. -/
def IterAt (t : Nodes) (it : TreeIter) (L : List (Nat × LeafNode)) : Prop :=
  (it.nextLeaf = none ∧ L = []) ∨
  ∃ cur pend, it.nextLeaf = some cur ∧ StackRep t it.stack pend ∧ L = cur :: pend.flatMap (T.ord t.side)

theorem IterAt.peek {t : Nodes} {it : TreeIter} {L : List (Nat × LeafNode)} (h : IterAt t it L) : it.peek = L.head? := by
  rcases h with ⟨h1, rfl⟩ | ⟨c, p, h1, h2, rfl⟩ <;> simp [TreeIter.peek, h1]

theorem findLeftmost_spec {t : Nodes} {st : List InnerNode} {pend : List T} (n : Nat) (tr : T) (hg : Good t tr)
    (hn : tr.height ≤ n) (hst : StackRep t st pend) :
    ∃ st' lf pend', TreeIter.findLeftmost t n tr.handle st = .ok (st', lf) ∧ StackRep t st' pend' ∧
      lf :: pend'.flatMap (T.ord t.side) = tr.ord t.side ++ pend.flatMap (T.ord t.side) := by
  induction n generalizing st pend tr with
  | zero => cases tr <;> simp [T.height] at hn
  | succ n ih =>
    rw [TreeIter.findLeftmost, hg.nodeU]
    cases tr with
    | leaf h l =>
      refine ⟨st, (h, l), pend, rfl, hst, ?_⟩
      cases t.side <;> simp [T.ord, T.leaves]
    | node h p k a b =>
      obtain ⟨ga, gb⟩ := hg.sub
      simp only [T.height] at hn
      simp only [T.any, ok_bind]
      cases hside : t.side with
      | bid =>
        have hst' : StackRep t (⟨p, k, a.handle, b.handle, a.minExp, b.minExp⟩ :: st) (a :: pend) := by
          refine List.Forall₂.cons ⟨?_, ga⟩ hst
          rw [hside]; rfl
        obtain ⟨st', lf, pend', h1, h2, h3⟩ := ih b gb (by omega) hst'
        refine ⟨st', lf, pend', h1, h2, ?_⟩
        rw [hside] at h3
        rw [h3]; simp [T.ord, T.leaves]
      | ask =>
        have hst' : StackRep t (⟨p, k, a.handle, b.handle, a.minExp, b.minExp⟩ :: st) (b :: pend) := by
          refine List.Forall₂.cons ⟨?_, gb⟩ hst
          rw [hside]; rfl
        obtain ⟨st', lf, pend', h1, h2, h3⟩ := ih a ga (by omega) hst'
        refine ⟨st', lf, pend', h1, h2, ?_⟩
        rw [hside] at h3
        rw [h3]; simp [T.ord, T.leaves]

theorem treeIter_new {t : Nodes} {r : Root} {ot : Option T} {o : List Nat}
    (hs : Slab t (OT.hs ot ++ o)) (hr : RootRep t.nodes r ot) :
    ∃ it, TreeIter.new t r = .ok it ∧ IterAt t it (OT.ord t.side ot) := by
  unfold TreeIter.new
  rw [hr.node]
  cases ot with
  | none => exact ⟨_, rfl, .inl ⟨rfl, rfl⟩⟩
  | some tr =>
    have hg := RootRep.good hs hr
    obtain ⟨st', lf, pend', h1, h2, h3⟩ := findLeftmost_spec (st := []) (pend := []) Nodes.fuel tr hg hg.2.2 List.Forall₂.nil
    simp only [Option.map_some]
    rw [h1]
    refine ⟨⟨st', some lf⟩, rfl, .inr ⟨lf, pend', rfl, h2, ?_⟩⟩
    rw [h3]; simp [OT.ord]

theorem treeIter_next {t : Nodes} {it : TreeIter} {L : List (Nat × LeafNode)} (h : IterAt t it L) :
    ∃ it', it.next t = .ok (L.head?, it') ∧ IterAt t it' L.tail := by
  unfold TreeIter.next
  rcases h with ⟨h1, rfl⟩ | ⟨cur, pend, h1, h2, rfl⟩
  · rw [h1]; exact ⟨it, rfl, .inl ⟨h1, rfl⟩⟩
  · rw [h1]
    obtain ⟨st, nl⟩ := it
    simp only at h2 ⊢
    cases h2 with
    | nil => exact ⟨_, rfl, .inl ⟨rfl, rfl⟩⟩
    | cons hd htl =>
      obtain ⟨hc, hg⟩ := hd
      rename_i i tr rest pend'
      obtain ⟨st', lf, p', g1, g2, g3⟩ := findLeftmost_spec Nodes.fuel tr hg hg.2.2 htl
      simp only
      rw [hc, g1]
      refine ⟨_, rfl, .inr ⟨lf, p', rfl, g2, ?_⟩⟩
      rw [g3]; simp

theorem leafMinMaxLoop_spec {t : Nodes} (fm : Bool) (n : Nat) (tr : T) (hg : Good t tr) (hn : tr.height ≤ n) :
    t.leafMinMaxLoop fm n tr.handle = .ok (if fm then tr.leaves.getLast? else tr.leaves.head?) := by
  induction n generalizing tr with
  | zero => cases tr <;> simp [T.height] at hn
  | succ n ih =>
    rw [Nodes.leafMinMaxLoop, hg.node]
    cases tr with
    | leaf h l => cases fm <;> rfl
    | node h p k a b =>
      obtain ⟨ga, gb⟩ := hg.sub
      simp only [T.height] at hn
      simp only [T.any, ok_bind]
      have ha := a.leaves_ne_nil
      have hb := b.leaves_ne_nil
      cases fm with
      | false =>
        have := ih a ga (by omega)
        simp only [InnerNode.child, Bool.false_eq_true, if_false] at this ⊢
        rw [this]
        simp only [T.leaves]
        rw [List.head?_append_of_ne_nil _ ha]
      | true =>
        have := ih b gb (by omega)
        simp only [InnerNode.child, if_true] at this ⊢
        rw [this]
        simp only [T.leaves]
        rw [List.getLast?_append_of_ne_nil _ hb]

theorem leafMinMax_spec {t : Nodes} {r : Root} {ot : Option T} {o : List Nat} (fm : Bool)
    (hs : Slab t (OT.hs ot ++ o)) (hr : RootRep t.nodes r ot) :
    t.leafMinMax fm r = .ok (if fm then (OT.leaves ot).getLast? else (OT.leaves ot).head?) := by
  unfold Nodes.leafMinMax
  rw [hr.node]
  cases ot with
  | none => cases fm <;> rfl
  | some tr =>
    have hg := RootRep.good hs hr
    exact leafMinMaxLoop_spec fm Nodes.fuel tr hg hg.2.2

theorem findWorst_spec {t : Nodes} {r : Root} {ot : Option T} {o : List Nat}
    (hs : Slab t (OT.hs ot ++ o)) (hr : RootRep t.nodes r ot) :
    t.findWorst r = .ok (OT.ord t.side ot).getLast? := by
  unfold Nodes.findWorst
  rw [OT.ord_eq]
  cases t.side with
  | bid => simp only; rw [leafMinMax_spec false hs hr]; simp
  | ask => simp only; rw [leafMinMax_spec true hs hr]; simp

theorem findEarliestLoop_spec {t : Nodes} (n : Nat) (tr : T) (hg : Good t tr) (hn : tr.height ≤ n) :
    ∃ h l, t.findEarliestExpiryLoop n tr.handle = .ok (h, l.expiry) ∧ (h, l) ∈ tr.leaves ∧ l.expiry = tr.minExp := by
  induction n generalizing tr with
  | zero => cases tr <;> simp [T.height] at hn
  | succ n ih =>
    rw [Nodes.findEarliestExpiryLoop, hg.nodeU]
    cases tr with
    | leaf h l => exact ⟨h, l, rfl, by simp [T.leaves], rfl⟩
    | node h p k a b =>
      obtain ⟨ga, gb⟩ := hg.sub
      simp only [T.height] at hn
      simp only [T.any, ok_bind]
      by_cases hc : a.minExp > b.minExp
      · obtain ⟨h', l, h1, h2, h3⟩ := ih b gb (by omega)
        refine ⟨h', l, ?_, by simp [T.leaves, h2], ?_⟩
        · simp only [InnerNode.child, hc, decide_true, if_true]; exact h1
        · simp only [T.minExp]; omega
      · obtain ⟨h', l, h1, h2, h3⟩ := ih a ga (by omega)
        refine ⟨h', l, ?_, by simp [T.leaves, h2], ?_⟩
        · simp only [InnerNode.child, hc, decide_false, Bool.false_eq_true, if_false]; exact h1
        · simp only [T.minExp]; omega

theorem T.leaves_lvs {t : T} {x : Nat × LeafNode} (h : x ∈ t.leaves) : x.2 ∈ t.lvs := List.mem_map_of_mem h

/-- Two leaves with one key are the same leaf. -/
theorem sorted_key_inj {L : List LeafNode} (hs : L.Pairwise (fun x y => x.key < y.key)) {x y : LeafNode} (hx : x ∈ L) (hy : y ∈ L)
    (he : x.key = y.key) : x = y := by
  induction L with
  | nil => simp at hx
  | cons a L ih =>
    rw [List.pairwise_cons] at hs
    rcases List.mem_cons.mp hx with rfl | hx' <;> rcases List.mem_cons.mp hy with rfl | hy'
    · rfl
    · have := hs.1 _ hy'; omega
    · have := hs.1 _ hx'; omega
    · exact ih hs.2 hx' hy'

/-- Removing a key that is present. -/
theorem removeByKey_mem {t : Nodes} {r : Root} {ot : Option T} {o : List Nat} {l : LeafNode}
    (hs : Slab t (OT.hs ot ++ o)) (hr : RootRep t.nodes r ot) (hl : l ∈ OT.lvs ot) :
    ∃ t' r' ot', t.removeByKey r l.key = .ok (some (l, t', r')) ∧ Slab t' (OT.hs ot' ++ o) ∧
      RootRep t'.nodes r' ot' ∧ (OT.lvs ot).Perm (l :: OT.lvs ot') ∧ (∀ x ∈ o, t'.nodes x = t.nodes x) ∧
      t'.side = t.side := by
  rcases removeByKey_spec l.key hs hr with ⟨_, h2⟩ | ⟨l', t', r', ot', g1, g2, g3, g4, g5, g6, g7⟩
  · exact absurd rfl (h2 l hl)
  · have : l' = l := sorted_key_inj hr.sorted (g5.mem_iff.mpr (by simp)) hl g2
    subst this
    exact ⟨t', r', ot', g1, g3, g4, g5, g6, g7⟩

theorem removeOneExpired_spec {t : Nodes} {r : Root} {ot : Option T} {o : List Nat} (now : Nat)
    (hs : Slab t (OT.hs ot ++ o)) (hr : RootRep t.nodes r ot) :
    (t.removeOneExpired r now = .ok none ∧ ∀ l ∈ OT.lvs ot, ¬ l.expiry < now) ∨
    ∃ l t' r' ot', t.removeOneExpired r now = .ok (some (l, t', r')) ∧ l.expiry < now ∧
      (∀ l' ∈ OT.lvs ot, l.expiry ≤ l'.expiry) ∧ Slab t' (OT.hs ot' ++ o) ∧
      RootRep t'.nodes r' ot' ∧ (OT.lvs ot).Perm (l :: OT.lvs ot') ∧ (∀ x ∈ o, t'.nodes x = t.nodes x) ∧
      t'.side = t.side := by
  unfold Nodes.removeOneExpired Nodes.findEarliestExpiry
  rw [hr.node]
  cases ot with
  | none => left; exact ⟨rfl, by simp [OT.lvs]⟩
  | some tr =>
    have hg := RootRep.good hs hr
    obtain ⟨h, l, h1, h2, h3⟩ := findEarliestLoop_spec Nodes.fuel tr hg hg.2.2
    simp only [Option.map_some]
    rw [h1]
    simp only [ok_bind, pure_bind']
    by_cases he : l.expiry < now
    · right
      rw [if_pos he, node_leaf (hs.lt (by simp [OT.hs, T.leaves_handle_mem h2])) (hg.1.leaf_mem h2)]
      simp only [ok_bind]
      obtain ⟨t', r', ot', g1, g2, g3, g4, g5, g6⟩ := removeByKey_mem hs hr (T.leaves_lvs h2)
      refine ⟨l, t', r', ot', g1, he, ?_, g2, g3, g4, g5, g6⟩
      intro l' hl'
      have h3' : l.expiry = tr.minExp := h3
      rw [h3']; exact T.minExp_le hl'
    · left
      rw [if_neg he]
      refine ⟨rfl, ?_⟩
      intro l' hl' hlt
      have h3' : l.expiry = tr.minExp := h3
      have := T.minExp_le (t := tr) hl'
      omega

end OB
