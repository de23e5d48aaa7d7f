import Verif.Model.BookSide
import Verif.Proofs.TreeIter
/-! One side of the book: two trees in one slab. -/
namespace OB

/-- The book side holds the trees `ot`. -/
structure BSOk (b : BookSide) (ot : Comp → Option T) : Prop where
  slab : Slab b.nodes (OT.hs (ot .fixed) ++ OT.hs (ot .pegged))
  rep : ∀ c, RootRep b.nodes.nodes (b.root c) (ot c)

/-- The book side holds exactly the orders `L` (ascending by key). -/
def SideHas (b : BookSide) (L : Comp → List LeafNode) : Prop := ∃ ot, BSOk b ot ∧ ∀ c, OT.lvs (ot c) = L c

theorem BSOk.slabC {b : BookSide} {ot : Comp → Option T} (h : BSOk b ot) (c : Comp) :
    Slab b.nodes (OT.hs (ot c) ++ OT.hs (ot c.other)) := by
  cases c with
  | fixed => exact h.slab
  | pegged => exact h.slab.perm List.perm_append_comm

/-- Assemble a book side after changing the tree of component `c`. -/
theorem BSOk.mk' {b : BookSide} {ot : Comp → Option T} (h : BSOk b ot) (c : Comp) {t : Nodes} {r : Root} {ot' : Option T}
    (hs : Slab t (OT.hs ot' ++ OT.hs (ot c.other))) (hr : RootRep t.nodes r ot')
    (hn : ∀ x ∈ OT.hs (ot c.other), t.nodes x = b.nodes.nodes x) :
    BSOk (({ b with nodes := t }).setRoot c r) (fun c' => if c' = c then ot' else ot c') := by
  have ho := (h.rep c.other).congr hn
  cases c with
  | fixed =>
    refine ⟨hs, ?_⟩
    intro c'; cases c' with
    | fixed => exact hr
    | pegged => exact ho
  | pegged =>
    refine ⟨hs.perm List.perm_append_comm, ?_⟩
    intro c'; cases c' with
    | fixed => exact ho
    | pegged => exact hr

theorem BSOk.side_eq {b : BookSide} (c : Comp) {t : Nodes} {r : Root} (h : t.side = b.nodes.side) :
    (({ b with nodes := t }).setRoot c r).side = b.side := by cases c <;> exact h

theorem empty_ok (s : Side) : BSOk (BookSide.empty s) (fun _ => none) := by
  refine ⟨⟨⟨[], trivial, rfl, ?_⟩, ?_⟩, ?_⟩
  · exact List.Perm.refl _
  · exact Nat.zero_le _
  · intro c; cases c <;> rfl

theorem isFull_avail {b : BookSide} (h : b.isFull = false) : 2 ≤ b.nodes.avail := by
  unfold BookSide.isFull Nodes.isFull at h
  unfold Nodes.avail
  simp only [decide_eq_false_iff_not] at h
  unfold maxOrderTreeNodes at *
  omega

theorem bs_insertLeaf {b : BookSide} {ot : Comp → Option T} (h : BSOk b ot) (c : Comp) {leaf : LeafNode}
    (hk : leaf.key < 2 ^ 128) (hf : ∀ l ∈ OT.lvs (ot c), l.key ≠ leaf.key) :
    (b.nodes.avail < 2 ∧ b.insertLeaf c leaf = .error .someError) ∨
    ∃ hd b' ot', b.insertLeaf c leaf = .ok (hd, none, b') ∧ BSOk b' ot' ∧ (OT.lvs (ot' c)).Perm (leaf :: OT.lvs (ot c)) ∧
      ot' c.other = ot c.other ∧ b'.side = b.side := by
  unfold BookSide.insertLeaf
  rcases insertLeaf_spec (h.slabC c) (h.rep c) hk hf with ⟨h1, h2⟩ | ⟨hd, t', r', ot', g1, g2, g3, g4, g5, g6⟩
  · left; rw [h2]; exact ⟨h1, rfl⟩
  · right
    rw [g1]
    refine ⟨hd, _, _, rfl, h.mk' c g2 g3 g5, by simpa using g4, ?_, BSOk.side_eq c g6⟩
    cases c <;> simp [Comp.other]

theorem bs_insertLeaf_replace {b : BookSide} {ot : Comp → Option T} (h : BSOk b ot) (c : Comp) {leaf : LeafNode}
    (hk : leaf.key < 2 ^ 128) (hf : ∃ l ∈ OT.lvs (ot c), l.key = leaf.key) :
    ∃ hd old rest b' ot', b.insertLeaf c leaf = .ok (hd, some old, b') ∧ BSOk b' ot' ∧ old.key = leaf.key ∧
      (OT.lvs (ot c)).Perm (old :: rest) ∧ (OT.lvs (ot' c)).Perm (leaf :: rest) ∧
      ot' c.other = ot c.other ∧ b'.side = b.side := by
  unfold BookSide.insertLeaf
  obtain ⟨hd, old, rest, t', ot', g1, g2, g3, g4, g5, g6, g7, g8⟩ := insertLeaf_replace (h.slabC c) (h.rep c) hk hf
  rw [g1]
  refine ⟨hd, old, rest, _, _, rfl, h.mk' c g2 g3 g7, g4, g5, by simpa using g6, ?_, BSOk.side_eq c g8⟩
  cases c <;> simp [Comp.other]

theorem bs_removeByKey {b : BookSide} {ot : Comp → Option T} (h : BSOk b ot) (c : Comp) (key : Nat) :
    (b.removeByKey c key = .ok none ∧ ∀ l ∈ OT.lvs (ot c), l.key ≠ key) ∨
    ∃ l b' ot', b.removeByKey c key = .ok (some (l, b')) ∧ l.key = key ∧ BSOk b' ot' ∧
      (OT.lvs (ot c)).Perm (l :: OT.lvs (ot' c)) ∧ ot' c.other = ot c.other ∧ b'.side = b.side := by
  unfold BookSide.removeByKey
  rcases removeByKey_spec key (h.slabC c) (h.rep c) with ⟨h1, h2⟩ | ⟨l, t', r', ot', g1, g2, g3, g4, g5, g6, g7⟩
  · left; rw [h1]; exact ⟨rfl, h2⟩
  · right
    rw [g1]
    refine ⟨l, _, _, rfl, g2, h.mk' c g3 g4 g6, by simpa using g5, ?_, BSOk.side_eq c g7⟩
    cases c <;> simp [Comp.other]

theorem bs_removeByKey_mem {b : BookSide} {ot : Comp → Option T} (h : BSOk b ot) (c : Comp) {l : LeafNode}
    (hl : l ∈ OT.lvs (ot c)) :
    ∃ b' ot', b.removeByKey c l.key = .ok (some (l, b')) ∧ BSOk b' ot' ∧
      (OT.lvs (ot c)).Perm (l :: OT.lvs (ot' c)) ∧ ot' c.other = ot c.other ∧ b'.side = b.side := by
  rcases bs_removeByKey h c l.key with ⟨_, h2⟩ | ⟨l', b', ot', g1, g2, g3, g4, g5, g6⟩
  · exact absurd rfl (h2 l hl)
  · have : l' = l := sorted_key_inj (h.rep c).sorted (g4.mem_iff.mpr (by simp)) hl g2
    subst this
    exact ⟨b', ot', g1, g3, g4, g5, g6⟩

theorem bs_removeOneExpiredIn {b : BookSide} {ot : Comp → Option T} (h : BSOk b ot) (c : Comp) (now : Nat) :
    (b.removeOneExpiredIn c now = .ok none ∧ ∀ l ∈ OT.lvs (ot c), ¬ l.expiry < now) ∨
    ∃ l b' ot', b.removeOneExpiredIn c now = .ok (some (l, b')) ∧ l.expiry < now ∧
      (∀ l' ∈ OT.lvs (ot c), l.expiry ≤ l'.expiry) ∧ BSOk b' ot' ∧
      (OT.lvs (ot c)).Perm (l :: OT.lvs (ot' c)) ∧ ot' c.other = ot c.other ∧ b'.side = b.side := by
  unfold BookSide.removeOneExpiredIn
  rcases removeOneExpired_spec now (h.slabC c) (h.rep c) with ⟨h1, h2⟩ | ⟨l, t', r', ot', g1, g2, g3, g4, g5, g6, g7, g8⟩
  · left; rw [h1]; exact ⟨rfl, h2⟩
  · right
    rw [g1]
    refine ⟨l, _, _, rfl, g2, g3, h.mk' c g4 g5 g7, by simpa using g6, ?_, BSOk.side_eq c g8⟩
    cases c <;> simp [Comp.other]

theorem bs_removeOneExpired {b : BookSide} {ot : Comp → Option T} (h : BSOk b ot) (c : Comp) (now : Nat) :
    (b.removeOneExpired c now = .ok none ∧ ∀ c', ∀ l ∈ OT.lvs (ot c'), ¬ l.expiry < now) ∨
    ∃ c' l b' ot', b.removeOneExpired c now = .ok (some (l, b')) ∧ l.expiry < now ∧
      (c' = c ∨ c' = c.other ∧ ∀ l' ∈ OT.lvs (ot c), ¬ l'.expiry < now) ∧
      (∀ l' ∈ OT.lvs (ot c'), l.expiry ≤ l'.expiry) ∧ BSOk b' ot' ∧
      (OT.lvs (ot c')).Perm (l :: OT.lvs (ot' c')) ∧ ot' c'.other = ot c'.other ∧ b'.side = b.side := by
  unfold BookSide.removeOneExpired
  rcases bs_removeOneExpiredIn h c now with ⟨h1, h2⟩ | ⟨l, b', ot', g1, g2, g3, g4, g5, g6, g7⟩
  · rw [h1]
    simp only [ok_bind]
    rcases bs_removeOneExpiredIn h c.other now with ⟨k1, k2⟩ | ⟨l, b', ot', g1, g2, g3, g4, g5, g6, g7⟩
    · left
      refine ⟨k1, ?_⟩
      intro c'
      by_cases hc : c' = c
      · subst hc; exact h2
      · have : c' = c.other := by cases c <;> cases c' <;> simp_all [Comp.other]
        subst this; exact k2
    · right
      exact ⟨c.other, l, b', ot', g1, g2, .inr ⟨rfl, h2⟩, g3, g4, g5, g6, g7⟩
  · right
    rw [g1]
    exact ⟨c, l, b', ot', rfl, g2, .inl rfl, g3, g4, g5, g6, g7⟩

/-! ### changing a quantity in place -/

def LeafNode.withQty (l : LeafNode) (q : Int) : LeafNode := { l with quantity := q }

def T.setQ (h : Nat) (q : Int) : T → T
  | .leaf h' l => .leaf h' (if h' = h then l.withQty q else l)
  | .node h' p k a b => .node h' p k (a.setQ h q) (b.setQ h q)

def setQL (h : Nat) (q : Int) (L : List (Nat × LeafNode)) : List (Nat × LeafNode) :=
  L.map (fun x => if x.1 = h then (x.1, x.2.withQty q) else x)

theorem T.setQ_handle (h : Nat) (q : Int) (t : T) : (t.setQ h q).handle = t.handle := by cases t <;> rfl

theorem T.setQ_minExp (h : Nat) (q : Int) (t : T) : (t.setQ h q).minExp = t.minExp := by
  induction t with
  | leaf h' l => simp only [T.setQ, T.minExp]; split <;> rfl
  | node h' p k a b iha ihb => simp only [T.setQ, T.minExp, iha, ihb]

theorem T.setQ_subHs (h : Nat) (q : Int) (t : T) : (t.setQ h q).subHs = t.subHs := by
  induction t with
  | leaf h' l => rfl
  | node h' p k a b iha ihb => simp only [T.setQ, T.subHs, T.setQ_handle, iha, ihb]

theorem T.setQ_hs (h : Nat) (q : Int) (t : T) : (t.setQ h q).hs = t.hs := by
  unfold T.hs; rw [T.setQ_handle, T.setQ_subHs]

theorem T.setQ_leaves (h : Nat) (q : Int) (t : T) : (t.setQ h q).leaves = setQL h q t.leaves := by
  induction t with
  | leaf h' l =>
    simp only [T.setQ, T.leaves, setQL, List.map_cons, List.map_nil]; split <;> rfl
  | node h' p k a b iha ihb => simp only [T.setQ, T.leaves, setQL, List.map_append] at *; rw [iha, ihb]

theorem T.setQ_keys (h : Nat) (q : Int) (t : T) : (t.setQ h q).lvs.map (·.key) = t.lvs.map (·.key) := by
  unfold T.lvs
  rw [T.setQ_leaves]
  simp only [setQL, List.map_map]
  apply List.map_congr_left
  intro x hx
  simp only [Function.comp]
  split <;> rfl

theorem T.setQ_key_mem {h : Nat} {q : Int} {t : T} {l : LeafNode} (hl : l ∈ (t.setQ h q).lvs) : ∃ l' ∈ t.lvs, l'.key = l.key := by
  have := List.mem_map_of_mem (f := (·.key)) hl
  rw [T.setQ_keys] at this
  simpa using this

theorem T.setQ_wf {h : Nat} {q : Int} {t : T} (hw : WF t) : WF (t.setQ h q) := by
  induction t with
  | leaf h' l =>
    show (if h' = h then l.withQty q else l).key < _
    split <;> exact hw
  | node h' p k a b iha ihb =>
    obtain ⟨h1, h2, h3, h4, h5, h6⟩ := hw
    refine ⟨h1, h2, ?_, ?_, iha h5, ihb h6⟩
    · intro l hl; obtain ⟨l', hl', he⟩ := T.setQ_key_mem hl; rw [← he]; exact h3 l' hl'
    · intro l hl; obtain ⟨l', hl', he⟩ := T.setQ_key_mem hl; rw [← he]; exact h4 l' hl'

theorem T.setQ_rep {nd nd' : Nat → AnyNode} {t : T} {h : Nat} {q : Int} {l : LeafNode} (hr : Rep nd t) (hl : nd h = .leaf l)
    (hn : nd' h = .leaf (l.withQty q)) (ho : ∀ x, x ≠ h → nd' x = nd x) : Rep nd' (t.setQ h q) := by
  induction t with
  | leaf h' l' =>
    show nd' h' = .leaf (if h' = h then l'.withQty q else l')
    by_cases he : h' = h
    · subst he
      rw [if_pos rfl, hn]
      have : nd h' = .leaf l' := hr
      rw [hl] at this; injection this with this; rw [this]
    · rw [if_neg he, ho _ he]; exact hr
  | node h' p k a b iha ihb =>
    obtain ⟨h1, h2, h3⟩ := hr
    have he : h' ≠ h := by rintro rfl; rw [h1] at hl; cases hl
    refine ⟨?_, iha h2, ihb h3⟩
    rw [ho _ he, h1]
    simp only [T.setQ_handle, T.setQ_minExp]

def OT.setQ (h : Nat) (q : Int) (ot : Option T) : Option T := ot.map (T.setQ h q)

theorem OT.setQ_leaves (h : Nat) (q : Int) (ot : Option T) : OT.leaves (OT.setQ h q ot) = setQL h q (OT.leaves ot) := by
  cases ot with
  | none => rfl
  | some t => exact T.setQ_leaves h q t

theorem OT.setQ_hs (h : Nat) (q : Int) (ot : Option T) : OT.hs (OT.setQ h q ot) = OT.hs ot := by
  cases ot with
  | none => rfl
  | some t => exact T.setQ_hs h q t

theorem bs_setQuantity {b : BookSide} {ot : Comp → Option T} (h : BSOk b ot) {c : Comp} {hd : Nat} {l : LeafNode} (q : Int)
    (hm : (hd, l) ∈ OT.leaves (ot c)) :
    ∃ b', b.setQuantity hd q = .ok b' ∧ BSOk b' (fun c' => OT.setQ hd q (ot c')) ∧ b'.side = b.side := by
  obtain ⟨tr, htr⟩ : ∃ tr, ot c = some tr := by
    cases hc : ot c with
    | none => rw [hc] at hm; simp [OT.leaves] at hm
    | some tr => exact ⟨tr, rfl⟩
  have hm' : (hd, l) ∈ tr.leaves := by rw [htr] at hm; exact hm
  have hrep := h.rep c
  rw [htr] at hrep
  have hnd : b.nodes.nodes hd = .leaf l := hrep.2.2.1.leaf_mem hm'
  have hlt : hd < maxOrderTreeNodes := by
    refine (h.slabC c).lt ?_
    rw [htr]; simp [OT.hs, T.leaves_handle_mem hm']
  have hin : hd ∈ OT.hs (ot .fixed) ++ OT.hs (ot .pegged) := by
    have : hd ∈ OT.hs (ot c) := by rw [htr]; exact T.leaves_handle_mem hm'
    cases c <;> simp [this]
  unfold BookSide.setQuantity
  rw [nodeU_leaf hlt hnd]
  refine ⟨_, rfl, ⟨?_, ?_⟩, rfl⟩
  · simp only [OT.setQ_hs]; exact h.slab.set hin _
  · intro c'
    have hr := h.rep c'
    have hroot : (BookSide.root { b with nodes := b.nodes.set hd (.leaf { l with quantity := q }) } c') = b.root c' := by
      cases c' <;> rfl
    rw [hroot]
    cases hot : ot c' with
    | none => rw [hot] at hr; exact hr
    | some t' =>
      rw [hot] at hr
      obtain ⟨r1, r2, r3, r4⟩ := hr
      refine ⟨by rw [T.setQ_handle]; exact r1, ?_, ?_, T.setQ_wf r4⟩
      · have := congrArg List.length (T.setQ_keys hd q t')
        simp only [List.length_map] at this
        rw [this]; exact r2
      · refine T.setQ_rep r3 hnd ?_ ?_
        · simp [Nodes.set, LeafNode.withQty]
        · intro x hx; simp [Nodes.set, hx]

theorem bs_iter {b : BookSide} {ot : Comp → Option T} (h : BSOk b ot) :
    ∃ it, b.iter = .ok it ∧ IterAt b.nodes it.fixedIter (OT.ord b.side (ot .fixed)) ∧
      IterAt b.nodes it.peggedIter (OT.ord b.side (ot .pegged)) := by
  obtain ⟨f, f1, f2⟩ := treeIter_new (h.slabC .fixed) (h.rep .fixed)
  obtain ⟨p, p1, p2⟩ := treeIter_new (h.slabC .pegged) (h.rep .pegged)
  refine ⟨⟨f, p⟩, ?_, f2, p2⟩
  unfold BookSide.iter
  have f1' : TreeIter.new b.nodes b.rootFixed = .ok f := f1
  have p1' : TreeIter.new b.nodes b.rootPegged = .ok p := p1
  rw [f1', p1']; rfl

theorem bs_isEmpty {b : BookSide} {ot : Comp → Option T} (h : BSOk b ot) :
    b.isEmpty = .ok (decide (OT.lvs (ot .fixed) = [] ∧ OT.lvs (ot .pegged) = [])) := by
  obtain ⟨f, f1, f2⟩ := treeIter_new (h.slabC .fixed) (h.rep .fixed)
  obtain ⟨p, p1, p2⟩ := treeIter_new (h.slabC .pegged) (h.rep .pegged)
  unfold BookSide.isEmpty
  have f1' : TreeIter.new b.nodes b.rootFixed = .ok f := f1
  have p1' : TreeIter.new b.nodes b.rootPegged = .ok p := p1
  rw [f1', p1']
  have hf := f2.peek
  have hp := p2.peek
  unfold TreeIter.peek at hf hp
  simp only [ok_bind, hf, hp]
  have e1 : ∀ o : Option T, (OT.ord b.nodes.side o).head?.isNone = decide (OT.lvs o = []) := by
    intro o
    rw [OT.ord_eq, OT.lvs_eq]
    cases OT.leaves o with
    | nil => cases b.nodes.side <;> rfl
    | cons x xs => cases b.nodes.side <;> simp [List.head?_reverse]
  rw [e1, e1]
  show Except.ok _ = Except.ok _
  simp

end OB
