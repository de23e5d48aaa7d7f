import Verif.Proofs.Sim
/-! Operations on two book sides with the same orders. -/
namespace OB

/-- Two sides with the same orders and the same peak of nodes in use. -/
structure BSim (b b' : BookSide) (ot ot' : Comp → Option T) : Prop where
  ok : BSOk b ot
  ok' : BSOk b' ot'
  lvs : ∀ c, OT.lvs (ot' c) = OT.lvs (ot c)
  side : b'.side = b.side
  bump : b'.nodes.bumpIndex = b.nodes.bumpIndex
  fixed : ∀ l ∈ OT.lvs (ot .fixed), FixedOk l

def SideSim (b b' : BookSide) : Prop := ∃ ot ot', BSim b b' ot ot'

theorem perm_sorted_eq {L L' : List LeafNode} (hp : L.Perm L') (h : L.Pairwise (fun x y => x.key < y.key))
    (h' : L'.Pairwise (fun x y => x.key < y.key)) : L = L' :=
  hp.eq_of_pairwise (fun a b _ _ h1 h2 => absurd h1 (by have : b.key < a.key := h2; omega)) h h'

theorem BSim.used {b b' : BookSide} {ot ot' : Comp → Option T} (h : BSim b b' ot ot') :
    b'.nodes.freeListLen = b.nodes.freeListLen := by
  have h1 := h.ok.slab.length
  have h2 := h.ok'.slab.length
  simp only [List.length_append, OT.hs_nodes, h.lvs, h.bump] at h1 h2
  omega

theorem BSim.cnt {b b' : BookSide} {ot ot' : Comp → Option T} (h : BSim b b' ot ot') : b'.nodes.cnt = b.nodes.cnt := by
  unfold Nodes.cnt; rw [h.bump, h.used]

theorem BSim.full {b b' : BookSide} {ot ot' : Comp → Option T} (h : BSim b b' ot ot') : b'.isFull = b.isFull := by
  unfold BookSide.isFull Nodes.isFull; rw [h.bump, h.used]

theorem comp_cases (c c' : Comp) : c' = c ∨ c' = c.other := by cases c <;> cases c' <;> simp [Comp.other]

theorem BookSide.root_bump (b : BookSide) (t : Nodes) (c : Comp) (r : Root) : (({ b with nodes := t } : BookSide).setRoot c r).nodes = t := by
  cases c <;> rfl

theorem bs_removeByKey_bump {b b' : BookSide} {c : Comp} {k : Nat} {l : LeafNode} (h : b.removeByKey c k = .ok (some (l, b'))) :
    b'.nodes.bumpIndex = b.nodes.bumpIndex := by
  unfold BookSide.removeByKey at h
  simp only [bind_ok] at h
  obtain ⟨x, h1, h⟩ := h
  cases x with
  | none => cases h
  | some x =>
    obtain ⟨l', t, r⟩ := x
    injection h with h
    injection h with h
    injection h with e1 e2
    subst e2
    rw [BookSide.root_bump]
    exact removeByKey_bump h1

/-- Result of removing one order. -/
def RemSim (x y : Option (LeafNode × BookSide)) : Prop :=
  match x, y with
  | none, none => True
  | some (l, b), some (l', b') => l' = l ∧ SideSim b b'
  | _, _ => False

theorem BSim.removeByKey {b b' : BookSide} {ot ot' : Comp → Option T} (h : BSim b b' ot ot') (c : Comp) (k : Nat) :
    RSim RemSim (b.removeByKey c k) (b'.removeByKey c k) := by
  rcases bs_removeByKey h.ok c k with ⟨h1, h2⟩ | ⟨l, b1, ot1, g1, g2, g3, g4, g5, g6⟩
  · rcases bs_removeByKey h.ok' c k with ⟨h1', _⟩ | ⟨l', b1', ot1', g1', g2', g3', g4', g5', g6'⟩
    · rw [h1, h1']; exact trivial
    · exact absurd g2' (h2 l' (by rw [← h.lvs]; exact g4'.mem_iff.mpr (by simp)))
  · rcases bs_removeByKey h.ok' c k with ⟨_, h2'⟩ | ⟨l', b1', ot1', g1', g2', g3', g4', g5', g6'⟩
    · exact absurd g2 (h2' l (by rw [h.lvs]; exact g4.mem_iff.mpr (by simp)))
    · rw [g1, g1']
      rw [h.lvs] at g4'
      have hl : l' = l := sorted_key_inj (h.ok.rep c).sorted (g4'.mem_iff.mpr (by simp)) (g4.mem_iff.mpr (by simp)) (g2'.trans g2.symm)
      subst hl
      refine ⟨rfl, ot1, ot1', g3, g3', ?_, ?_, ?_, ?_⟩
      · intro c'
        rcases comp_cases c c' with rfl | rfl
        · exact perm_sorted_eq ((List.perm_cons _).mp (g4'.symm.trans g4)) (g3'.rep c').sorted (g3.rep c').sorted
        · rw [g5, g5', h.lvs]
      · rw [g6, g6', h.side]
      · rw [bs_removeByKey_bump g1, bs_removeByKey_bump g1', h.bump]
      · intro x hx
        apply h.fixed
        rcases comp_cases c .fixed with rfl | e
        · exact g4.mem_iff.mpr (by simp [hx])
        · rw [e] at hx ⊢; rw [← g5]; exact hx

theorem BSim.removeOneExpiredIn {b b' : BookSide} {ot ot' : Comp → Option T} (h : BSim b b' ot ot') (c : Comp) (now : Nat) :
    RSim RemSim (b.removeOneExpiredIn c now) (b'.removeOneExpiredIn c now) := by
  have hrem := fun k => h.removeByKey c k
  unfold BookSide.removeOneExpiredIn
  unfold BookSide.removeByKey at hrem
  rcases removeOneExpired_eq now (h.ok.slabC c) (h.ok.rep c) with ⟨e1, e2⟩ | ⟨l, e1, e2⟩ <;>
  rcases removeOneExpired_eq now (h.ok'.slabC c) (h.ok'.rep c) with ⟨e1', e2'⟩ | ⟨l', e1', e2'⟩
  · rw [e2, e2']; exact trivial
  · rw [h.lvs, e1] at e1'; obtain ⟨A, B, e, _⟩ := e1'; simp at e
  · rw [h.lvs] at e1'; rw [e1'] at e1; obtain ⟨A, B, e, _⟩ := e1; simp at e
  · rw [h.lvs] at e1'
    have := e1.unique e1'
    subst this
    rw [e2, e2']
    by_cases hx : l.expiry < now
    · simp only [hx, if_true]
      exact hrem l.key
    · simp only [hx, if_false]
      exact trivial

theorem BSim.removeOneExpired {b b' : BookSide} {ot ot' : Comp → Option T} (h : BSim b b' ot ot') (c : Comp) (now : Nat) :
    RSim RemSim (b.removeOneExpired c now) (b'.removeOneExpired c now) := by
  unfold BookSide.removeOneExpired
  refine (h.removeOneExpiredIn c now).bind ?_
  intro x y hxy
  cases x with
  | none =>
    cases y with
    | none => exact h.removeOneExpiredIn c.other now
    | some y => exact hxy.elim
  | some x =>
    cases y with
    | none => exact hxy.elim
    | some y => exact hxy

/-- The same item except for its handle. -/
def ItemSim (i j : IterItem) : Prop := j = { i with handle := j.handle }

/-- Handles with equal orders. -/
def LeafSim (x y : Option (Nat × LeafNode)) : Prop := y.map (·.2) = x.map (·.2)

def OptSim {α β : Type} (P : α → β → Prop) (x : Option α) (y : Option β) : Prop :=
  match x, y with
  | none, none => True
  | some a, some b => P a b
  | _, _ => False

theorem rankOrders_sim {side : Side} {f f' p p' : Option (Nat × LeafNode)} (hf : LeafSim f f') (hp : LeafSim p p') (w : Bool)
    (now : Nat) (oracle : Option Int) :
    RSim (OptSim ItemSim) (rankOrders side f p w now oracle) (rankOrders side f' p' w now oracle) := by
  unfold LeafSim at hf hp
  have hfix : ∀ (a a' : Nat × LeafNode), a'.2 = a.2 → RSim (OptSim ItemSim)
      (do return some (← fixedToResult a now)) (do return some (← fixedToResult a' now)) := by
    intro a a' e
    unfold fixedToResult
    rw [e]
    refine RSim.bind (P := ItemSim) (RSim.same fun x _ => ?_) fun x y h => h
    exact rfl
  cases f with
  | none =>
    cases f' with
    | some _ => simp at hf
    | none =>
      cases p with
      | none =>
        cases p' with
        | some _ => simp at hp
        | none => cases oracle <;> exact trivial
      | some p =>
        cases p' with
        | none => simp at hp
        | some p' =>
          obtain ⟨h, l⟩ := p
          obtain ⟨h', l'⟩ := p'
          simp at hp
          subst hp
          cases oracle with
          | none => exact trivial
          | some o => exact rfl
  | some f =>
    cases f' with
    | none => simp at hf
    | some f' =>
      simp at hf
      cases p with
      | none =>
        cases p' with
        | some _ => simp at hp
        | none => cases oracle <;> exact hfix f f' hf
      | some p =>
        cases p' with
        | none => simp at hp
        | some p' =>
          obtain ⟨h, l⟩ := p
          obtain ⟨h', l'⟩ := p'
          simp at hp
          subst hp
          cases oracle with
          | none => exact hfix f f' hf
          | some o =>
            unfold rankOrders
            simp only [hf]
            refine RSim.same fun k _ => ?_
            split <;> split <;> first | exact hfix f f' hf | exact rfl

theorem leafSim_last {s : Side} {o o' : Option T} (h : OT.lvs o' = OT.lvs o) : LeafSim (OT.ord s o).getLast? (OT.ord s o').getLast? := by
  unfold LeafSim
  rw [← List.getLast?_map, ← List.getLast?_map]
  congr 1
  rw [OT.ord_eq, OT.ord_eq]
  cases s with
  | bid => simp only [List.map_reverse]; rw [← OT.lvs_eq, ← OT.lvs_eq, h]
  | ask => simp only; rw [← OT.lvs_eq, ← OT.lvs_eq, h]

/-- Result of removing the worst order. -/
def WorstSim (x y : Option (LeafNode × Int × BookSide)) : Prop :=
  match x, y with
  | none, none => True
  | some (l, p, b), some (l', p', b') => l' = l ∧ p' = p ∧ SideSim b b'
  | _, _ => False

theorem BSim.removeWorst {b b' : BookSide} {ot ot' : Comp → Option T} (h : BSim b b' ot ot') (now : Nat) (oracle : Option Int) :
    RSim WorstSim (b.removeWorst now oracle) (b'.removeWorst now oracle) := by
  unfold BookSide.removeWorst
  have e1 : b.nodes.findWorst b.rootFixed = _ := findWorst_spec (h.ok.slabC .fixed) (h.ok.rep .fixed)
  have e2 : b.nodes.findWorst b.rootPegged = _ := findWorst_spec (h.ok.slabC .pegged) (h.ok.rep .pegged)
  have e1' : b'.nodes.findWorst b'.rootFixed = _ := findWorst_spec (h.ok'.slabC .fixed) (h.ok'.rep .fixed)
  have e2' : b'.nodes.findWorst b'.rootPegged = _ := findWorst_spec (h.ok'.slabC .pegged) (h.ok'.rep .pegged)
  rw [e1, e2, e1', e2']
  have hs : b'.nodes.side = b.nodes.side := h.side
  simp only [ok_bind, h.side, hs]
  refine (rankOrders_sim (leafSim_last (h.lvs .fixed)) (leafSim_last (h.lvs .pegged)) true now oracle).bind ?_
  intro x y hxy
  cases x with
  | none =>
    cases y with
    | none => exact trivial
    | some y => exact hxy.elim
  | some x =>
    cases y with
    | none => exact hxy.elim
    | some y =>
      have hxy : y = { x with handle := y.handle } := hxy
      rw [hxy]
      refine (h.removeByKey x.comp x.leaf.key).bind ?_
      intro u v huv
      cases u with
      | none =>
        cases v with
        | none => exact trivial
        | some v => exact huv.elim
      | some u =>
        cases v with
        | none => exact huv.elim
        | some v => exact ⟨huv.1, rfl, huv.2⟩

theorem BSim.isEmpty {b b' : BookSide} {ot ot' : Comp → Option T} (h : BSim b b' ot ot') : b'.isEmpty = b.isEmpty := by
  rw [bs_isEmpty h.ok, bs_isEmpty h.ok', h.lvs, h.lvs]

theorem BSim.avail {b b' : BookSide} {ot ot' : Comp → Option T} (h : BSim b b' ot ot') : b'.nodes.avail = b.nodes.avail := by
  unfold Nodes.avail; rw [h.bump, h.used]

/-- Number of nodes a new order needs. -/
def newNodes (L : List LeafNode) : Nat := if L = [] then 1 else 2

theorem bs_insertLeaf_exact {b : BookSide} {ot : Comp → Option T} (h : BSOk b ot) (c : Comp) {leaf : LeafNode}
    (hk : leaf.key < 2 ^ 128) (hf : ∀ l ∈ OT.lvs (ot c), l.key ≠ leaf.key) :
    (b.nodes.avail < newNodes (OT.lvs (ot c)) ∧ b.insertLeaf c leaf = .error .someError) ∨
    (newNodes (OT.lvs (ot c)) ≤ b.nodes.avail ∧
    ∃ hd b' ot', b.insertLeaf c leaf = .ok (hd, none, b') ∧ BSOk b' ot' ∧ (OT.lvs (ot' c)).Perm (leaf :: OT.lvs (ot c)) ∧
      ot' c.other = ot c.other ∧ b'.side = b.side ∧
      b'.nodes.cnt = if OT.lvs (ot c) = [] then takeNode b.nodes.cnt else takeNode (takeNode b.nodes.cnt)) := by
  rcases bs_insertLeaf h c hk hf with ⟨h1, h2⟩ | ⟨hd, b', ot', g1, g2, g3, g4, g5⟩
  · left
    refine ⟨?_, h2⟩
    unfold newNodes
    split
    · rename_i he
      have hn : (b.root c).node = none := by
        rw [(h.rep c).node]
        cases hc : ot c with
        | none => rfl
        | some t => rw [hc] at he; have := t.lvs_length_pos; change t.lvs = [] at he; rw [he] at this; simp at this
      unfold BookSide.insertLeaf Nodes.insertLeaf at h2
      rw [hn] at h2
      simp only at h2
      rcases insert_spec (h.slabC c) (.leaf leaf) with ⟨k1, _⟩ | ⟨x, t', k1, _⟩
      · omega
      · rw [k1] at h2; cases h2
    · exact h1
  · right
    have hl := g3.length_eq
    have s1 := h.slab.length
    have s2 := g2.slab.length
    have s3 := g2.slab.bump
    have s4 := h.slab.bump
    refine ⟨?_, hd, b', ot', g1, g2, g3, g4, g5, ?_⟩
    · simp only [List.length_append, OT.hs_nodes] at s1 s2
      simp only [List.length_cons] at hl
      unfold newNodes Nodes.avail
      have e : ∀ L : List LeafNode, L = [] ↔ L.length = 0 := fun L => List.length_eq_zero_iff.symm
      cases c with
      | fixed =>
        have g4' : ot' .pegged = ot .pegged := g4
        rw [g4'] at s2
        unfold nodesFor at s1 s2
        split <;> rename_i he <;> rw [e] at he <;> omega
      | pegged =>
        have g4' : ot' .fixed = ot .fixed := g4
        rw [g4'] at s2
        unfold nodesFor at s1 s2
        split <;> rename_i he <;> rw [e] at he <;> omega
    · unfold BookSide.insertLeaf at g1
      simp only [bind_ok] at g1
      obtain ⟨⟨hd', old, t', r'⟩, k1, k2⟩ := g1
      injection k2 with k2
      injection k2 with e1 e2
      injection e2 with e2 e3
      subst e2 e3
      rw [BookSide.root_bump, insertLeaf_cnt k1]
      have hn : (b.root c).node = none ↔ OT.lvs (ot c) = [] := by
        rw [(h.rep c).node]
        cases hc : ot c with
        | none => simp [OT.lvs]
        | some t =>
          have := t.lvs_length_pos
          simp only [Option.map_some, OT.lvs]
          constructor
          · intro h; cases h
          · intro h; rw [h] at this; simp at this
      simp only [hn, Option.isSome_none, Bool.false_eq_true, if_false]

theorem bs_insertLeaf_some_bump {b b' : BookSide} {c : Comp} {leaf old : LeafNode} {hd : Nat}
    (h : b.insertLeaf c leaf = .ok (hd, some old, b')) : b'.nodes.bumpIndex = b.nodes.bumpIndex := by
  unfold BookSide.insertLeaf at h
  simp only [bind_ok] at h
  obtain ⟨⟨hd', old, t', r'⟩, k1, k2⟩ := h
  injection k2 with k2
  injection k2 with e1 e2
  injection e2 with e2 e3
  subst e2 e3
  rw [BookSide.root_bump]
  exact congrArg Prod.fst (insertLeaf_cnt k1)

theorem BSim.insertLeaf {b b' : BookSide} {ot ot' : Comp → Option T} (h : BSim b b' ot ot') (c : Comp) {leaf : LeafNode}
    (hk : leaf.key < 2 ^ 128) (hx : c = .fixed → FixedOk leaf) :
    RSim (fun x y => y.2.1 = x.2.1 ∧ SideSim x.2.2 y.2.2) (b.insertLeaf c leaf) (b'.insertLeaf c leaf) := by
  have fin : ∀ {b1 b1' : BookSide} {ot1 ot1' : Comp → Option T} {rest : List LeafNode}, BSOk b1 ot1 → BSOk b1' ot1' →
      (∀ x ∈ rest, x ∈ OT.lvs (ot c)) →
      (OT.lvs (ot1 c)).Perm (leaf :: rest) → (OT.lvs (ot1' c)).Perm (leaf :: rest) → ot1 c.other = ot c.other → ot1' c.other = ot' c.other →
      b1.side = b.side → b1'.side = b'.side → b1'.nodes.bumpIndex = b1.nodes.bumpIndex → SideSim b1 b1' := by
    intro b1 b1' ot1 ot1' rest o1 o1' hr p1 p1' q1 q1' s1 s1' hb
    refine ⟨ot1, ot1', o1, o1', ?_, by rw [s1, s1', h.side], hb, ?_⟩
    · intro c'
      rcases comp_cases c c' with rfl | rfl
      · exact perm_sorted_eq (p1'.trans p1.symm) (o1'.rep c').sorted (o1.rep c').sorted
      · rw [q1, q1', h.lvs]
    · intro x hm
      rcases comp_cases c .fixed with rfl | e
      · rcases List.mem_cons.mp (p1.mem_iff.mp hm) with rfl | hm
        · exact hx rfl
        · exact h.fixed x (hr x hm)
      · rw [e, q1, ← e] at hm; exact h.fixed x hm
  by_cases hex : ∃ l ∈ OT.lvs (ot c), l.key = leaf.key
  · obtain ⟨hd, old, rest, b1, ot1, g1, g2, g3, g4, g5, g6, g7⟩ := bs_insertLeaf_replace h.ok c hk hex
    obtain ⟨hd', old', rest', b1', ot1', g1', g2', g3', g4', g5', g6', g7'⟩ := bs_insertLeaf_replace h.ok' c hk (by rw [h.lvs]; exact hex)
    rw [g1, g1']
    rw [h.lvs] at g4'
    have ho : old' = old := sorted_key_inj (h.ok.rep c).sorted (g4'.mem_iff.mpr (by simp)) (g4.mem_iff.mpr (by simp)) (g3'.trans g3.symm)
    subst ho
    have hr : rest'.Perm rest := (List.perm_cons _).mp (g4'.symm.trans g4)
    refine ⟨rfl, fin g2 g2' (fun x hm => g4.mem_iff.mpr (by simp [hm])) g5 (g5'.trans (hr.cons _)) g6 g6' g7 g7' ?_⟩
    rw [bs_insertLeaf_some_bump g1, bs_insertLeaf_some_bump g1', h.bump]
  · have hf : ∀ l ∈ OT.lvs (ot c), l.key ≠ leaf.key := fun l hl he => hex ⟨l, hl, he⟩
    have e1 := bs_insertLeaf_exact h.ok c hk hf
    have e2 := bs_insertLeaf_exact h.ok' c hk (by rw [h.lvs]; exact hf)
    rw [h.lvs, h.avail, h.cnt] at e2
    rcases e1 with ⟨a1, a2⟩ | ⟨a1, hd, b1, ot1, g1, g2, g3, g4, g5, g6⟩ <;>
    rcases e2 with ⟨a1', a2'⟩ | ⟨a1', hd', b1', ot1', g1', g2', g3', g4', g5', g6'⟩
    · rw [a2, a2']; exact rfl
    · omega
    · omega
    · rw [g1, g1']
      refine ⟨rfl, fin g2 g2' (fun x hm => hm) g3 g3' g4 g4' g5 g5' ?_⟩
      have : b1'.nodes.cnt = b1.nodes.cnt := by rw [g6, g6']
      exact congrArg Prod.fst this

theorem SideSim.applyDeletes {D : List (Comp × Nat)} {b b' : BookSide} (h : SideSim b b') :
    RSim SideSim (OB.applyDeletes b D) (OB.applyDeletes b' D) := by
  induction D generalizing b b' with
  | nil => exact h
  | cons x D ih =>
    obtain ⟨c, k⟩ := x
    obtain ⟨ot, ot', hs⟩ := h
    simp only [OB.applyDeletes]
    refine (hs.removeByKey c k).bind ?_
    intro u v huv
    cases u with
    | none =>
      cases v with
      | none => exact rfl
      | some v => exact huv.elim
    | some u =>
      cases v with
      | none => exact huv.elim
      | some v => exact ih huv.2

end OB
