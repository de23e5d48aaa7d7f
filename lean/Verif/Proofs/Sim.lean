import Verif.Proofs.NewOrder
/-! Two book sides with the same orders but different memory layouts behave alike. -/
namespace OB

/-- Both results are values related by `P`, or both are the same error. -/
def RSim {α β : Type} (P : α → β → Prop) : R α → R β → Prop
  | .ok a, .ok b => P a b
  | .error e, .error e' => e = e'
  | _, _ => False

theorem RSim.ok {α β : Type} {P : α → β → Prop} {a : α} {b : β} (h : P a b) : RSim P (.ok a) (.ok b) := h
theorem RSim.err {α β : Type} {P : α → β → Prop} {e : Err} : RSim P (.error e : R α) (.error e : R β) := rfl

theorem RSim.bind {α β α' β' : Type} {P : α → β → Prop} {Q : α' → β' → Prop} {x : R α} {y : R β} {f : α → R α'} {g : β → R β'}
    (h : RSim P x y) (hf : ∀ a b, P a b → RSim Q (f a) (g b)) : RSim Q (x >>= f) (y >>= g) := by
  cases x <;> cases y
  · cases h; exact rfl
  · exact h.elim
  · exact h.elim
  · exact hf _ _ h

theorem RSim.bindE {α β α' β' : Type} {P : α → β → Prop} {Q : α' → β' → Prop} {x : R α} {y : R β} {f : α → R α'} {g : β → R β'}
    (h : RSim P x y) (hf : ∀ a b, x = .ok a → y = .ok b → P a b → RSim Q (f a) (g b)) : RSim Q (x >>= f) (y >>= g) := by
  cases x <;> cases y
  · cases h; exact rfl
  · exact h.elim
  · exact h.elim
  · exact hf _ _ rfl rfl h

theorem RSim.same {α α' β' : Type} {Q : α' → β' → Prop} {x : R α} {f : α → R α'} {g : α → R β'}
    (hf : ∀ a, x = .ok a → RSim Q (f a) (g a)) : RSim Q (x >>= f) (x >>= g) := by
  cases x
  · exact rfl
  · exact hf _ rfl

theorem RSim.mono {α β : Type} {P Q : α → β → Prop} {x : R α} {y : R β} (h : RSim P x y) (hf : ∀ a b, P a b → Q a b) : RSim Q x y := by
  cases x <;> cases y
  · exact h
  · exact h
  · exact h
  · exact hf _ _ h

theorem RSim.refl {α : Type} {P : α → α → Prop} {x : R α} (h : ∀ a, P a a) : RSim P x x := by
  cases x
  · exact rfl
  · exact h _

theorem RSim.of_eq {α β : Type} {P : α → β → Prop} {x x' : R α} {y y' : R β} (hx : x = x') (hy : y = y') (h : RSim P x' y') : RSim P x y := by
  rw [hx, hy]; exact h

/-! ### the earliest expiry -/

/-- `l` is the first of the elements of `L` with the earliest expiry. -/
def FirstMin (L : List LeafNode) (l : LeafNode) : Prop :=
  ∃ A B, L = A ++ l :: B ∧ (∀ x ∈ A, l.expiry < x.expiry) ∧ ∀ x ∈ B, l.expiry ≤ x.expiry

theorem FirstMin.unique {L : List LeafNode} {l l' : LeafNode} (h : FirstMin L l) (h' : FirstMin L l') : l = l' := by
  obtain ⟨A, B, e, h1, h2⟩ := h
  obtain ⟨A', B', e', h1', h2'⟩ := h'
  rw [e] at e'
  rcases List.append_eq_append_iff.mp e' with ⟨C, c1, c2⟩ | ⟨C, c1, c2⟩
  · cases C with
    | nil => simp at c2; exact c2.1
    | cons x C =>
      have e : l = x := by simp at c2; exact c2.1
      subst e
      have a1 := h1' l (by rw [c1]; simp)
      have a2 := h2 l' (by simp at c2; rw [c2]; simp)
      omega
  · cases C with
    | nil => simp at c2; exact c2.1.symm
    | cons x C =>
      have e : l' = x := by simp at c2; exact c2.1
      subst e
      have a1 := h1 l' (by rw [c1]; simp)
      have a2 := h2' l (by simp at c2; rw [c2]; simp)
      omega

theorem findEarliestLoop_first {t : Nodes} (n : Nat) (tr : T) (hg : Good t tr) (hn : tr.height ≤ n) :
    ∃ h l, t.findEarliestExpiryLoop n tr.handle = .ok (h, l.expiry) ∧ (h, l) ∈ tr.leaves ∧ l.expiry = tr.minExp ∧ FirstMin tr.lvs l := by
  induction n generalizing tr with
  | zero => cases tr <;> simp [T.height] at hn
  | succ n ih =>
    rw [Nodes.findEarliestExpiryLoop, hg.nodeU]
    cases tr with
    | leaf h l => exact ⟨h, l, rfl, by simp [T.leaves], rfl, [], [], rfl, by simp, by simp⟩
    | node h p k a b =>
      obtain ⟨ga, gb⟩ := hg.sub
      simp only [T.height] at hn
      simp only [T.any, ok_bind]
      have hl : (T.node h p k a b).lvs = a.lvs ++ b.lvs := by simp [T.lvs, T.leaves]
      rw [hl]
      by_cases hc : a.minExp > b.minExp
      · obtain ⟨h', l, h1, h2, h3, A, B, e, f1, f2⟩ := ih b gb (by omega)
        refine ⟨h', l, ?_, by simp [T.leaves, h2], ?_, a.lvs ++ A, B, by rw [e]; simp, ?_, f2⟩
        · simp only [InnerNode.child, hc, decide_true, if_true]; exact h1
        · simp only [T.minExp]; omega
        · intro x hx
          rcases List.mem_append.mp hx with hx | hx
          · have := T.minExp_le hx; omega
          · exact f1 x hx
      · obtain ⟨h', l, h1, h2, h3, A, B, e, f1, f2⟩ := ih a ga (by omega)
        refine ⟨h', l, ?_, by simp [T.leaves, h2], ?_, A, B ++ b.lvs, by rw [e]; simp, f1, ?_⟩
        · simp only [InnerNode.child, hc, decide_false, Bool.false_eq_true, if_false]; exact h1
        · simp only [T.minExp]; omega
        · intro x hx
          rcases List.mem_append.mp hx with hx | hx
          · exact f2 x hx
          · have := T.minExp_le hx; omega

theorem removeOneExpired_eq {t : Nodes} {r : Root} {ot : Option T} {o : List Nat} (now : Nat)
    (hs : Slab t (OT.hs ot ++ o)) (hr : RootRep t.nodes r ot) :
    (OT.lvs ot = [] ∧ t.removeOneExpired r now = .ok none) ∨
    ∃ l, FirstMin (OT.lvs ot) l ∧ t.removeOneExpired r now = if l.expiry < now then t.removeByKey r l.key else .ok none := by
  unfold Nodes.removeOneExpired Nodes.findEarliestExpiry
  rw [hr.node]
  cases ot with
  | none => left; exact ⟨rfl, rfl⟩
  | some tr =>
    right
    have hg := RootRep.good hs hr
    obtain ⟨h, l, h1, h2, h3, h4⟩ := findEarliestLoop_first Nodes.fuel tr hg hg.2.2
    refine ⟨l, h4, ?_⟩
    simp only [Option.map_some]
    rw [h1]
    simp only [ok_bind, pure_bind']
    rw [node_leaf (hs.lt (by simp [OT.hs, T.leaves_handle_mem h2])) (hg.1.leaf_mem h2)]
    by_cases he : l.expiry < now
    · rw [if_pos he, if_pos he]; rfl
    · rw [if_neg he, if_neg he]; rfl

/-! ### how many nodes are in use -/

/-- Number of nodes of a tree with `n` orders. -/
def nodesFor (n : Nat) : Nat := 2 * n - 1

theorem OT.hs_nodes (ot : Option T) : (OT.hs ot).length = nodesFor (OT.lvs ot).length := by
  cases ot with
  | none => rfl
  | some t =>
    have := t.hs_length
    show t.hs.length = nodesFor t.lvs.length
    unfold nodesFor; omega

/-! ### the peak number of nodes -/

/-- Counters (bump index, length of the free list) after taking one node. -/
def takeNode (x : Nat × Nat) : Nat × Nat := if x.2 = 0 then (x.1 + 1, 0) else (x.1, x.2 - 1)

def Nodes.cnt (t : Nodes) : Nat × Nat := (t.bumpIndex, t.freeListLen)

theorem insert_cnt {t t' : Nodes} {v : AnyNode} {h : Nat} (hi : t.insert v = .ok (h, t')) : t'.cnt = takeNode t.cnt := by
  unfold Nodes.insert at hi
  split at hi
  · rename_i h0
    simp only [bind_ok, pure_ok, req_ok] at hi
    obtain ⟨_, _, hi⟩ := hi
    injection hi with e1 e2
    subst e2
    simp [Nodes.cnt, takeNode, h0, Nodes.set]
  · rename_i h0
    simp only [bind_ok, pure_ok] at hi
    obtain ⟨_, _, _, _, hi⟩ := hi
    injection hi with e1 e2
    subst e2
    simp [Nodes.cnt, takeNode, h0, Nodes.set]

theorem update_cnt {st : List (Nat × Bool)} {t t' : Nodes} {o n : Nat} (h : t.updateParentEarliestExpiry st o n = .ok t') : t'.cnt = t.cnt := by
  induction st generalizing t o n with
  | nil => cases h; rfl
  | cons x st ih =>
    obtain ⟨hd, b⟩ := x
    rw [Nodes.updateParentEarliestExpiry] at h
    simp only [bind_ok] at h
    obtain ⟨v, _, h⟩ := h
    cases v with
    | inner i =>
      simp only at h
      split at h
      · cases h; rfl
      · have := ih h; rw [this]; rfl
    | _ => cases h

theorem splitAt_cnt {t t' : Nodes} {r r' : Root} {leaf : LeafNode} {ph : Nat} {v : AnyNode} {sh : Nat} {st : List (Nat × Bool)} {h : Nat}
    (hi : t.splitAt r leaf ph v sh st = .ok (h, t', r')) : t'.cnt = takeNode (takeNode t.cnt) := by
  unfold Nodes.splitAt at hi
  simp only [bind_ok, pure_ok] at hi
  obtain ⟨_, _, ⟨lh, t1⟩, h1, ⟨mh, t2⟩, h2, _, _, oe, _, hi⟩ := hi
  have e : t2.cnt = takeNode (takeNode t.cnt) := by rw [insert_cnt h2, insert_cnt h1]
  rw [← e]
  split at hi
  · simp only [bind_ok, pure_ok] at hi
    obtain ⟨t4, h4, hi⟩ := hi
    injection hi with e1 e2
    injection e2 with e2 e3
    subst e2
    rw [update_cnt h4]; rfl
  · injection hi with hi
    injection hi with e1 e2
    injection e2 with e2 e3
    subst e2
    rfl

theorem insertLoop_cnt {r r' : Root} {leaf : LeafNode} {n : Nat} {t t' : Nodes} {ph h : Nat} {st : List (Nat × Bool)} {old : Option LeafNode}
    (hi : Nodes.insertLoop r leaf n t ph st = .ok (h, old, t', r')) :
    t'.cnt = if old.isSome then t.cnt else takeNode (takeNode t.cnt) := by
  induction n generalizing ph st with
  | zero => cases hi
  | succ n ih =>
    rw [Nodes.insertLoop] at hi
    simp only [bind_ok] at hi
    obtain ⟨v, _, hi⟩ := hi
    cases v with
    | leaf o =>
      simp only at hi
      split at hi
      · simp only [bind_ok, pure_ok] at hi
        obtain ⟨t2, h2, hi⟩ := hi
        injection hi with e1 e2
        injection e2 with e2 e3
        injection e3 with e3 e4
        subst e2 e3
        rw [update_cnt h2]; rfl
      · simp only [bind_ok, pure_ok] at hi
        obtain ⟨⟨h', t2, r2⟩, h2, hi⟩ := hi
        injection hi with e1 e2
        injection e2 with e2 e3
        injection e3 with e3 e4
        subst e2 e3
        rw [splitAt_cnt h2]; rfl
    | inner i =>
      simp only at hi
      split at hi
      · simp only [bind_ok] at hi
        obtain ⟨⟨c, b⟩, _, hi⟩ := hi
        exact ih hi
      · simp only [bind_ok, pure_ok] at hi
        obtain ⟨⟨h', t2, r2⟩, h2, hi⟩ := hi
        injection hi with e1 e2
        injection e2 with e2 e3
        injection e3 with e3 e4
        subst e2 e3
        rw [splitAt_cnt h2]; rfl
    | _ => cases hi

theorem insertLeaf_cnt {r r' : Root} {leaf : LeafNode} {t t' : Nodes} {h : Nat} {old : Option LeafNode}
    (hi : t.insertLeaf r leaf = .ok (h, old, t', r')) :
    t'.cnt = if old.isSome then t.cnt else if r.node = none then takeNode t.cnt else takeNode (takeNode t.cnt) := by
  unfold Nodes.insertLeaf at hi
  split at hi
  · rename_i hr
    simp only [bind_ok, pure_ok] at hi
    obtain ⟨⟨h', t2⟩, h2, hi⟩ := hi
    injection hi with e1 e2
    injection e2 with e2 e3
    injection e3 with e3 e4
    subst e2 e3
    rw [insert_cnt h2, hr]; rfl
  · rename_i x hr
    rw [insertLoop_cnt hi, hr]; simp

theorem remove_bump {t t' : Nodes} {h : Nat} {v : AnyNode} (hi : t.remove h = .ok (some (v, t'))) : t'.bumpIndex = t.bumpIndex := by
  unfold Nodes.remove at hi
  simp only [bind_ok] at hi
  obtain ⟨x, _, hi⟩ := hi
  cases x with
  | none => cases hi
  | some v' => cases hi; rfl

theorem update_bump {st : List (Nat × Bool)} {t t' : Nodes} {o n : Nat} (h : t.updateParentEarliestExpiry st o n = .ok t') :
    t'.bumpIndex = t.bumpIndex := congrArg Prod.fst (update_cnt h)

theorem removeFound_bump {t t' : Nodes} {r r' : Root} {p c : Nat} {b : Bool} {st : List (Nat × Bool)} {l : LeafNode}
    (hi : t.removeFound r p c b st = .ok (l, t', r')) : t'.bumpIndex = t.bumpIndex := by
  unfold Nodes.removeFound at hi
  simp only [bind_ok] at hi
  obtain ⟨v, _, hi⟩ := hi
  cases v with
  | inner pi =>
    simp only [bind_ok, unwrapR_ok] at hi
    obtain ⟨y, h1, x, h1', e, _, _, _, _, _, w, h2, z, h2', hi⟩ := hi
    obtain ⟨other, t1⟩ := x
    obtain ⟨rm, t3⟩ := z
    subst h1' h2'
    cases rm with
    | leaf lf =>
      simp only [bind_ok, pure_ok] at hi
      obtain ⟨t4, h4, hi⟩ := hi
      injection hi with e1 e2
      injection e2 with e2 e3
      subst e2
      rw [update_bump h4, remove_bump h2, ← remove_bump h1]; rfl
    | _ => cases hi
  | _ => cases hi

theorem removeByKey_bump {t t' : Nodes} {r r' : Root} {k : Nat} {l : LeafNode} (hi : t.removeByKey r k = .ok (some (l, t', r'))) :
    t'.bumpIndex = t.bumpIndex := by
  unfold Nodes.removeByKey at hi
  split at hi
  · cases hi
  · simp only [bind_ok] at hi
    obtain ⟨v, _, hi⟩ := hi
    cases v with
    | leaf lf =>
      simp only at hi
      split at hi
      · simp only [bind_ok, pure_ok, unwrapR_ok] at hi
        obtain ⟨_, _, y, h1, x, h1', hi⟩ := hi
        obtain ⟨v', t1⟩ := x
        subst h1'
        injection hi with hi
        injection hi with e1 e2
        injection e2 with e2 e3
        subst e2
        exact remove_bump h1
      · cases hi
    | inner i =>
      simp only [bind_ok] at hi
      obtain ⟨⟨c, b⟩, _, w, _, hi⟩ := hi
      cases w with
      | none => cases hi
      | some w =>
        obtain ⟨p', c', b', st'⟩ := w
        simp only [bind_ok, pure_ok] at hi
        obtain ⟨x, h1, hi⟩ := hi
        injection hi with hi
        subst hi
        exact removeFound_bump h1
    | _ => cases hi

theorem setQuantity_bump {b b' : BookSide} {h : Nat} {q : Int} (hi : b.setQuantity h q = .ok b') : b'.nodes.bumpIndex = b.nodes.bumpIndex := by
  unfold BookSide.setQuantity at hi
  simp only [bind_ok] at hi
  obtain ⟨v, _, hi⟩ := hi
  cases v with
  | leaf l => cases hi; rfl
  | _ => cases hi

theorem applyChanges_bump {C : List (Nat × Int)} {b b' : BookSide} (hi : applyChanges b C = .ok b') :
    b'.nodes.bumpIndex = b.nodes.bumpIndex := by
  induction C generalizing b with
  | nil => cases hi; rfl
  | cons x C ih =>
    obtain ⟨h, q⟩ := x
    simp only [applyChanges, bind_ok] at hi
    obtain ⟨b1, h1, hi⟩ := hi
    rw [ih hi, setQuantity_bump h1]

end OB
