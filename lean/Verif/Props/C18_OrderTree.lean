import Verif.Proofs.OrderMapRef
/-! C18: the order tree is a sorted map.  C36: expired orders are found exactly. -/
namespace OB

/-- **C18.** For every sequence of insertions and removals starting from an empty book side, the model of the tree never
panics, answers exactly like the finite map (including the previous order under a reused id, `None` for an unknown id, and
`full` only when at least 512 orders are stored), and afterwards the tree iterator yields exactly the orders of the map,
sorted by id in the direction of the side. -/
theorem C18_order_tree_is_sorted_map (s : Side) (ops : List MapOp) (hop : ∀ op ∈ ops, op.Ok) :
    ∃ outs b M, treeRun (BookSide.empty s) ops = .ok (outs, b) ∧ MapRun (fun _ _ => none) ops outs M ∧
      ∀ c, ∃ L, iterated b c = .ok L ∧ Enumerates s (M c) L := by
  have h0 : Holds (BookSide.empty s) (fun _ _ => none) (fun _ => none) :=
    ⟨empty_ok s, by intro c k l; simp [OT.lvs]⟩
  obtain ⟨outs, b, M, ot, h1, h2, h3, h4⟩ := treeRun_spec h0 ops hop
  refine ⟨outs, b, M, h1, h2, ?_⟩
  intro c
  refine ⟨_, h3.iterated c, ?_⟩
  have := h3.enumerates c
  rw [h4] at this
  rw [h4]; exact this

/-- **C18**, minimum and maximum: after any sequence of operations `find_worst` returns the last order of the sorted
enumeration, i.e. the order with the smallest id for bids and the largest id for asks. -/
theorem C18_worst_is_last (s : Side) (ops : List MapOp) (hop : ∀ op ∈ ops, op.Ok) (outs : List MapOut) (b : BookSide)
    (hrun : treeRun (BookSide.empty s) ops = .ok (outs, b)) (c : Comp) :
    ∃ L, iterated b c = .ok L ∧ (b.nodes.findWorst (b.root c)).map (fun o => o.map (·.2)) = .ok L.getLast? := by
  have h0 : Holds (BookSide.empty s) (fun _ _ => none) (fun _ => none) :=
    ⟨empty_ok s, by intro c k l; simp [OT.lvs]⟩
  obtain ⟨outs', b', M, ot, h1, h2, h3, h4⟩ := treeRun_spec h0 ops hop
  rw [hrun] at h1; injection h1 with h1; injection h1 with h1 h1'; subst h1'
  refine ⟨_, h3.iterated c, ?_⟩
  · rw [findWorst_spec (h3.1.slabC c) (h3.1.rep c)]
    show Except.ok _ = Except.ok _
    congr 1
    rw [List.getLast?_map]; rfl

/-- **C18**, capacity: an insertion into a side that `is_full` does not report full always succeeds. -/
theorem C18_insert_succeeds (s : Side) (ops : List MapOp) (hop : ∀ op ∈ ops, op.Ok) (outs : List MapOut) (b : BookSide)
    (hrun : treeRun (BookSide.empty s) ops = .ok (outs, b)) (hfull : b.isFull = false) (c : Comp) (l : LeafNode)
    (hk : l.key < 2 ^ 128) : ∃ h old b', b.insertLeaf c l = .ok (h, old, b') := by
  have h0 : Holds (BookSide.empty s) (fun _ _ => none) (fun _ => none) :=
    ⟨empty_ok s, by intro c k l; simp [OT.lvs]⟩
  obtain ⟨outs', b', M, ot, h1, h2, h3, h4⟩ := treeRun_spec h0 ops hop
  rw [hrun] at h1; injection h1 with h1; injection h1 with h1 h1'; subst h1'
  by_cases hex : ∃ l' ∈ OT.lvs (ot c), l'.key = l.key
  · obtain ⟨hd, old, _, b', _, g1, _⟩ := bs_insertLeaf_replace h3.1 c hk hex
    exact ⟨hd, some old, b', g1⟩
  · rcases bs_insertLeaf h3.1 c hk (by intro l' hl' he; exact hex ⟨l', hl', he⟩) with ⟨a, _⟩ | ⟨hd, b', _, g1, _⟩
    · have := isFull_avail hfull; omega
    · exact ⟨hd, none, b', g1⟩

/-- **C36.** In every tree reachable by insertions and removals, `remove_one_expired` on a component removes nothing exactly
when no order of the component has expired strictly before `now`; otherwise it removes one order, with the smallest expiry of
all, which did expire, leaving all the other orders (as the map with that id unbound). -/
theorem C36_remove_one_expired (s : Side) (ops : List MapOp) (hop : ∀ op ∈ ops, op.Ok) (now : Nat) (c : Comp) :
    ∃ outs b M, treeRun (BookSide.empty s) ops = .ok (outs, b) ∧ MapRun (fun _ _ => none) ops outs M ∧
      ((b.removeOneExpiredIn c now = .ok none ∧ ∀ k l, M c k = some l → now ≤ l.expiry) ∨
       ∃ l b', b.removeOneExpiredIn c now = .ok (some (l, b')) ∧ M c l.key = some l ∧ l.expiry < now ∧
         (∀ k l', M c k = some l' → l.expiry ≤ l'.expiry) ∧
         ∀ c', ∃ L, iterated b' c' = .ok L ∧ Enumerates s (M.set c l.key none c') L) := by
  have h0 : Holds (BookSide.empty s) (fun _ _ => none) (fun _ => none) :=
    ⟨empty_ok s, by intro c k l; simp [OT.lvs]⟩
  obtain ⟨outs, b, M, ot, h1, h2, h3, h4⟩ := treeRun_spec h0 ops hop
  refine ⟨outs, b, M, h1, h2, ?_⟩
  rcases bs_removeOneExpiredIn h3.1 c now with ⟨e1, e2⟩ | ⟨l, b', ot', g1, g2, g3, g4, g5, g6, g7⟩
  · left
    refine ⟨e1, ?_⟩
    intro k l hm
    have := e2 l ((h3.2 c k l).mp hm).1
    omega
  · right
    have hl : l ∈ OT.lvs (ot c) := g5.mem_iff.mpr (by simp)
    refine ⟨l, b', g1, (h3.2 c l.key l).mpr ⟨hl, rfl⟩, g2, ?_, ?_⟩
    · intro k l' hm
      exact g3 l' ((h3.2 c k l').mp hm).1
    · -- removing by key from the run extended by one removal gives the same map
      have hrest : ∀ x ∈ OT.lvs (ot' c), x.key ≠ l.key := by
        intro x hx he
        have hx' : x ∈ OT.lvs (ot c) := g5.mem_iff.mpr (by simp [hx])
        have := sorted_key_inj (h3.1.rep c).sorted hx' hl he
        subst this
        have hnd : (OT.lvs (ot c)).Nodup := (h3.1.rep c).sorted.imp (by intro a b hab he; subst he; omega)
        have := g5.nodup_iff.mp hnd
        exact (List.nodup_cons.mp this).1 hx
      have hold : Holds b' (M.set c l.key none) ot' := by
        refine ⟨g4, ?_⟩
        intro c' k' l'
        unfold OrderMap.set
        by_cases hc : c' = c
        · subst hc
          by_cases hk : k' = l.key
          · subst hk
            simp only [true_and, if_true]
            constructor
            · intro h; cases h
            · rintro ⟨a, b⟩; exact absurd b (hrest _ a)
          · simp only [hk, and_false, if_false, h3.2]
            rw [g5.mem_iff, List.mem_cons]
            constructor
            · rintro ⟨rfl | a, b⟩
              · exact absurd b.symm hk
              · exact ⟨a, b⟩
            · rintro ⟨a, b⟩; exact ⟨.inr a, b⟩
        · have hc' : c' = c.other := by cases c <;> cases c' <;> simp_all [Comp.other]
          simp only [hc, false_and, if_false]
          rw [hc', g6, ← hc']; exact h3.2 c' k' l'
      intro c'
      refine ⟨_, hold.iterated c', ?_⟩
      have := hold.enumerates c'
      rw [g7, h4] at this
      rw [g7, h4]; exact this

/-! Non-trivial instances of the hypotheses. -/

def exLeaf (key : Nat) (tif : Nat) : LeafNode :=
  { ownerSlot := 0, timeInForce := tif, key, owner := 1, quantity := 5, timestamp := 10, pegLimit := -1, clientOrderId := 0 }

def exOps : List MapOp :=
  [.insert .fixed (exLeaf 6 0), .insert .fixed (exLeaf 4 3), .insert .pegged (exLeaf 4 1), .insert .fixed (exLeaf 7 9),
   .remove .fixed 6, .remove .pegged 1]

example : ∀ op ∈ exOps, op.Ok := by
  intro op hop
  simp only [exOps, List.mem_cons, List.not_mem_nil, or_false] at hop
  rcases hop with rfl | rfl | rfl | rfl | rfl | rfl <;> simp [MapOp.Ok, exLeaf]

/-- The run above leaves ids 7 and 4 in the bid tree. -/
example : (do let (_, b) ← treeRun (BookSide.empty .bid) exOps; iterated b .fixed) = .ok [exLeaf 7 9, exLeaf 4 3] := by
  decide +kernel

/-- And the earliest order to expire (id 4 at time 13) is found. -/
example : (do let (_, b) ← treeRun (BookSide.empty .bid) exOps
              match ← b.removeOneExpiredIn .fixed 14 with
              | some (l, _) => return some l
              | none => return none) = .ok (some (exLeaf 4 3)) := by
  decide +kernel

end OB
