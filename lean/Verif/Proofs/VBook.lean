import Verif.Spec.Observe
import Verif.Proofs.Items
import Verif.Proofs.BookSide
import Verif.Proofs.Heap
import Verif.Proofs.MatchStep
/-! Observed orders and events; the opposing side with recorded changes and deletions applied. -/
namespace OB

/-! ### observers -/

theorem leavesFrom_spec {t : Nodes} (n : Nat) (tr : T) (hr : Rep t.nodes tr) (hn : tr.height ≤ n) :
    t.leavesFrom n tr.handle = tr.lvs := by
  induction n generalizing tr with
  | zero => cases tr <;> simp [T.height] at hn
  | succ n ih =>
    cases tr with
    | leaf h l =>
      have : t.nodes h = .leaf l := hr
      simp only [Nodes.leavesFrom, T.handle, this, T.lvs_leaf]
    | node h p k a b =>
      obtain ⟨h1, h2, h3⟩ := hr
      simp only [T.height] at hn
      show t.leavesFrom (n + 1) h = _
      simp only [Nodes.leavesFrom, h1, T.lvs_node]
      rw [ih a h2 (by omega), ih b h3 (by omega)]

theorem BSOk.orders {b : BookSide} {ot : Comp → Option T} (h : BSOk b ot) (c : Comp) : b.orders c = OT.lvs (ot c) := by
  unfold BookSide.orders
  have hr := h.rep c
  rw [hr.node]
  have hsl := h.slabC c
  cases hc : ot c with
  | none => rfl
  | some tr =>
    rw [hc] at hr hsl
    exact leavesFrom_spec _ _ hr.2.2.1 (Slab.height hsl)

theorem HeapRep.events {h : EventHeap} {q : List (Nat × Event)} (hr : HeapRep h q) : h.events = q.map (·.2) := by
  unfold EventHeap.events
  rw [iterSlots_spec hr]
  simp only
  have : ∀ p : List (Nat × Event), (∀ x ∈ p, x ∈ q) → (p.map (·.1)).filterMap h.atSlot = p.map (·.2) := by
    intro p
    induction p with
    | nil => intro _; rfl
    | cons x p ih =>
      intro hp
      have hx : h.atSlot x.1 = some x.2 := (atSlot_some hr).mpr (hp x (by simp))
      rw [List.map_cons, List.filterMap_cons, hx, ih (fun y hy => hp y (by simp [hy]))]
      rfl
  exact this q (fun _ hx => hx)

/-! ### handles -/

theorem T.handles_sub (t : T) : (t.leaves.map (·.1)).Sublist t.hs := by
  induction t with
  | leaf h l => exact List.Sublist.refl _
  | node h p k a b iha ihb =>
    simp only [T.leaves, List.map_append, T.hs, T.subHs]
    exact (iha.append ihb).cons _

theorem OT.handles_sub (ot : Option T) : ((OT.leaves ot).map (·.1)).Sublist (OT.hs ot) := by
  cases ot with
  | none => exact List.Sublist.refl _
  | some t => exact T.handles_sub t

/-- All leaves of the side have distinct handles. -/
theorem BSOk.handles {b : BookSide} {ot : Comp → Option T} (h : BSOk b ot) :
    ((OT.leaves (ot .fixed)).map (·.1) ++ (OT.leaves (ot .pegged)).map (·.1)).Nodup :=
  h.slab.nodup.sublist ((OT.handles_sub _).append (OT.handles_sub _))

/-! ### applying changes and deletions -/

/-- Entries (handle and order) with recorded quantity changes. -/
def setQs (C : List (Nat × Int)) (L : HL) : HL := C.foldl (fun L x => setQL x.1 x.2 L) L

theorem setQs_append (C C' : List (Nat × Int)) (L : HL) : setQs (C ++ C') L = setQs C' (setQs C L) := by
  simp [setQs, List.foldl_append]

theorem setQL_handles (h : Nat) (q : Int) (L : HL) : (setQL h q L).map (·.1) = L.map (·.1) := by
  simp only [setQL, List.map_map]
  apply List.map_congr_left
  intro x _; simp only [Function.comp]; split <;> rfl

theorem setQL_keys (h : Nat) (q : Int) (L : HL) : (setQL h q L).map (·.2.key) = L.map (·.2.key) := by
  simp only [setQL, List.map_map]
  apply List.map_congr_left
  intro x _; simp only [Function.comp]; split <;> rfl

theorem setQs_handles (C : List (Nat × Int)) (L : HL) : (setQs C L).map (·.1) = L.map (·.1) := by
  induction C generalizing L with
  | nil => rfl
  | cons x C ih => show (setQs C (setQL x.1 x.2 L)).map _ = _; rw [ih, setQL_handles]

theorem setQs_keys (C : List (Nat × Int)) (L : HL) : (setQs C L).map (·.2.key) = L.map (·.2.key) := by
  induction C generalizing L with
  | nil => rfl
  | cons x C ih => show (setQs C (setQL x.1 x.2 L)).map _ = _; rw [ih, setQL_keys]

/-- An entry whose handle is not changed is kept. -/
theorem setQs_mem {C : List (Nat × Int)} {L : HL} {x : Nat × LeafNode} (hx : x ∈ L) (hn : x.1 ∉ C.map (·.1)) : x ∈ setQs C L := by
  induction C generalizing L with
  | nil => exact hx
  | cons y C ih =>
    rw [List.map_cons, List.mem_cons, not_or] at hn
    apply ih ?_ hn.2
    unfold setQL
    rw [List.mem_map]
    exact ⟨x, hx, by rw [if_neg hn.1]⟩

theorem applyChanges_spec {b : BookSide} {ot : Comp → Option T} (h : BSOk b ot) (C : List (Nat × Int))
    (hC : ∀ x ∈ C, ∃ c, x.1 ∈ (OT.leaves (ot c)).map (·.1)) :
    ∃ b' ot', applyChanges b C = .ok b' ∧ BSOk b' ot' ∧ (∀ c, OT.leaves (ot' c) = setQs C (OT.leaves (ot c))) ∧ b'.side = b.side := by
  induction C generalizing b ot with
  | nil => exact ⟨b, ot, rfl, h, fun _ => rfl, rfl⟩
  | cons x C ih =>
    obtain ⟨hd, q⟩ := x
    obtain ⟨c, hc⟩ := hC (hd, q) (by simp)
    obtain ⟨⟨hd', l⟩, hm, he⟩ := List.mem_map.mp hc
    simp only at he; subst he
    obtain ⟨b1, e1, ok1, s1⟩ := bs_setQuantity h q hm
    obtain ⟨b', ot', e2, ok2, l2, s2⟩ := ih ok1 (by
      intro y hy
      obtain ⟨c', hc'⟩ := hC y (by simp [hy])
      exact ⟨c', by rw [OT.setQ_leaves, setQL_handles]; exact hc'⟩)
    refine ⟨b', ot', ?_, ok2, ?_, s2.trans s1⟩
    · simp only [applyChanges, e1, ok_bind]; exact e2
    · intro c'; rw [l2 c', OT.setQ_leaves]; rfl

theorem BSOk.keys {b : BookSide} {ot : Comp → Option T} (h : BSOk b ot) (c : Comp) : ((OT.lvs (ot c)).map (·.key)).Nodup := by
  have := (h.rep c).sorted
  rw [List.Nodup, List.pairwise_map]
  exact this.imp (by intro a b hab; omega)

def notIn (D : List (Comp × Nat)) (c : Comp) (l : LeafNode) : Bool := decide ((c, l.key) ∉ D)

theorem applyDeletes_spec {b : BookSide} {ot : Comp → Option T} (h : BSOk b ot) (D : List (Comp × Nat)) (hn : D.Nodup)
    (hD : ∀ x ∈ D, ∃ l ∈ OT.lvs (ot x.1), l.key = x.2) :
    ∃ b' ot', applyDeletes b D = .ok b' ∧ BSOk b' ot' ∧ (∀ c, (OT.lvs (ot' c)).Perm ((OT.lvs (ot c)).filter (notIn D c))) ∧
      b'.side = b.side := by
  induction D generalizing b ot with
  | nil =>
    refine ⟨b, ot, rfl, h, fun c => ?_, rfl⟩
    rw [List.filter_eq_self.mpr (by intro a _; simp [notIn])]
  | cons x D ih =>
    obtain ⟨c, k⟩ := x
    rw [List.nodup_cons] at hn
    obtain ⟨l, hl, hk⟩ := hD (c, k) (by simp)
    simp only at hl hk
    obtain ⟨b1, ot1, e1, ok1, p1, o1, s1⟩ := bs_removeByKey_mem h c hl
    rw [hk] at e1
    have hkeys := h.keys c
    rw [(p1.map (·.key)).nodup_iff, List.map_cons, List.nodup_cons] at hkeys
    have other : ∀ c', c' ≠ c → ot1 c' = ot c' := by
      intro c' hc'
      have : c' = c.other := by cases c <;> cases c' <;> simp_all [Comp.other]
      rw [this]; exact o1
    obtain ⟨b', ot', e2, ok2, p2, s2⟩ := ih ok1 hn.2 (by
      intro y hy
      obtain ⟨l', hl', hk'⟩ := hD y (by simp [hy])
      refine ⟨l', ?_, hk'⟩
      by_cases hc : y.1 = c
      · rw [hc] at hl' ⊢
        have := p1.mem_iff.mp hl'
        rcases List.mem_cons.mp this with rfl | hm
        · exfalso; apply hn.1
          have : (c, k) = y := by rw [← hc, ← hk, hk']
          rw [this]; exact hy
        · exact hm
      · rw [other _ hc]; exact hl')
    refine ⟨b', ot', ?_, ok2, ?_, s2.trans s1⟩
    · simp only [applyDeletes, e1, ok_bind, unwrapR_some]; exact e2
    · intro c'
      refine (p2 c').trans ?_
      by_cases hc : c' = c
      · subst hc
        refine List.Perm.trans ?_ (p1.filter _).symm
        have hf : notIn ((c', k) :: D) c' l = false := by simp [notIn, hk]
        rw [List.filter_cons, hf]
        simp only [Bool.false_eq_true, if_false]
        apply List.Perm.of_eq
        apply List.filter_congr
        intro y hy
        have hne : y.key ≠ k := by
          intro he; apply hkeys.1; rw [hk, ← he]; exact List.mem_map_of_mem hy
        simp [notIn, hne]
      · rw [other _ hc]
        apply List.Perm.of_eq
        apply List.filter_congr
        intro y _
        simp [notIn, hc]

/-! ### the virtual side -/

/-- Orders of component `c` once changes and deletions are applied to the entries `E`. -/
def virt (E : Comp → HL) (C : List (Nat × Int)) (D : List (Comp × Nat)) (c : Comp) : List LeafNode :=
  ((setQs C (E c)).map (·.2)).filter (notIn D c)

theorem virt_nil (E : Comp → HL) (c : Comp) : virt E [] [] c = (E c).map (·.2) := by
  unfold virt setQs
  rw [List.filter_eq_self.mpr (by intro a _; simp [notIn])]; rfl

/-- Recorded changes and deletions fit the entries. -/
structure Fits (E : Comp → HL) (C : List (Nat × Int)) (D : List (Comp × Nat)) : Prop where
  chg : ∀ x ∈ C, ∃ c, x.1 ∈ (E c).map (·.1)
  nodup : D.Nodup
  del : ∀ x ∈ D, ∃ e ∈ E x.1, e.2.key = x.2

structure EntriesOk (E : Comp → HL) : Prop where
  handles : ((E .fixed).map (·.1) ++ (E .pegged).map (·.1)).Nodup
  keys : ∀ c, ((E c).map (·.2.key)).Nodup

theorem Fits.nil (E : Comp → HL) : Fits E [] [] := ⟨by simp, List.nodup_nil, by simp⟩

theorem EntriesOk.handlesC {E : Comp → HL} (h : EntriesOk E) (c : Comp) : ((E c).map (·.1)).Nodup := by
  have := List.nodup_append.mp h.handles
  cases c with
  | fixed => exact this.1
  | pegged => exact this.2.1

theorem EntriesOk.disjoint {E : Comp → HL} (h : EntriesOk E) {c c' : Comp} (hc : c ≠ c') {x : Nat}
    (h1 : x ∈ (E c).map (·.1)) : x ∉ (E c').map (·.1) := by
  have := List.nodup_append.mp h.handles
  intro h2
  cases c <;> cases c' <;> first | exact hc rfl | exact this.2.2 x h1 x h2 rfl | exact this.2.2 x h2 x h1 rfl

/-- The virtual side is what the code computes at the end. -/
theorem virt_spec {b : BookSide} {ot : Comp → Option T} (h : BSOk b ot) {C : List (Nat × Int)} {D : List (Comp × Nat)}
    (hf : Fits (fun c => OT.leaves (ot c)) C D) :
    ∃ b1 b2 ot2, applyChanges b C = .ok b1 ∧ applyDeletes b1 D = .ok b2 ∧ BSOk b2 ot2 ∧
      (∀ c, (OT.lvs (ot2 c)).Perm (virt (fun c => OT.leaves (ot c)) C D c)) ∧ b2.side = b.side := by
  obtain ⟨b1, ot1, e1, ok1, l1, s1⟩ := applyChanges_spec h C hf.chg
  obtain ⟨b2, ot2, e2, ok2, p2, s2⟩ := applyDeletes_spec ok1 D hf.nodup (by
    intro x hx
    obtain ⟨e, he, hk⟩ := hf.del x hx
    have : x.2 ∈ (setQs C (OT.leaves (ot x.1))).map (·.2.key) := by
      rw [setQs_keys, ← hk]; exact List.mem_map_of_mem (f := fun e : Nat × LeafNode => e.2.key) he
    rw [← l1] at this
    obtain ⟨e', he', hk'⟩ := List.mem_map.mp this
    exact ⟨e'.2, by rw [OT.lvs_eq]; exact List.mem_map_of_mem he', hk'⟩)
  refine ⟨b1, b2, ot2, e1, e2, ok2, ?_, s2.trans s1⟩
  intro c
  have := p2 c
  rw [OT.lvs_eq (ot1 c), l1 c] at this
  exact this

/-- An untouched entry: neither changed nor deleted. -/
structure Fresh (E : Comp → HL) (C : List (Nat × Int)) (D : List (Comp × Nat)) (c : Comp) (x : Nat × LeafNode) : Prop where
  mem : x ∈ E c
  chg : x.1 ∉ C.map (·.1)
  del : (c, x.2.key) ∉ D

theorem map_set_split {L : HL} {h : Nat} {l : LeafNode} (hn : (L.map (·.1)).Nodup) (hm : (h, l) ∈ L) (q : Int) :
    ∃ A B, L = A ++ (h, l) :: B ∧ setQL h q L = A ++ (h, l.withQty q) :: B := by
  obtain ⟨A, B, rfl⟩ := List.append_of_mem hm
  refine ⟨A, B, rfl, ?_⟩
  rw [List.map_append, List.map_cons, List.nodup_append, List.nodup_cons] at hn
  obtain ⟨_, ⟨h1, _⟩, h3⟩ := hn
  have hA : ∀ x ∈ A, x.1 ≠ h := by
    intro x hx he
    exact h3 x.1 (List.mem_map_of_mem hx) h (by simp) he
  have hB : ∀ x ∈ B, x.1 ≠ h := by
    intro x hx he; apply h1; rw [← he]; exact List.mem_map_of_mem (f := (·.1)) hx
  have id : ∀ L : HL, (∀ x ∈ L, x.1 ≠ h) → setQL h q L = L := by
    intro L hL
    unfold setQL
    conv => rhs; rw [← List.map_id L]
    apply List.map_congr_left
    intro x hx; rw [if_neg (hL x hx)]; rfl
  have e : setQL h q (A ++ (h, l) :: B) = setQL h q A ++ setQL h q ((h, l) :: B) := by simp [setQL]
  rw [e, id A hA]
  show A ++ ((if h = h then (h, l.withQty q) else (h, l)) :: setQL h q B) = _
  rw [if_pos rfl, id B hB]

theorem setQL_other {L : HL} {h : Nat} (hn : h ∉ L.map (·.1)) (q : Int) : setQL h q L = L := by
  unfold setQL
  conv => rhs; rw [← List.map_id L]
  apply List.map_congr_left
  intro x hx; rw [if_neg (by intro he; apply hn; rw [← he]; exact List.mem_map_of_mem hx)]; rfl

/-- Changing the quantity of an untouched entry. -/
theorem virt_change {E : Comp → HL} (hE : EntriesOk E) {C : List (Nat × Int)} {D : List (Comp × Nat)} {c : Comp} {h : Nat}
    {l : LeafNode} (hf : Fresh E C D c (h, l)) (q : Int) :
    ∃ R, (virt E C D c).Perm (l :: R) ∧ (virt E (C ++ [(h, q)]) D c).Perm (l.withQty q :: R) ∧
      ∀ c', c' ≠ c → virt E (C ++ [(h, q)]) D c' = virt E C D c' := by
  have hm : (h, l) ∈ setQs C (E c) := setQs_mem hf.mem hf.chg
  have hn : ((setQs C (E c)).map (·.1)).Nodup := by rw [setQs_handles]; exact hE.handlesC c
  obtain ⟨A, B, e1, e2⟩ := map_set_split hn hm q
  have hl : notIn D c l = true := by have := hf.del; simp [notIn, this]
  refine ⟨(A.map (·.2)).filter (notIn D c) ++ (B.map (·.2)).filter (notIn D c), ?_, ?_, ?_⟩
  · unfold virt; rw [e1]
    simp only [List.map_append, List.map_cons, List.filter_append, List.filter_cons, hl, if_true]
    exact List.perm_middle
  · unfold virt; rw [setQs_append]
    show (((setQL h q (setQs C (E c))).map _).filter _).Perm _
    rw [e2]
    have hl' : notIn D c (l.withQty q) = true := hl
    simp only [List.map_append, List.map_cons, List.filter_append, List.filter_cons, hl', if_true]
    exact List.perm_middle
  · intro c' hc'
    unfold virt; rw [setQs_append]
    show ((setQL h q (setQs C (E c'))).map _).filter _ = _
    rw [setQL_other]
    rw [setQs_handles]
    exact hE.disjoint (Ne.symm hc') (List.mem_map_of_mem (f := (·.1)) hf.mem)

/-- Deleting an untouched entry. -/
theorem virt_delete {E : Comp → HL} (hE : EntriesOk E) {C : List (Nat × Int)} {D : List (Comp × Nat)} {c : Comp} {h : Nat}
    {l : LeafNode} (hf : Fresh E C D c (h, l)) :
    (virt E C D c).Perm (l :: virt E C (D ++ [(c, l.key)]) c) ∧
      ∀ c', c' ≠ c → virt E C (D ++ [(c, l.key)]) c' = virt E C D c' := by
  have hm : (h, l) ∈ setQs C (E c) := setQs_mem hf.mem hf.chg
  have hk : ((setQs C (E c)).map (·.2.key)).Nodup := by rw [setQs_keys]; exact hE.keys c
  obtain ⟨A, B, e1⟩ := List.append_of_mem hm
  rw [e1, List.map_append, List.map_cons, List.nodup_append, List.nodup_cons] at hk
  obtain ⟨_, ⟨h1, _⟩, h3⟩ := hk
  have hl : notIn D c l = true := by have := hf.del; simp [notIn, this]
  have hl' : notIn (D ++ [(c, l.key)]) c l = false := by simp [notIn]
  have key : ∀ L : HL, (∀ x ∈ L, x.2.key ≠ l.key) →
      (L.map (·.2)).filter (notIn (D ++ [(c, l.key)]) c) = (L.map (·.2)).filter (notIn D c) := by
    intro L hL
    apply List.filter_congr
    intro y hy
    obtain ⟨x, hx, rfl⟩ := List.mem_map.mp hy
    have := hL x hx
    simp [notIn, this]
  refine ⟨?_, ?_⟩
  · unfold virt; rw [e1]
    simp only [List.map_append, List.map_cons, List.filter_append, List.filter_cons, hl, if_true, hl']
    rw [key A (by
      intro x hx he
      exact h3 x.2.key (List.mem_map_of_mem (f := fun e : Nat × LeafNode => e.2.key) hx) l.key (by simp) he),
      key B (by intro x hx he; apply h1; rw [← he]; exact List.mem_map_of_mem (f := fun e : Nat × LeafNode => e.2.key) hx)]
    exact List.perm_middle
  · intro c' hc'
    unfold virt
    apply List.filter_congr
    intro y _
    simp [notIn, hc']

theorem Fits.change {E : Comp → HL} {C : List (Nat × Int)} {D : List (Comp × Nat)} (h : Fits E C D) {c : Comp} {x : Nat × LeafNode}
    (hx : x ∈ E c) (q : Int) : Fits E (C ++ [(x.1, q)]) D := by
  refine ⟨?_, h.nodup, h.del⟩
  intro y hy
  rcases List.mem_append.mp hy with hy | hy
  · exact h.chg y hy
  · simp at hy; subst hy; exact ⟨c, List.mem_map_of_mem hx⟩

theorem Fits.delete {E : Comp → HL} {C : List (Nat × Int)} {D : List (Comp × Nat)} (h : Fits E C D) {c : Comp} {x : Nat × LeafNode}
    (hx : Fresh E C D c x) : Fits E C (D ++ [(c, x.2.key)]) := by
  refine ⟨h.chg, ?_, ?_⟩
  · rw [List.nodup_append]
    refine ⟨h.nodup, by simp, ?_⟩
    intro a ha b hb he
    simp at hb; subst hb; subst he; exact hx.del ha
  · intro y hy
    rcases List.mem_append.mp hy with hy | hy
    · exact h.del y hy
    · simp at hy; subst hy; exact ⟨x, hx.mem, rfl⟩

end OB
