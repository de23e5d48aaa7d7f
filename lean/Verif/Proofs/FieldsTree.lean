import Verif.Spec.Fields
import Verif.Proofs.Basic
/-! The nodes of a book side fit their fields: every operation on the tree writes only such nodes. -/
namespace OB
open Spec

/-- A leaf whose numbers fit and whose time is one of the clock. -/
def FLeaf (l : LeafNode) : Prop := nodeFits (.leaf l) ∧ l.timestamp < 2 ^ 63

def FNode : AnyNode → Prop
  | .leaf l => FLeaf l
  | n => nodeFits n

theorem FNode.fits {n : AnyNode} (h : FNode n) : nodeFits n := by
  cases n with
  | leaf l => exact h.1
  | _ => exact h

structure FTree (t : Nodes) : Prop where
  bump : t.bumpIndex ≤ 1024
  head : t.freeListHead < 2 ^ 32
  nodes : ∀ i, FNode (t.nodes i)

theorem FLeaf.expiry {l : LeafNode} (h : FLeaf l) : l.expiry < 2 ^ 64 := by
  obtain ⟨⟨-, h1, -⟩, h2⟩ := h
  unfold LeafNode.expiry u64MaxN
  split <;> omega

theorem FNode.expiry {n : AnyNode} (h : FNode n) {e : Nat} (he : n.earliestExpiry = .ok e) : e < 2 ^ 64 := by
  cases n with
  | leaf l => cases he; exact FLeaf.expiry h
  | inner i =>
    cases he
    obtain ⟨-, -, -, -, h1, h2⟩ := h
    unfold InnerNode.earliestExpiry
    omega
  | _ => cases he

theorem FTree.set {t : Nodes} (h : FTree t) (k : Nat) {n : AnyNode} (hn : FNode n) : FTree (t.set k n) := by
  refine ⟨h.bump, h.head, fun i => ?_⟩
  unfold Nodes.set
  dsimp only
  split
  · exact hn
  · exact h.nodes i

theorem FTree.node {t : Nodes} (h : FTree t) {k : Nat} {o : Option AnyNode} (hk : t.node k = .ok o) :
    k < 1024 ∧ ∀ n, o = some n → FNode n := by
  unfold Nodes.node at hk
  simp only [bind_ok, assertR, req_ok] at hk
  obtain ⟨_, h1, hk⟩ := hk
  refine ⟨h1, fun n hn => ?_⟩
  have h2 := h.nodes k
  subst hn
  split at hk <;> rename_i hx
  · simp only [pure_ok, Option.some.injEq] at hk; subst hk; rw [← hx]; exact h2
  · simp only [pure_ok, Option.some.injEq] at hk; subst hk; rw [← hx]; exact h2
  · simp [pure_ok] at hk

theorem FTree.nodeU {t : Nodes} (h : FTree t) {k : Nat} {n : AnyNode} (hk : t.nodeU k = .ok n) : k < 1024 ∧ FNode n := by
  unfold Nodes.nodeU at hk
  simp only [bind_ok, unwrapR_ok] at hk
  obtain ⟨o, h1, h2⟩ := hk
  exact ⟨(h.node h1).1, (h.node h1).2 n h2⟩

theorem FTree.remove {t : Nodes} (h : FTree t) {k : Nat} {v : AnyNode} {t' : Nodes} (hk : t.remove k = .ok (some (v, t'))) :
    FNode v ∧ FTree t' := by
  unfold Nodes.remove at hk
  simp only [bind_ok] at hk
  obtain ⟨o, h1, hk⟩ := hk
  obtain ⟨h2, h3⟩ := h.node h1
  cases o with
  | none => simp [pure_ok] at hk
  | some w =>
    simp only [pure_ok, Option.some.injEq, Prod.mk.injEq] at hk
    obtain ⟨rfl, rfl⟩ := hk
    refine ⟨h3 _ rfl, h.bump, by show k < _; omega, fun i => ?_⟩
    refine (h.set k ?_).nodes i
    split <;> exact h.head

theorem FTree.insert {t : Nodes} (h : FTree t) {v : AnyNode} (hv : FNode v) {k : Nat} {t' : Nodes} (hk : t.insert v = .ok (k, t')) :
    k < 1024 ∧ FTree t' := by
  unfold Nodes.insert at hk
  split at hk
  · simp only [bind_ok, req_ok, pure_ok, Prod.mk.injEq] at hk
    obtain ⟨_, ⟨h1, -⟩, rfl, rfl⟩ := hk
    unfold maxOrderTreeNodes at h1
    exact ⟨h1, by show _ + 1 ≤ _; omega, h.head, (h.set _ hv).nodes⟩
  · simp only [bind_ok, assertR, req_ok, pure_ok, Prod.mk.injEq] at hk
    obtain ⟨_, h1, nx, h2, rfl, rfl⟩ := hk
    unfold maxOrderTreeNodes at h1
    have h3 := h.nodes t.freeListHead
    refine ⟨h1, h.bump, ?_, (h.set _ hv).nodes⟩
    show nx < _
    split at h2 <;> rename_i hx
    · simp only [bind_ok, req_ok, pure_ok] at h2
      obtain ⟨_, -, rfl⟩ := h2
      rw [hx] at h3; exact h3
    · simp only [bind_ok, req_ok, pure_ok] at h2
      obtain ⟨_, -, rfl⟩ := h2
      rw [hx] at h3; exact h3
    · cases h2

theorem FTree.update {st : List (Nat × Bool)} : ∀ {t : Nodes} (_ : FTree t) {o n : Nat} (_ : n < 2 ^ 64) {t' : Nodes}
    (_ : t.updateParentEarliestExpiry st o n = .ok t'), FTree t' := by
  induction st with
  | nil => intro t h o n _ t' hk; simp only [Nodes.updateParentEarliestExpiry, ok_ok] at hk; subst hk; exact h
  | cons x st ih =>
    intro t h o n hn t' hk
    obtain ⟨k, b⟩ := x
    simp only [Nodes.updateParentEarliestExpiry, bind_ok] at hk
    obtain ⟨v, h1, hk⟩ := hk
    have h2 := (h.nodeU h1).2
    cases v with
    | inner i =>
      dsimp only at hk
      obtain ⟨a1, a2, a3, a4, a5, a6⟩ := h2
      have h3 : FNode (.inner (i.setExp b n)) := by
        unfold InnerNode.setExp
        split
        · exact ⟨a1, a2, a3, a4, a5, hn⟩
        · exact ⟨a1, a2, a3, a4, hn, a6⟩
      split at hk
      · simp only [pure_ok] at hk; subst hk; exact h
      · refine ih (h.set k h3) ?_ hk
        obtain ⟨-, -, -, -, b5, b6⟩ := h3
        unfold InnerNode.earliestExpiry
        omega
    | _ => cases hk

/-- A root that points into the array. -/
def FRoot (r : Root) : Prop := r.maybeNode < 2 ^ 32

theorem FTree.removeFound {t : Nodes} (h : FTree t) {r : Root} (hr : FRoot r) {p c : Nat} {b : Bool} {st : List (Nat × Bool)} {l : LeafNode}
    {t' : Nodes} {r' : Root} (hk : t.removeFound r p c b st = .ok (l, t', r')) : FLeaf l ∧ FTree t' ∧ FRoot r' := by
  unfold Nodes.removeFound at hk
  simp only [bind_ok] at hk
  obtain ⟨v, h1, hk⟩ := hk
  cases v with
  | inner i =>
    simp only [bind_ok, unwrapR_ok, assertR, req_ok] at hk
    obtain ⟨_, h2, ⟨other, t1⟩, rfl, ne, h3, _, h4, _, h5, _, h6, ⟨rem, t3⟩, rfl, hk⟩ := hk
    obtain ⟨q1, q2⟩ := h.remove h2
    obtain ⟨q3, q4⟩ := (q2.set p q1).remove h6
    cases rem with
    | leaf lf =>
      simp only [bind_ok, pure_ok, Prod.mk.injEq] at hk
      obtain ⟨t4, h7, rfl, rfl, rfl⟩ := hk
      exact ⟨q3, q4.update (q1.expiry h3) h7, hr⟩
    | _ => cases hk
  | _ => cases hk

theorem FTree.removeByKey {t : Nodes} (h : FTree t) {r : Root} (hr : FRoot r) {key : Nat} {l : LeafNode} {t' : Nodes} {r' : Root}
    (hk : t.removeByKey r key = .ok (some (l, t', r'))) : FLeaf l ∧ FTree t' ∧ FRoot r' := by
  unfold Nodes.removeByKey at hk
  split at hk
  · cases hk
  · simp only [bind_ok] at hk
    obtain ⟨v, h1, hk⟩ := hk
    cases v with
    | leaf lf =>
      dsimp only at hk
      split at hk
      · simp only [bind_ok, unwrapR_ok, assertR, req_ok, pure_ok, Option.some.injEq, Prod.mk.injEq] at hk
        obtain ⟨_, -, _, h2, ⟨v, t1⟩, rfl, rfl, rfl, rfl⟩ := hk
        exact ⟨(h.nodeU h1).2, (h.remove h2).2, by show 0 < 2 ^ 32; decide⟩
      · simp [pure_ok] at hk
    | inner i =>
      simp only [bind_ok] at hk
      obtain ⟨⟨c, b⟩, -, o, -, hk⟩ := hk
      cases o with
      | none => simp [pure_ok] at hk
      | some q =>
        obtain ⟨p, c', b', st⟩ := q
        simp only [bind_ok, pure_ok, Option.some.injEq] at hk
        obtain ⟨x, h3, rfl⟩ := hk
        exact h.removeFound hr h3
    | _ => cases hk

theorem FTree.removeOneExpired {t : Nodes} (h : FTree t) {r : Root} (hr : FRoot r) {now : Nat} {l : LeafNode} {t' : Nodes} {r' : Root}
    (hk : t.removeOneExpired r now = .ok (some (l, t', r'))) : FLeaf l ∧ FTree t' ∧ FRoot r' := by
  unfold Nodes.removeOneExpired at hk
  simp only [bind_ok] at hk
  obtain ⟨o, -, hk⟩ := hk
  cases o with
  | none => simp [pure_ok] at hk
  | some x =>
    dsimp only at hk
    split at hk
    · simp only [bind_ok] at hk
      obtain ⟨o, -, hk⟩ := hk
      split at hk
      · exact h.removeByKey hr hk
      · exact h.removeByKey hr hk
      · simp [pure_ok] at hk
    · simp [pure_ok] at hk

theorem FTree.splitAt {t : Nodes} (h : FTree t) {r : Root} (hr : FRoot r) {leaf : LeafNode} (hl : FLeaf leaf) {p : Nat} {v : AnyNode}
    (hv : FNode v) {sh : Nat} {st : List (Nat × Bool)} {k : Nat} {t' : Nodes} {r' : Root}
    (hk : t.splitAt r leaf p v sh st = .ok (k, t', r')) : FTree t' ∧ FRoot r' := by
  unfold Nodes.splitAt at hk
  simp only [bind_ok, assertR, req_ok] at hk
  obtain ⟨_, h0, ⟨lh, t1⟩, h1, ⟨mh, t2⟩, h2, _, h3, oe, h4, hk⟩ := hk
  obtain ⟨a1, a2⟩ := h.insert (v := .leaf leaf) hl h1
  obtain ⟨b1, b2⟩ := a2.insert hv h2
  have e1 := hl.expiry
  have e2 := hv.expiry h4
  have e3 : leaf.key < 2 ^ 128 := hl.1.2.2.1
  have h6 : FTree (t2.set p (.inner { prefixLen := sh, key := leaf.key, child0 := if critBit sh leaf.key then mh else lh, child1 := if critBit sh leaf.key then lh else mh, exp0 := if critBit sh leaf.key then oe else leaf.expiry, exp1 := if critBit sh leaf.key then leaf.expiry else oe })) := by
    refine b2.set p ⟨?_, e3, ?_, ?_, ?_, ?_⟩
    · show sh < _; omega
    · dsimp only; split <;> omega
    · dsimp only; split <;> omega
    · dsimp only; split <;> assumption
    · dsimp only; split <;> assumption
  split at hk
  · simp only [bind_ok, pure_ok, Prod.mk.injEq] at hk
    obtain ⟨t4, h5, rfl, rfl, rfl⟩ := hk
    exact ⟨h6.update e1 h5, hr⟩
  · simp only [bind_ok, ok_ok, pure_ok, Prod.mk.injEq] at hk
    obtain ⟨t4, rfl, rfl, rfl, rfl⟩ := hk
    exact ⟨h6, hr⟩

theorem FTree.insertLoop {r : Root} (hr : FRoot r) {leaf : LeafNode} (hl : FLeaf leaf) : ∀ {n : Nat} {t : Nodes} (_ : FTree t) {p : Nat}
    {st : List (Nat × Bool)} {k : Nat} {o : Option LeafNode} {t' : Nodes} {r' : Root}
    (_ : Nodes.insertLoop r leaf n t p st = .ok (k, o, t', r')), FTree t' ∧ FRoot r' := by
  intro n
  induction n with
  | zero => intro t h p st k o t' r' hk; cases hk
  | succ n ih =>
    intro t h p st k o t' r' hk
    simp only [Nodes.insertLoop, bind_ok] at hk
    obtain ⟨v, h1, hk⟩ := hk
    have h2 := (h.nodeU h1).2
    cases v with
    | leaf old =>
      dsimp only at hk
      split at hk
      · simp only [bind_ok, pure_ok, Prod.mk.injEq] at hk
        obtain ⟨t2, h3, rfl, rfl, rfl, rfl⟩ := hk
        exact ⟨(h.set p (n := .leaf leaf) hl).update hl.expiry h3, hr⟩
      · simp only [bind_ok, pure_ok, Prod.mk.injEq] at hk
        obtain ⟨⟨k', t1, r1⟩, h3, rfl, rfl, rfl, rfl⟩ := hk
        exact h.splitAt hr hl h2 h3
    | inner i =>
      dsimp only at hk
      split at hk
      · simp only [bind_ok] at hk
        obtain ⟨⟨c, b⟩, -, hk⟩ := hk
        exact ih h hk
      · simp only [bind_ok, pure_ok, Prod.mk.injEq] at hk
        obtain ⟨⟨k', t1, r1⟩, h3, rfl, rfl, rfl, rfl⟩ := hk
        exact h.splitAt hr hl h2 h3
    | _ => cases hk

theorem FTree.insertLeaf {t : Nodes} (h : FTree t) {r : Root} (hr : FRoot r) {leaf : LeafNode} (hl : FLeaf leaf) {k : Nat}
    {o : Option LeafNode} {t' : Nodes} {r' : Root} (hk : t.insertLeaf r leaf = .ok (k, o, t', r')) : FTree t' ∧ FRoot r' := by
  unfold Nodes.insertLeaf at hk
  split at hk
  · simp only [bind_ok, pure_ok, Prod.mk.injEq] at hk
    obtain ⟨⟨k', t1⟩, h1, rfl, rfl, rfl, rfl⟩ := hk
    obtain ⟨a1, a2⟩ := h.insert (v := .leaf leaf) hl h1
    exact ⟨a2, by unfold FRoot; dsimp only; omega⟩
  · exact FTree.insertLoop hr hl h hk

/-! Iterators -/

def FIter (it : TreeIter) : Prop := ∀ x, it.nextLeaf = some x → FLeaf x.2

theorem FTree.leftmost {t : Nodes} (h : FTree t) : ∀ {n k : Nat} {st st' : List InnerNode} {x : Nat × LeafNode}
    (_ : TreeIter.findLeftmost t n k st = .ok (st', x)), FLeaf x.2 := by
  intro n
  induction n with
  | zero => intro k st st' x hk; cases hk
  | succ n ih =>
    intro k st st' x hk
    simp only [TreeIter.findLeftmost, bind_ok] at hk
    obtain ⟨v, h1, hk⟩ := hk
    cases v with
    | inner i => exact ih hk
    | leaf l =>
      simp only [pure_ok, Prod.mk.injEq] at hk
      obtain ⟨-, rfl⟩ := hk
      exact (h.nodeU h1).2
    | _ => cases hk

theorem FTree.iterNew {t : Nodes} (h : FTree t) {r : Root} {it : TreeIter} (hk : TreeIter.new t r = .ok it) : FIter it := by
  unfold TreeIter.new at hk
  split at hk
  · simp only [ok_ok] at hk; subst hk; intro x hx; cases hx
  · simp only [bind_ok, pure_ok] at hk
    obtain ⟨⟨st, lf⟩, h1, rfl⟩ := hk
    intro x hx
    cases hx
    exact h.leftmost h1

theorem FTree.iterNext {t : Nodes} (h : FTree t) {it it' : TreeIter} (hi : FIter it) {o : Option (Nat × LeafNode)}
    (hk : it.next t = .ok (o, it')) : FIter it' ∧ ∀ x, o = some x → FLeaf x.2 := by
  unfold TreeIter.next at hk
  split at hk
  · simp only [ok_ok, Prod.mk.injEq] at hk
    obtain ⟨rfl, rfl⟩ := hk
    exact ⟨hi, fun x hx => by cases hx⟩
  · rename_i cur hc
    split at hk
    · simp only [ok_ok, Prod.mk.injEq] at hk
      obtain ⟨rfl, rfl⟩ := hk
      refine ⟨fun x hx => ?_, fun x hx => ?_⟩
      · cases hx
      · cases hx; exact hi _ hc
    · simp only [bind_ok, pure_ok, Prod.mk.injEq] at hk
      obtain ⟨⟨st, lf⟩, h1, rfl, rfl⟩ := hk
      exact ⟨fun x hx => by cases hx; exact h.leftmost h1, fun x hx => by cases hx; exact hi _ hc⟩

theorem FTree.skipLoop {t : Nodes} (h : FTree t) {oracle : Int} {side : Side} : ∀ {n : Nat} {o o' : Option (Nat × LeafNode)}
    {it it' : TreeIter} (_ : FIter it) (_ : ∀ x, o = some x → FLeaf x.2) (_ : SideIter.skipLoop t oracle side n o it = .ok (o', it')),
    FIter it' ∧ ∀ x, o' = some x → FLeaf x.2 := by
  intro n
  induction n with
  | zero => intro o o' it it' _ _ hk; cases hk
  | succ n ih =>
    intro o o' it it' hi ho hk
    cases o with
    | none =>
      simp only [SideIter.skipLoop, ok_ok, Prod.mk.injEq] at hk
      obtain ⟨rfl, rfl⟩ := hk
      exact ⟨hi, ho⟩
    | some x =>
      obtain ⟨k, l⟩ := x
      simp only [SideIter.skipLoop] at hk
      split at hk
      · simp only [ok_ok, Prod.mk.injEq] at hk
        obtain ⟨rfl, rfl⟩ := hk
        exact ⟨hi, ho⟩
      · simp only [bind_ok] at hk
        obtain ⟨⟨o1, it1⟩, h1, hk⟩ := hk
        obtain ⟨q1, q2⟩ := h.iterNext hi h1
        exact ih q1 q2 hk

/-- An item of a walk: a fitting leaf with a price that fits. -/
def FItem (i : IterItem) : Prop := FLeaf i.leaf ∧ inI64 i.priceLots

theorem asI64_in (x : Int) : inI64 (asI64 x) := by
  unfold inI64 asI64 i64Min i64Max
  dsimp only
  split <;> omega

theorem fixedToResult_fits {f : Nat × LeafNode} (hf : FLeaf f.2) {now : Nat} {i : IterItem} (h : fixedToResult f now = .ok i) : FItem i := by
  unfold fixedToResult at h
  simp only [bind_ok, pure_ok] at h
  obtain ⟨p, h1, rfl⟩ := h
  refine ⟨hf, ?_⟩
  unfold fixedPriceLots at h1
  simp only [bind_ok, assertR, req_ok, pure_ok] at h1
  obtain ⟨_, -, rfl⟩ := h1
  exact asI64_in _

theorem oraclePeggedPrice_fits (o : Int) (l : LeafNode) (s : Side) : inI64 (oraclePeggedPrice o l s).2 := by
  have h : inI64 (satAddI64 o (oraclePeggedPriceOffset l.priceData)) := by
    unfold inI64 satAddI64 i64Min i64Max; omega
  unfold oraclePeggedPrice
  dsimp only
  split
  · split <;> exact h
  · dsimp only
    unfold inI64 i64Min i64Max at h ⊢
    omega

theorem rankOrders_fits {s : Side} {f p : Option (Nat × LeafNode)} (hf : ∀ x, f = some x → FLeaf x.2) (hp : ∀ x, p = some x → FLeaf x.2)
    {w : Bool} {now : Nat} {o : Option Int} {i : IterItem} (h : rankOrders s f p w now o = .ok (some i)) : FItem i := by
  have hn : rankOrders s f none w now o = .ok (some i) → FItem i := by
    intro h
    cases f with
    | none => cases o <;> cases h
    | some f =>
      have h' : (fixedToResult f now >>= fun x => pure (some x)) = (.ok (some i) : R (Option IterItem)) := by cases o <;> exact h
      simp only [bind_ok, pure_ok, Option.some.injEq] at h'
      obtain ⟨x, h1, rfl⟩ := h'
      exact fixedToResult_fits (hf _ rfl) h1
  cases p with
  | none => exact hn h
  | some p =>
    cases o with
    | none => exact hn h
    | some o =>
      have hi : FItem (peggedToResult p.1 p.2 (oraclePeggedPrice o p.2 s).2 (oraclePeggedPrice o p.2 s).1 now) :=
        ⟨hp _ rfl, oraclePeggedPrice_fits _ _ _⟩
      cases f with
      | none =>
        have h' : (pure (some (peggedToResult p.1 p.2 (oraclePeggedPrice o p.2 s).2 (oraclePeggedPrice o p.2 s).1 now)) : R _) = .ok (some i) := h
        simp only [pure_ok, Option.some.injEq] at h'
        subst h'; exact hi
      | some f =>
        unfold rankOrders at h
        simp only [bind_ok] at h
        obtain ⟨k, -, h⟩ := h
        split at h <;> split at h
        all_goals first
          | simp only [bind_ok, pure_ok, Option.some.injEq] at h
            obtain ⟨x, h1, rfl⟩ := h
            exact fixedToResult_fits (hf _ rfl) h1
          | simp only [pure_ok, Option.some.injEq] at h
            subst h; exact hi

theorem FTree.sideNext {t : Nodes} (h : FTree t) {now : Nat} {o : Option Int} {it it' : SideIter} (h1 : FIter it.fixedIter)
    (h2 : FIter it.peggedIter) {i : IterItem} (hk : it.next t now o = .ok (some (i, it'))) :
    FItem i ∧ FIter it'.fixedIter ∧ FIter it'.peggedIter := by
  unfold SideIter.next at hk
  simp only [bind_ok] at hk
  obtain ⟨⟨op, pi⟩, h3, x, h4, hk⟩ := hk
  have h5 : FIter pi ∧ ∀ x, op = some x → FLeaf x.2 := by
    cases o with
    | none =>
      simp only [ok_ok, Prod.mk.injEq] at h3
      obtain ⟨rfl, rfl⟩ := h3
      exact ⟨h2, fun x hx => by cases hx⟩
    | some o => exact h.skipLoop h2 h2 h3
  cases x with
  | none => simp [pure_ok] at hk
  | some item =>
    have h6 := rankOrders_fits h1 h5.2 h4
    dsimp only at hk
    split at hk
    · simp only [bind_ok, pure_ok, Option.some.injEq, Prod.mk.injEq] at hk
      obtain ⟨⟨_, f⟩, h7, rfl, rfl⟩ := hk
      exact ⟨h6, (h.iterNext h1 h7).1, h5.1⟩
    · simp only [bind_ok, pure_ok, Option.some.injEq, Prod.mk.injEq] at hk
      obtain ⟨⟨_, f⟩, h7, rfl, rfl⟩ := hk
      exact ⟨h6, h1, (h.iterNext h5.1 h7).1⟩

/-! Book sides -/

structure FSide (b : BookSide) : Prop where
  fixed : FRoot b.rootFixed
  pegged : FRoot b.rootPegged
  tree : FTree b.nodes

theorem FSide.root {b : BookSide} (h : FSide b) (c : Comp) : FRoot (b.root c) := by
  cases c
  · exact h.fixed
  · exact h.pegged

theorem FSide.mk' {b : BookSide} (h : FSide b) {t : Nodes} (ht : FTree t) (c : Comp) {r : Root} (hr : FRoot r) :
    FSide (({ b with nodes := t }).setRoot c r) := by
  cases c
  · exact ⟨hr, h.pegged, ht⟩
  · exact ⟨h.fixed, hr, ht⟩

theorem FSide.iter {b : BookSide} (h : FSide b) {it : SideIter} (hk : b.iter = .ok it) : FIter it.fixedIter ∧ FIter it.peggedIter := by
  unfold BookSide.iter at hk
  simp only [bind_ok, pure_ok] at hk
  obtain ⟨f, h1, p, h2, rfl⟩ := hk
  exact ⟨h.tree.iterNew h1, h.tree.iterNew h2⟩

theorem FSide.insertLeaf {b : BookSide} (h : FSide b) {c : Comp} {l : LeafNode} (hl : FLeaf l) {k : Nat} {o : Option LeafNode} {b' : BookSide}
    (hk : b.insertLeaf c l = .ok (k, o, b')) : FSide b' := by
  unfold BookSide.insertLeaf at hk
  simp only [bind_ok, pure_ok, Prod.mk.injEq] at hk
  obtain ⟨⟨k', o', t, r⟩, h1, rfl, rfl, rfl⟩ := hk
  obtain ⟨a1, a2⟩ := h.tree.insertLeaf (h.root c) hl h1
  exact h.mk' a1 c a2

theorem FSide.removeByKey {b : BookSide} (h : FSide b) {c : Comp} {key : Nat} {l : LeafNode} {b' : BookSide}
    (hk : b.removeByKey c key = .ok (some (l, b'))) : FLeaf l ∧ FSide b' := by
  unfold BookSide.removeByKey at hk
  simp only [bind_ok] at hk
  obtain ⟨o, h1, hk⟩ := hk
  cases o with
  | none => simp [pure_ok] at hk
  | some x =>
    obtain ⟨l', t, r⟩ := x
    simp only [pure_ok, Option.some.injEq, Prod.mk.injEq] at hk
    obtain ⟨rfl, rfl⟩ := hk
    obtain ⟨a1, a2, a3⟩ := h.tree.removeByKey (h.root c) h1
    exact ⟨a1, h.mk' a2 c a3⟩

theorem FSide.removeWorst {b : BookSide} (h : FSide b) {now : Nat} {o : Option Int} {l : LeafNode} {p : Int} {b' : BookSide}
    (hk : b.removeWorst now o = .ok (some (l, p, b'))) : FLeaf l ∧ FSide b' := by
  unfold BookSide.removeWorst at hk
  simp only [bind_ok] at hk
  obtain ⟨wf, -, wp, -, w, -, hk⟩ := hk
  cases w with
  | none => simp [pure_ok] at hk
  | some w =>
    simp only [bind_ok] at hk
    obtain ⟨x, h1, hk⟩ := hk
    cases x with
    | none => simp [pure_ok] at hk
    | some x =>
      obtain ⟨l', b1⟩ := x
      simp only [pure_ok, Option.some.injEq, Prod.mk.injEq] at hk
      obtain ⟨rfl, -, rfl⟩ := hk
      exact h.removeByKey h1

theorem FSide.removeOneExpiredIn {b : BookSide} (h : FSide b) {c : Comp} {now : Nat} {l : LeafNode} {b' : BookSide}
    (hk : b.removeOneExpiredIn c now = .ok (some (l, b'))) : FLeaf l ∧ FSide b' := by
  unfold BookSide.removeOneExpiredIn at hk
  simp only [bind_ok] at hk
  obtain ⟨o, h1, hk⟩ := hk
  cases o with
  | none => simp [pure_ok] at hk
  | some x =>
    obtain ⟨l', t, r⟩ := x
    simp only [pure_ok, Option.some.injEq, Prod.mk.injEq] at hk
    obtain ⟨rfl, rfl⟩ := hk
    obtain ⟨a1, a2, a3⟩ := h.tree.removeOneExpired (h.root c) h1
    exact ⟨a1, h.mk' a2 c a3⟩

theorem FSide.removeOneExpired {b : BookSide} (h : FSide b) {c : Comp} {now : Nat} {l : LeafNode} {b' : BookSide}
    (hk : b.removeOneExpired c now = .ok (some (l, b'))) : FLeaf l ∧ FSide b' := by
  unfold BookSide.removeOneExpired at hk
  simp only [bind_ok] at hk
  obtain ⟨o, h1, hk⟩ := hk
  cases o with
  | none => exact h.removeOneExpiredIn hk
  | some x =>
    simp only [pure_ok, Option.some.injEq] at hk
    subst hk
    exact h.removeOneExpiredIn h1

theorem FSide.setQuantity {b : BookSide} (h : FSide b) {k : Nat} {q : Int} (hq : inI64 q) {b' : BookSide} (hk : b.setQuantity k q = .ok b') :
    FSide b' := by
  unfold BookSide.setQuantity at hk
  simp only [bind_ok] at hk
  obtain ⟨v, h1, hk⟩ := hk
  have h2 := (h.tree.nodeU h1).2
  cases v with
  | leaf l =>
    simp only [pure_ok] at hk
    subst hk
    obtain ⟨⟨a1, a2, a3, a4, a5, a6⟩, a7⟩ := h2
    exact ⟨h.fixed, h.pegged, h.tree.set k (n := .leaf { l with quantity := q }) ⟨⟨a1, a2, a3, a4, hq, a6⟩, a7⟩⟩
  | _ => cases hk

theorem FSide.empty (s : Side) : FSide (BookSide.empty s) :=
  ⟨by show 0 < 2 ^ 32; decide, by show 0 < 2 ^ 32; decide, by show 0 ≤ 1024; decide, by show 0 < 2 ^ 32; decide, fun _ => trivial⟩

end OB
