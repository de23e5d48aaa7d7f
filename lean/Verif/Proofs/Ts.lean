import Verif.Spec.Ts
import Verif.Proofs.Match
import Verif.Proofs.Basic
/-! The TypeScript library reads what the program has stored. -/
namespace OB.Ts
open OB.Layout OB.Spec

theorem le_length (k n : Nat) : (le k n).length = k := by
  induction k generalizing n with
  | zero => rfl
  | succ k ih => simp [le, ih]

theorem zeros_length (k : Nat) : (zeros k).length = k := by simp [zeros]

theorem unle_le (k n : Nat) (h : n < 256 ^ k) : unle (le k n) = n := by
  induction k generalizing n with
  | zero => simp at h; subst h; rfl
  | succ k ih =>
    rw [le, unle, ih (n / 256) (by rw [Nat.div_lt_iff_lt_mul (by decide)]; rw [Nat.pow_succ] at h; exact h)]
    have : (UInt8.ofNat (n % 256)).toNat = n % 256 := by
      rw [UInt8.toNat_ofNat']; omega
    rw [this]; omega

theorem take_at (A B : Bytes) (n : Nat) (h : A.length = n) : (A ++ B).take n = A := by subst h; simp

theorem drop_at (A B : Bytes) (n : Nat) (h : A.length = n) : (A ++ B).drop n = B := by subst h; simp

theorem drop_past (A B : Bytes) (n k : Nat) (h : A.length = k) : (A ++ B).drop (k + n) = B.drop n := by
  subst h; rw [← List.drop_drop]; simp

theorem field_le (k n : Nat) (r : Bytes) (h : n < 256 ^ k) : field k (le k n ++ r) = .ok (n, r) := by
  unfold field
  rw [if_pos (by simp [le_length]), take_at _ _ _ (le_length k n), drop_at _ _ _ (le_length k n), unle_le k n h]

theorem field_skip (k : Nat) (A r : Bytes) (h : A.length = k) : field k (A ++ r) = .ok (unle A, r) := by
  unfold field
  rw [if_pos (by simp [h]), take_at _ _ _ h, drop_at _ _ _ h]

theorem readUInt_at (k n off : Nat) (A r : Bytes) (ha : A.length = off) (h : n < 256 ^ k) : readUInt k (A ++ (le k n ++ r)) off = .ok n := by
  unfold readUInt
  rw [if_pos (by simp [ha, le_length]), drop_at _ _ _ ha, take_at _ _ _ (le_length k n), unle_le k n h]

/-! ### nodes -/

theorem innerBytes_length (i : InnerNode) : (innerBytes i).length = 88 := by simp [innerBytes, le_length, zeros_length]
theorem leafBytes_length (l : LeafNode) : (leafBytes l).length = 88 := by simp [leafBytes, leI64, le_length, zeros_length]
theorem freeBytes_length (t n : Nat) : (freeBytes t n).length = 88 := by simp [freeBytes, le_length, zeros_length]

theorem nodeBytes_length (n : AnyNode) : (nodeBytes n).length = 88 := by
  cases n
  · exact zeros_length 88
  · exact innerBytes_length _
  · exact leafBytes_length _
  · exact freeBytes_length _ _
  · exact freeBytes_length _ _

theorem toInner_bytes (tag : Nat) (i : InnerNode) (h : nodeFits (.inner i)) : toInnerNode ⟨tag, innerBytes i⟩ = .ok i := by
  obtain ⟨h1, h2, h3, h4, h5, h6⟩ := h
  unfold toInnerNode innerBytes
  simp only
  rw [field_le 1 1 _ (by decide)]
  simp only [bind, Except.bind]
  rw [field_skip 3 _ _ (zeros_length 3)]
  simp only
  rw [field_le 4 _ _ (by simpa using h1)]
  simp only
  rw [field_le 16 _ _ (by simpa using h2)]
  simp only
  rw [field_le 4 _ _ (by simpa using h3)]
  simp only
  rw [field_le 4 _ _ (by simpa using h4)]
  simp only
  rw [field_le 8 _ _ (by simpa using h5)]
  simp only
  rw [field_le 8 _ _ (by simpa using h6)]
  simp only
  rw [show zeros 40 = zeros 40 ++ [] from (List.append_nil _).symm, field_skip 40 _ _ (zeros_length 40)]
  rfl

theorem asI64_asU64 {x : Int} (h : i64Min ≤ x ∧ x ≤ i64Max) : asI64 ((asU64 x).toNat : Int) = x := by
  obtain ⟨h1, h2⟩ := h
  unfold i64Min at h1
  unfold i64Max at h2
  unfold asI64 asU64 i64Max
  have : (0 : Int) ≤ x % 18446744073709551616 := by omega
  rw [Int.toNat_of_nonneg this]
  simp only
  split <;> omega

theorem asU64_fits (x : Int) : (asU64 x).toNat < 256 ^ 8 := by
  unfold asU64
  have : x % 18446744073709551616 < 18446744073709551616 := by omega
  have : (0 : Int) ≤ x % 18446744073709551616 := by omega
  omega

theorem toLeaf_bytes (tag : Nat) (l : LeafNode) (h : nodeFits (.leaf l)) : toLeafNode ⟨tag, leafBytes l⟩ = .ok l := by
  obtain ⟨h1, h2, h3, h4, h5, h6, h7, h8⟩ := h
  unfold toLeafNode leafBytes leI64
  simp only
  rw [field_le 1 2 _ (by decide)]
  simp only [bind, Except.bind]
  rw [field_le 1 _ _ (by simpa using h1)]
  simp only
  rw [field_le 2 _ _ (by simpa using h2)]
  simp only
  rw [field_skip 4 _ _ (zeros_length 4)]
  simp only
  rw [field_le 16 _ _ (by simpa using h3)]
  simp only
  rw [field_le 32 _ _ (by simpa using h4)]
  simp only
  rw [field_le 8 _ _ (asU64_fits _)]
  simp only
  rw [field_le 8 _ _ (by simpa using h6)]
  simp only
  rw [field_le 8 _ _ (asU64_fits _)]
  simp only
  rw [show le 8 l.clientOrderId = le 8 l.clientOrderId ++ [] from (List.append_nil _).symm, field_le 8 _ _ (by simpa using h8)]
  simp only [asI64_asU64 h5, asI64_asU64 h7]
  rfl

/-- The tag of a node. -/
def tagOf : AnyNode → Nat
  | .uninit => 0
  | .inner _ => 1
  | .leaf _ => 2
  | .free _ => 3
  | .lastFree _ => 4

theorem tag_bytes (n : AnyNode) : ∃ r, nodeBytes n = le 1 (tagOf n) ++ r := by
  cases n
  · exact ⟨zeros 87, rfl⟩
  · exact ⟨_, rfl⟩
  · exact ⟨_, rfl⟩
  · exact ⟨_, rfl⟩
  · exact ⟨_, rfl⟩

theorem tagOf_lt (n : AnyNode) : tagOf n < 256 := by cases n <;> simp [tagOf]

/-- The entry that the library makes of a node. -/
def entry (n : AnyNode) : NodeAcct := ⟨tagOf n, nodeBytes n⟩

theorem decodeNodes_spec (ns : List AnyNode) (A : Bytes) (off : Nat) (ha : A.length = off) :
    decodeNodes (A ++ ns.flatMap nodeBytes) ns.length off = .ok (ns.map entry) := by
  induction ns generalizing A off with
  | nil => rfl
  | cons n ns ih =>
    rw [List.length_cons, decodeNodes, List.flatMap_cons]
    have h1 : readUInt 1 (A ++ (nodeBytes n ++ ns.flatMap nodeBytes)) off = .ok (tagOf n) := by
      obtain ⟨r, hr⟩ := tag_bytes n
      rw [hr, List.append_assoc]
      exact readUInt_at 1 _ _ _ _ ha (by simpa using tagOf_lt n)
    have h2 := ih (A ++ nodeBytes n) (off + 88) (by simp [ha, nodeBytes_length])
    rw [List.append_assoc] at h2
    rw [h1, h2]
    have h3 : subarray (A ++ (nodeBytes n ++ ns.flatMap nodeBytes)) off (off + 88) = nodeBytes n := by
      unfold subarray
      rw [drop_at _ _ _ ha, take_at _ _ _ (by rw [nodeBytes_length]; omega)]
    rw [h3]
    rfl

/-- What the library makes of a book side. -/
def acctOf (b : OB.BookSide) : SideAcct :=
  { roots := (⟨b.rootFixed.maybeNode, b.rootFixed.leafCount⟩, ⟨b.rootPegged.maybeNode, b.rootPegged.leafCount⟩),
    orderTreeType := sideTag b.nodes.side, bumpIndex := b.nodes.bumpIndex, freeListLen := b.nodes.freeListLen,
    freeListHead := b.nodes.freeListHead, nodes := (List.range maxOrderTreeNodes).map (fun i => entry (b.nodes.nodes i)) }

theorem decodeRoot_spec (r : Root) (X : Bytes) (h : r.maybeNode < 2 ^ 32 ∧ r.leafCount < 2 ^ 32) :
    decodeRoot (rootBytes r ++ X) = .ok ⟨r.maybeNode, r.leafCount⟩ := by
  unfold decodeRoot rootBytes
  rw [List.append_assoc]
  have h1 := readUInt_at 4 r.maybeNode 0 [] (le 4 r.leafCount ++ X) rfl (by simpa using h.1)
  have h2 := readUInt_at 4 r.leafCount 4 (le 4 r.maybeNode) X (le_length _ _) (by simpa using h.2)
  rw [List.nil_append] at h1
  rw [h1, h2]
  rfl

theorem decode_spec (b : OB.BookSide) (disc : Bytes) (hd : disc.length = 8) (h : SideFits b) :
    decodeAccountFromBuffer (bookSideBytes disc b) = .ok (acctOf b) := by
  unfold decodeAccountFromBuffer bookSideBytes
  have hn := decodeNodes_spec ((List.range maxOrderTreeNodes).map b.nodes.nodes)
  simp only [List.length_map, List.length_range, List.flatMap_map, List.map_map] at hn
  generalize hN : (List.range maxOrderTreeNodes).flatMap (fun i => nodeBytes (b.nodes.nodes i)) = N at hn ⊢
  have root0 := decodeRoot_spec b.rootFixed
  have root1 := decodeRoot_spec b.rootPegged
  have rl : ∀ r : Root, (rootBytes r).length = 8 := fun r => by simp [rootBytes, le_length]
  rw [drop_at _ _ _ hd, root0 _ h.fixed]
  simp only [bind, Except.bind]
  rw [show (16 : Nat) = 8 + 8 from rfl, drop_past _ _ _ _ hd, drop_at _ _ _ (rl _), root1 _ h.pegged]
  simp only
  have st : sideTag b.nodes.side < 256 ^ 1 := by cases b.nodes.side <;> decide
  have r1 := readUInt_at 1 (sideTag b.nodes.side) 312
    (disc ++ (rootBytes b.rootFixed ++ (rootBytes b.rootPegged ++ (zeros 32 ++ zeros 256))))
    (zeros 3 ++ (le 4 b.nodes.bumpIndex ++ (le 4 b.nodes.freeListLen ++ (le 4 b.nodes.freeListHead ++ (zeros 512 ++ N)))))
    (by simp only [List.length_append, zeros_length, rl, hd]) st
  have r2 := readUInt_at 4 b.nodes.bumpIndex 316
    (disc ++ (rootBytes b.rootFixed ++ (rootBytes b.rootPegged ++ (zeros 32 ++ (zeros 256 ++ (le 1 (sideTag b.nodes.side) ++ zeros 3))))))
    (le 4 b.nodes.freeListLen ++ (le 4 b.nodes.freeListHead ++ (zeros 512 ++ N)))
    (by simp only [List.length_append, zeros_length, rl, hd, le_length]) (by simpa using h.bump)
  have r3 := readUInt_at 4 b.nodes.freeListLen 320
    (disc ++ (rootBytes b.rootFixed ++ (rootBytes b.rootPegged ++ (zeros 32 ++ (zeros 256 ++ (le 1 (sideTag b.nodes.side) ++ (zeros 3 ++
      le 4 b.nodes.bumpIndex)))))))
    (le 4 b.nodes.freeListHead ++ (zeros 512 ++ N))
    (by simp only [List.length_append, zeros_length, rl, hd, le_length]) (by simpa using h.freeLen)
  have r4 := readUInt_at 4 b.nodes.freeListHead 324
    (disc ++ (rootBytes b.rootFixed ++ (rootBytes b.rootPegged ++ (zeros 32 ++ (zeros 256 ++ (le 1 (sideTag b.nodes.side) ++ (zeros 3 ++
      (le 4 b.nodes.bumpIndex ++ le 4 b.nodes.freeListLen))))))))
    (zeros 512 ++ N)
    (by simp only [List.length_append, zeros_length, rl, hd, le_length]) (by simpa using h.freeHead)
  have r5 := hn
    (disc ++ (rootBytes b.rootFixed ++ (rootBytes b.rootPegged ++ (zeros 32 ++ (zeros 256 ++ (le 1 (sideTag b.nodes.side) ++ (zeros 3 ++
      (le 4 b.nodes.bumpIndex ++ (le 4 b.nodes.freeListLen ++ (le 4 b.nodes.freeListHead ++ zeros 512)))))))))) 840
    (by simp only [List.length_append, zeros_length, rl, hd, le_length])
  simp only [List.append_assoc] at r1 r2 r3 r4 r5
  simp only [Nat.reduceAdd]
  rw [r1]
  simp only
  rw [r2]
  simp only
  rw [r3]
  simp only
  rw [r4]
  simp only
  rw [show (1024 : Nat) = maxOrderTreeNodes from rfl, r5]
  rfl

/-! ### the trees -/

/-- The order that the library shows for a leaf. -/
def shown (x : BookSide) (l : LeafNode) : Order :=
  { leaf := l, isExpired := x.expired l, seqNum := seqNo x.side l, priceLots := (l.key / 2 ^ 64 : Nat) }

theorem newOrder_fixed (x : BookSide) (l : LeafNode) : newOrder x.side l (x.expired l) false = .ok (shown x l) := by
  unfold newOrder shown seqNo
  have : l.key % 2 ^ 64 < 2 ^ 64 := Nat.mod_lt _ (by decide)
  cases x.side with
  | bid =>
    simp only [Bool.false_eq_true, if_false, Except.ok.injEq, Order.mk.injEq, true_and, and_true]
    unfold u64Max
    omega
  | ask => rfl

theorem acctOf_node {b : OB.BookSide} {i : Nat} (h : i < maxOrderTreeNodes) : (acctOf b).nodes[i]? = some (entry (b.nodes.nodes i)) := by
  simp [acctOf, h]

theorem loop_fixed {b : OB.BookSide} {x : BookSide} (hx : x.account = acctOf b) (hf : ∀ i < maxOrderTreeNodes, nodeFits (b.nodes.nodes i))
    (tr : T) (hg : Good b.nodes tr) (m : Nat) (stack : List Nat) :
    x.loop false (tr.hs.length + m) (tr.handle :: stack) =
      (do let rest ← x.loop false m stack; return (tr.ord x.side).map (fun y => shown x y.2) ++ rest : Js (List Order)) := by
  induction tr generalizing m stack with
  | leaf h l =>
    have hlt : h < maxOrderTreeNodes := hg.2.1 h (by simp [T.hs, T.handle])
    have hn : b.nodes.nodes h = .leaf l := hg.1
    have hfit := hf h hlt
    rw [hn] at hfit
    rw [show (T.leaf h l).hs.length + m = m + 1 from by simp [T.hs, T.subHs]; omega, T.handle, BookSide.loop, hx, acctOf_node hlt, hn]
    simp only [entry, tagOf, nodeBytes]
    rw [if_neg (by decide), if_pos trivial, toLeaf_bytes _ _ hfit]
    simp only [bind, Except.bind]
    rw [newOrder_fixed]
    simp only
    cases x.loop false m stack with
    | error e => rfl
    | ok rest => cases hs : x.side <;> simp [T.ord, T.leaves, pure, Except.pure]
  | node h p k a c iha ihc =>
    have hlt : h < maxOrderTreeNodes := hg.2.1 h (by simp [T.hs, T.handle])
    have hn : b.nodes.nodes h = .inner ⟨p, k, a.handle, c.handle, a.minExp, c.minExp⟩ := hg.1.1
    have hfit := hf h hlt
    rw [hn] at hfit
    obtain ⟨ga, gc⟩ := hg.sub
    rw [show (T.node h p k a c).hs.length + m = (a.hs.length + (c.hs.length + m)) + 1 from by
      rw [T.hs_node]; simp only [List.length_cons, List.length_append]; omega, T.handle, BookSide.loop, hx, acctOf_node hlt, hn]
    simp only [entry, tagOf, nodeBytes]
    rw [if_pos trivial, toInner_bytes _ _ hfit]
    simp only [bind, Except.bind]
    cases hs : x.side with
    | bid =>
      simp only
      rw [show a.hs.length + (c.hs.length + m) = c.hs.length + (a.hs.length + m) from by omega, ihc gc, iha ga, hs]
      cases x.loop false m stack with
      | error e => rfl
      | ok rest => simp [T.ord, T.leaves, pure, Except.pure, bind, Except.bind]
    | ask =>
      simp only
      rw [iha ga, ihc gc, hs]
      cases x.loop false m stack with
      | error e => rfl
      | ok rest => simp [T.ord, T.leaves, pure, Except.pure, bind, Except.bind]

theorem loop_pegged {b : OB.BookSide} {x : BookSide} (hx : x.account = acctOf b) (hf : ∀ i < maxOrderTreeNodes, nodeFits (b.nodes.nodes i))
    (tr : T) (hg : Good b.nodes tr) (m : Nat) (stack : List Nat) :
    x.loop true (tr.hs.length + m) (tr.handle :: stack) = .error .notImplemented := by
  induction tr generalizing m stack with
  | leaf h l =>
    have hlt : h < maxOrderTreeNodes := hg.2.1 h (by simp [T.hs, T.handle])
    have hn : b.nodes.nodes h = .leaf l := hg.1
    have hfit := hf h hlt
    rw [hn] at hfit
    rw [show (T.leaf h l).hs.length + m = m + 1 from by simp [T.hs, T.subHs]; omega, T.handle, BookSide.loop, hx, acctOf_node hlt, hn]
    simp only [entry, tagOf, nodeBytes]
    rw [if_neg (by decide), if_pos trivial, toLeaf_bytes _ _ hfit]
    rfl
  | node h p k a c iha ihc =>
    have hlt : h < maxOrderTreeNodes := hg.2.1 h (by simp [T.hs, T.handle])
    have hn : b.nodes.nodes h = .inner ⟨p, k, a.handle, c.handle, a.minExp, c.minExp⟩ := hg.1.1
    have hfit := hf h hlt
    rw [hn] at hfit
    obtain ⟨ga, gc⟩ := hg.sub
    rw [show (T.node h p k a c).hs.length + m = (a.hs.length + (c.hs.length + m)) + 1 from by
      rw [T.hs_node]; simp only [List.length_cons, List.length_append]; omega, T.handle, BookSide.loop, hx, acctOf_node hlt, hn]
    simp only [entry, tagOf, nodeBytes]
    rw [if_pos trivial, toInner_bytes _ _ hfit]
    simp only [bind, Except.bind]
    cases hs : x.side with
    | bid =>
      simp only
      rw [show a.hs.length + (c.hs.length + m) = c.hs.length + (a.hs.length + m) from by omega]
      exact ihc gc _ _
    | ask =>
      simp only
      exact iha ga _ _

end OB.Ts
