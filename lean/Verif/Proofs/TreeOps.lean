import Verif.Proofs.TreeRep
/-! Insertion into and removal from the crit-bit tree. -/
namespace OB

/-- The slab holds the tree `tr`; `o` are the other handles in use. -/
structure TreeOk (t : Nodes) (tr : T) (o : List Nat) : Prop where
  slab : Slab t (tr.hs ++ o)
  rep : Rep t.nodes tr
  wf : WF tr

theorem mem_ctx_disjoint {t : Nodes} {c : Ctx} {sub : T} {o : List Nat} (hs : Slab t ((plug c sub).hs ++ o)) :
    (sub.hs ++ (ctxHs c ++ o)).Nodup := by
  have h1 : ((plug c sub).hs ++ o).Perm (sub.hs ++ (ctxHs c ++ o)) := by
    rw [← List.append_assoc]; exact (plug_hs c sub).append_right o
  exact h1.nodup_iff.mp hs.nodup

theorem plug_slab {t : Nodes} {c : Ctx} {sub : T} {o : List Nat} :
    Slab t ((plug c sub).hs ++ o) ↔ Slab t (sub.hs ++ (ctxHs c ++ o)) := by
  have h1 : ((plug c sub).hs ++ o).Perm (sub.hs ++ (ctxHs c ++ o)) := by
    rw [← List.append_assoc]; exact (plug_hs c sub).append_right o
  exact ⟨fun h => h.perm h1, fun h => h.perm h1.symm⟩

theorem splitAt_spec {t : Nodes} {c : Ctx} {sub : T} {o : List Nat} (r : Root) {leaf : LeafNode} {shared : Nat}
    (ht : TreeOk t (plug c sub) o) (hk : leaf.key < 2 ^ 128) (hc : Compat c leaf.key) (hsh : shared ≤ 127)
    (hsub : ∀ l ∈ sub.lvs, Share shared l.key leaf.key ∧ critBit shared l.key = !critBit shared leaf.key) :
    (t.avail < 2 ∧ t.splitAt r leaf sub.handle sub.any shared (ctxStack c) = .error .someError) ∨
    ∃ h t' tr', t.splitAt r leaf sub.handle sub.any shared (ctxStack c) = .ok (h, t', { r with leafCount := r.leafCount + 1 }) ∧
      TreeOk t' tr' o ∧ tr'.lvs.Perm (leaf :: (plug c sub).lvs) ∧ tr'.handle = (plug c sub).handle ∧
      (∀ x ∈ o, t'.nodes x = t.nodes x) ∧ t'.side = t.side := by
  obtain ⟨hslab, hrep, hwf⟩ := ht
  have hslab' := plug_slab.mp hslab
  unfold Nodes.splitAt
  rw [show assertR (shared ≤ 127) = .ok () from req_true hsh]
  simp only [ok_bind]
  rcases insert_spec hslab' (.leaf leaf) with ⟨h0, herr⟩ | ⟨lh, t1, g1, g2, g3, g4, g5, g6⟩
  · left; refine ⟨by omega, ?_⟩; rw [herr]; rfl
  rw [g1]; simp only [ok_bind]
  rcases insert_spec g3 sub.any with ⟨h0, herr⟩ | ⟨mh, t2, k1, k2, k3, k4, k5, k6⟩
  · left; refine ⟨by omega, ?_⟩; rw [herr]; rfl
  right
  rw [k1]; simp only [ok_bind]
  obtain ⟨hrs, hrc⟩ := (plug_rep c sub).mp hrep
  -- basic disjointness
  have hnd := k3.nodup
  simp only [T.hs, List.cons_append, List.nodup_cons, List.mem_cons, List.mem_append, not_or] at hnd
  obtain ⟨⟨m1, m2, m3, m4, m5⟩, ⟨l2, l3, l4, l5⟩, ⟨p3, p4, p5⟩, hnd'⟩ := hnd
  have n2 : ∀ x, x ≠ lh → x ≠ mh → t2.nodes x = t.nodes x := by
    intro x h1 h2; rw [k4]; simp only [Nodes.set, h2, if_false]; rw [g4]; simp [Nodes.set, h1]
  have hplt : sub.handle < maxOrderTreeNodes := hslab'.lt (by simp [T.hs])
  have hp2 : t2.nodes sub.handle = sub.any := by rw [n2 _ (fun h => l2 h.symm) (fun h => m2 h.symm)]; exact hrs.any
  rw [nodeU_tree hplt (by rw [hp2]; exact sub.any_isTree), T.any_expiry]
  simp only [ok_bind]
  -- the new subtree
  let moved := sub.setHandle mh
  let nl := T.leaf lh leaf
  let sub' := if critBit shared leaf.key then T.node sub.handle shared leaf.key moved nl
    else T.node sub.handle shared leaf.key nl moved
  have hhd' : sub'.handle = sub.handle := by simp only [sub']; split <;> rfl
  have hme' : sub'.minExp = min leaf.expiry sub.minExp := by
    simp only [sub', moved, nl]; split <;> simp [T.minExp, Nat.min_comm]
  have hlv' : sub'.lvs.Perm (leaf :: sub.lvs) := by
    simp only [sub', moved, nl]; split
    · simp
    · simp
  have hhs' : sub'.hs.Perm (mh :: lh :: sub.hs) := by
    have hm : moved.hs = mh :: sub.subHs := by simp [moved, T.hs]
    simp only [sub']; split
    · rw [T.hs_node, hm]
      show (sub.handle :: (mh :: sub.subHs ++ [lh])).Perm (mh :: lh :: sub.handle :: sub.subHs)
      refine List.Perm.trans (l₂ := sub.handle :: mh :: lh :: sub.subHs) ?_ ?_
      · refine List.Perm.cons _ ?_
        rw [List.cons_append]
        refine List.Perm.cons _ ?_
        exact List.perm_append_singleton _ _
      · refine (List.Perm.swap _ _ _).trans (List.Perm.cons _ (List.Perm.swap _ _ _))
    · rw [T.hs_node, hm]
      show (sub.handle :: ([lh] ++ mh :: sub.subHs)).Perm (mh :: lh :: sub.handle :: sub.subHs)
      simp only [List.cons_append, List.nil_append]
      refine List.Perm.trans (l₂ := mh :: sub.handle :: lh :: sub.subHs) ?_ ?_
      · exact (List.Perm.cons _ (List.Perm.swap _ _ _)).trans (List.Perm.swap _ _ _)
      · exact List.Perm.cons _ (List.Perm.swap _ _ _)
  -- t3
  let inner : InnerNode :=
    { prefixLen := shared, key := leaf.key, child0 := if critBit shared leaf.key then mh else lh,
      child1 := if critBit shared leaf.key then lh else mh,
      exp0 := if critBit shared leaf.key then sub.minExp else leaf.expiry,
      exp1 := if critBit shared leaf.key then leaf.expiry else sub.minExp }
  let t3 := t2.set sub.handle (.inner inner)
  have n3 : ∀ x, x ≠ lh → x ≠ mh → x ≠ sub.handle → t3.nodes x = t.nodes x := by
    intro x h1 h2 h3; simp only [t3, Nodes.set, h3, if_false]; exact n2 x h1 h2
  have hslab3 : Slab t3 (sub'.hs ++ (ctxHs c ++ o)) := by
    have h1 : Slab t3 (mh :: lh :: (sub.hs ++ (ctxHs c ++ o))) := k3.set (by simp [T.hs]) _
    refine h1.perm ?_
    have := hhs'.append_right (ctxHs c ++ o)
    simp only [List.cons_append] at this
    exact this.symm
  have hrmoved : Rep t3.nodes moved := by
    refine hrs.move ?_ ?_
    · simp only [t3, Nodes.set, fun h => m2 h, if_false]; rw [k4]; simp [Nodes.set]
    · intro x hx
      refine n3 x ?_ ?_ ?_
      · rintro rfl; exact l3 hx
      · rintro rfl; exact m3 hx
      · rintro rfl; exact p3 hx
  have hrnl : Rep t3.nodes nl := by
    show t3.nodes lh = .leaf leaf
    simp only [t3, Nodes.set, fun h => l2 h, if_false]
    have hne1 : lh ≠ mh := fun h => m1 h.symm
    rw [k4]; simp only [Nodes.set, hne1, if_false]
    rw [g4]; simp [Nodes.set]
  have hrsub' : Rep t3.nodes sub' := by
    simp only [sub']
    split
    · rename_i hb
      refine ⟨?_, hrmoved, hrnl⟩
      have e1 : moved.handle = mh := by simp [moved]
      have e2 : moved.minExp = sub.minExp := by simp [moved]
      rw [e1, e2]
      simp [t3, Nodes.set, inner, hb, nl, T.handle, T.minExp]
    · rename_i hb
      refine ⟨?_, hrnl, hrmoved⟩
      have e1 : moved.handle = mh := by simp [moved]
      have e2 : moved.minExp = sub.minExp := by simp [moved]
      rw [e1, e2]
      simp [t3, Nodes.set, inner, hb, nl, T.handle, T.minExp]
  have hrc3 : RepCtx t3.nodes c sub.handle sub.minExp := by
    refine hrc.congr ?_
    intro x hx
    refine n3 x ?_ ?_ ?_
    · rintro rfl; exact l4 hx
    · rintro rfl; exact m4 hx
    · rintro rfl; exact p4 hx
  have hwfsub := WF.unplug hwf
  have hwf' : WF (plug c sub') := by
    refine WF.replace hwf ?_ ?_
    · simp only [sub']
      split
      · rename_i hb
        refine ⟨hsh, hk, ?_, ?_, hwfsub.setHandle mh, hk⟩
        · intro l hl
          have := hsub l (by simpa [moved] using hl)
          rw [hb] at this; simpa using this
        · intro l hl
          simp [nl] at hl; subst hl; exact ⟨Share.refl _ _, hb⟩
      · rename_i hb
        simp only [Bool.not_eq_true] at hb
        refine ⟨hsh, hk, ?_, ?_, hk, hwfsub.setHandle mh⟩
        · intro l hl
          simp [nl] at hl; subst hl; exact ⟨Share.refl _ _, hb⟩
        · intro l hl
          have := hsub l (by simpa [moved] using hl)
          rw [hb] at this; simpa using this
    · intro l' hl'
      rcases List.mem_cons.mp (hlv'.mem_iff.mp hl') with rfl | h1
      · exact .inr hc
      · exact .inl ⟨l', h1, rfl⟩
  have hlvf : (plug c sub').lvs.Perm (leaf :: (plug c sub).lvs) := by
    refine (plug_lvs c sub').trans ?_
    refine (hlv'.append_right _).trans ?_
    rw [List.cons_append]
    exact List.Perm.cons _ (plug_lvs c sub).symm
  have hcn : (ctxHs c).Nodup := (List.nodup_append.mp (List.nodup_append.mp hslab'.nodup).2.1).1
  have hclt : ∀ x ∈ ctxHs c, x < maxOrderTreeNodes := fun x hx => hslab'.lt (by simp [hx])
  have hfin : ∃ t4, (if leaf.expiry < sub.minExp then t3.updateParentEarliestExpiry (ctxStack c) sub.minExp leaf.expiry
      else .ok t3) = .ok t4 ∧ RepCtx t4.nodes c sub'.handle sub'.minExp ∧ (∀ x, x ∉ ctxHs c → t4.nodes x = t3.nodes x) ∧
      SameHdr t3 t4 := by
    rw [hhd', hme']
    by_cases hlt : leaf.expiry < sub.minExp
    · rw [if_pos hlt, Nat.min_eq_left (by omega)]
      exact update_spec leaf.expiry hrc3 hcn hclt
    · rw [if_neg hlt, Nat.min_eq_right (by omega)]
      exact ⟨t3, rfl, hrc3, fun _ _ => rfl, rfl, rfl, rfl, rfl⟩
  obtain ⟨t4, q1, q2, q3, q4⟩ := hfin
  have hdisj := List.nodup_append.mp hslab3.nodup
  have hdisj2 := List.nodup_append.mp hdisj.2.1
  refine ⟨lh, t4, plug c sub', ?_, ⟨?_, ?_, hwf'⟩, hlvf, plug_handle c _ _ hhd', ?_, ?_⟩
  · by_cases hlt : leaf.expiry < sub.minExp
    · rw [if_pos hlt] at q1 ⊢
      simp only [t3, inner] at q1
      rw [q1]; rfl
    · rw [if_neg hlt] at q1 ⊢
      injection q1 with q1
      rw [← q1]; rfl
  · rw [plug_slab]
    refine hslab3.congr q4 ?_
    intro x hx
    exact q3 x (fun hm => hx (by simp [hm]))
  · rw [plug_rep]
    refine ⟨hrsub'.congr ?_, q2⟩
    intro x hx
    exact q3 x (fun hm => hdisj.2.2 x hx x (by simp [hm]) rfl)
  · intro x hx
    rw [q3 x (fun hm => hdisj2.2.2 x hm x hx rfl)]
    refine n3 x ?_ ?_ ?_
    · rintro rfl; exact l5 hx
    · rintro rfl; exact m5 hx
    · rintro rfl; exact p5 hx
  · rw [q4.1]; show t2.side = _; rw [k5, g5]

theorem walkDown_ok {p k c0 c1 e0 e1 key : Nat} (hp : p ≤ 127) :
    (InnerNode.mk p k c0 c1 e0 e1).walkDown key = .ok (if critBit p key then c1 else c0, critBit p key) := by
  unfold InnerNode.walkDown
  rw [show assertR ((InnerNode.mk p k c0 c1 e0 e1).prefixLen ≤ 127) = .ok () from req_true hp]
  rfl

/-- Outcome of inserting `leaf` in the tree `tr`. -/
def InsertOk (t : Nodes) (tr : T) (o : List Nat) (r : Root) (leaf : LeafNode)
    (res : R (Nat × Option LeafNode × Nodes × Root)) : Prop :=
  (t.avail < 2 ∧ res = .error .someError) ∨
  ∃ h t' tr', res = .ok (h, none, t', { r with leafCount := r.leafCount + 1 }) ∧
    TreeOk t' tr' o ∧ tr'.lvs.Perm (leaf :: tr.lvs) ∧ tr'.handle = tr.handle ∧
    (∀ x ∈ o, t'.nodes x = t.nodes x) ∧ t'.side = t.side

theorem insertLoop_spec {t : Nodes} {o : List Nat} (r : Root) {leaf : LeafNode} (n : Nat) (c : Ctx) (sub : T)
    (ht : TreeOk t (plug c sub) o) (hk : leaf.key < 2 ^ 128) (hc : Compat c leaf.key)
    (hfresh : ∀ l ∈ sub.lvs, l.key ≠ leaf.key) (hn : sub.height ≤ n) :
    InsertOk t (plug c sub) o r leaf (Nodes.insertLoop r leaf n t sub.handle (ctxStack c)) := by
  induction n generalizing c sub with
  | zero => cases sub <;> simp [T.height] at hn
  | succ n ih =>
    obtain ⟨hrs, hrc⟩ := (plug_rep c sub).mp ht.rep
    have hplt : sub.handle < maxOrderTreeNodes := (plug_slab.mp ht.slab).lt (by simp [T.hs])
    have hwfs := WF.unplug ht.wf
    rw [Nodes.insertLoop, nodeU_tree hplt (by rw [hrs.any]; exact sub.any_isTree), hrs.any]
    have lift : ∀ {shared : Nat}, shared ≤ 127 →
        (∀ l ∈ sub.lvs, Share shared l.key leaf.key ∧ critBit shared l.key = !critBit shared leaf.key) →
        InsertOk t (plug c sub) o r leaf (do
          let (h, t', r') ← t.splitAt r leaf sub.handle sub.any shared (ctxStack c)
          return (h, none, t', r')) := by
      intro shared h1 h2
      rcases splitAt_spec r ht hk hc h1 h2 with ⟨g1, g2⟩ | ⟨h, t', tr', g1, g2⟩
      · left; refine ⟨g1, ?_⟩; rw [g2]; rfl
      · right; refine ⟨h, t', tr', ?_, g2⟩; rw [g1]; rfl
    cases sub with
    | leaf h old =>
      have hne : old.key ≠ leaf.key := hfresh old (by simp)
      simp only [T.any, ok_bind, hne, if_false]
      obtain ⟨q1, q2, q3⟩ := leadingZeros_ne (show old.key < 2 ^ 128 from hwfs) hk hne
      refine lift q1 ?_
      intro l hl
      simp at hl; subst hl
      exact ⟨q2, q3⟩
    | node h p k a b =>
      obtain ⟨w1, w2, w3, w4, w5, w6⟩ := hwfs
      simp only [T.any, ok_bind]
      by_cases hge : leadingZeros (k ^^^ leaf.key) ≥ p
      · rw [if_pos hge, walkDown_ok w1]
        simp only [ok_bind]
        have hshare := (leadingZeros_share w2 hk (by omega)).mp hge
        simp only [T.height] at hn
        by_cases hb : critBit p leaf.key = true
        · have := ih (⟨h, p, k, true, a⟩ :: c) b ht ?_ ?_ (by omega)
          · simp only [hb, if_true]; exact this
          · intro f hf
            rcases List.mem_cons.mp hf with rfl | hf
            · exact ⟨hshare.symm, hb⟩
            · exact hc f hf
          · intro l hl; exact hfresh l (by simp [hl])
        · simp only [Bool.not_eq_true] at hb
          have := ih (⟨h, p, k, false, b⟩ :: c) a ht ?_ ?_ (by omega)
          · simp only [hb, Bool.false_eq_true, if_false]; exact this
          · intro f hf
            rcases List.mem_cons.mp hf with rfl | hf
            · exact ⟨hshare.symm, hb⟩
            · exact hc f hf
          · intro l hl; exact hfresh l (by simp [hl])
      · rw [if_neg hge]
        have hne : k ≠ leaf.key := by
          intro h; apply hge; rw [h, Nat.xor_self]; unfold leadingZeros; simp; omega
        obtain ⟨q1, q2, q3⟩ := leadingZeros_ne w2 hk hne
        refine lift q1 ?_
        have hall : ∀ l ∈ (T.node h p k a b).lvs, Share p l.key k := by
          intro l hl
          simp only [T.lvs_node, List.mem_append] at hl
          rcases hl with hl | hl
          · exact (w3 l hl).1
          · exact (w4 l hl).1
        intro l hl
        have hs := hall l hl
        refine ⟨(hs.mono (by omega)).trans q2, ?_⟩
        rw [hs.critBit (by omega) (by omega)]
        exact q3

theorem Slab.avail_eq {t : Nodes} {us : List Nat} (h : Slab t us) : t.avail + us.length = maxOrderTreeNodes := by
  have := h.length; have := h.bump; unfold Nodes.avail; omega

/-- Inserting a key that is present replaces the leaf. -/
theorem insertLoop_replace {t : Nodes} {o : List Nat} (r : Root) {leaf : LeafNode} (n : Nat) (c : Ctx) (sub : T)
    (ht : TreeOk t (plug c sub) o) (hk : leaf.key < 2 ^ 128) (hex : ∃ l ∈ sub.lvs, l.key = leaf.key) (hn : sub.height ≤ n) :
    ∃ h old rest t' tr', Nodes.insertLoop r leaf n t sub.handle (ctxStack c) = .ok (h, some old, t', r) ∧
      old.key = leaf.key ∧ (plug c sub).lvs.Perm (old :: rest) ∧ tr'.lvs.Perm (leaf :: rest) ∧
      TreeOk t' tr' o ∧ tr'.handle = (plug c sub).handle ∧ (∀ x ∈ o, t'.nodes x = t.nodes x) ∧ t'.side = t.side := by
  induction n generalizing c sub with
  | zero => cases sub <;> simp [T.height] at hn
  | succ n ih =>
    obtain ⟨hrs, hrc⟩ := (plug_rep c sub).mp ht.rep
    have hsl := plug_slab.mp ht.slab
    have hplt : sub.handle < maxOrderTreeNodes := hsl.lt (by simp [T.hs])
    have hwfs := WF.unplug ht.wf
    rw [Nodes.insertLoop, nodeU_tree hplt (by rw [hrs.any]; exact sub.any_isTree), hrs.any]
    cases sub with
    | leaf h old =>
      simp at hex
      simp only [T.any, ok_bind, hex, if_true, T.handle]
      have hcn : (ctxHs c).Nodup := (List.nodup_append.mp (List.nodup_append.mp hsl.nodup).2.1).1
      have hclt : ∀ x ∈ ctxHs c, x < maxOrderTreeNodes := fun x hx => hsl.lt (by simp [hx])
      have hnd := List.nodup_append.mp hsl.nodup
      have hnd2 := List.nodup_append.mp hnd.2.1
      have hh : h ∉ ctxHs c := fun hm => hnd.2.2 h (by simp [T.hs, T.handle]) h (by simp [hm]) rfl
      have hho : h ∉ o := fun hm => hnd.2.2 h (by simp [T.hs, T.handle]) h (by simp [hm]) rfl
      let t1 := t.set h (.leaf leaf)
      have hrc1 : RepCtx t1.nodes c h old.expiry := by
        refine RepCtx.congr hrc ?_
        intro x hx
        have : x ≠ h := by rintro rfl; exact hh hx
        simp [t1, Nodes.set, this]
      obtain ⟨t', g1, g2, g3, g4⟩ := update_spec leaf.expiry hrc1 hcn hclt
      refine ⟨h, old, ctxLvs c, t', plug c (.leaf h leaf), ?_, hex, plug_lvs c _, plug_lvs c _, ⟨?_, ?_, ?_⟩,
        plug_handle c _ _ rfl, ?_, g4.1⟩
      · simp only [t1] at g1
        rw [g1]; rfl
      · rw [plug_slab]
        refine (Slab.set hsl (x := h) (by simp [T.hs, T.handle]) (.leaf leaf)).congr g4 ?_
        intro x hx
        exact g3 x (fun hm => hx (by simp [hm]))
      · rw [plug_rep]
        refine ⟨?_, g2⟩
        show t'.nodes h = _
        rw [g3 h hh]; simp [t1, Nodes.set]
      · refine WF.replace ht.wf hk ?_
        intro l' hl'
        simp at hl'; subst hl'
        exact .inl ⟨old, by simp, hex⟩
      · intro x hx
        rw [g3 x (fun hm => hnd2.2.2 x hm x hx rfl)]
        have : x ≠ h := by rintro rfl; exact hho hx
        simp [t1, Nodes.set, this]
    | node h p k a b =>
      obtain ⟨w1, w2, w3, w4, w5, w6⟩ := hwfs
      simp only [T.any, ok_bind]
      have hge : leadingZeros (k ^^^ leaf.key) ≥ p := by
        rw [leadingZeros_share w2 hk (by omega)]
        obtain ⟨l, hl, he⟩ := hex
        rw [← he]
        simp only [T.lvs_node, List.mem_append] at hl
        rcases hl with hl | hl
        · exact (w3 l hl).1.symm
        · exact (w4 l hl).1.symm
      rw [if_pos hge, walkDown_ok w1]
      simp only [ok_bind]
      simp only [T.height] at hn
      obtain ⟨l, hl, he⟩ := hex
      simp only [T.lvs_node, List.mem_append] at hl
      rcases hl with hl | hl
      · have hb := (w3 l hl).2
        rw [he] at hb
        simp only [hb, Bool.false_eq_true, if_false]
        exact ih (⟨h, p, k, false, b⟩ :: c) a ht ⟨l, hl, he⟩ (by omega)
      · have hb := (w4 l hl).2
        rw [he] at hb
        simp only [hb, if_true]
        exact ih (⟨h, p, k, true, a⟩ :: c) b ht ⟨l, hl, he⟩ (by omega)

/-! ### removal -/

theorem removeWalk_spec {t : Nodes} {o : List Nat} {key : Nat} (n : Nat) (f : Frame) (c : Ctx) (sub : T)
    (ht : TreeOk t (plug (f :: c) sub) o)
    (hinv : (∃ l ∈ (plug (f :: c) sub).lvs, l.key = key) → ∃ l ∈ sub.lvs, l.key = key) (hn : sub.height ≤ n) :
    (t.removeWalk key n f.h sub.handle f.b (ctxStack (f :: c)) = .ok none ∧ ∀ l ∈ (plug (f :: c) sub).lvs, l.key ≠ key) ∨
    ∃ f' c' h l, t.removeWalk key n f.h sub.handle f.b (ctxStack (f :: c)) = .ok (some (f'.h, h, f'.b, ctxStack (f' :: c'))) ∧
      l.key = key ∧ plug (f :: c) sub = plug (f' :: c') (.leaf h l) := by
  induction n generalizing f c sub with
  | zero => cases sub <;> simp [T.height] at hn
  | succ n ih =>
    obtain ⟨hrs, hrc⟩ := (plug_rep (f :: c) sub).mp ht.rep
    have hplt : sub.handle < maxOrderTreeNodes := (plug_slab.mp ht.slab).lt (by simp [T.hs])
    have hwfs := WF.unplug ht.wf
    rw [Nodes.removeWalk, nodeU_tree hplt (by rw [hrs.any]; exact sub.any_isTree), hrs.any]
    cases sub with
    | leaf h l =>
      simp only [T.any, ok_bind]
      by_cases hkey : l.key = key
      · right
        refine ⟨f, c, h, l, ?_, hkey, rfl⟩
        simp only [hkey, ne_eq, not_true_eq_false, if_false]; rfl
      · left
        refine ⟨?_, ?_⟩
        · simp only [ne_eq, hkey, not_false_eq_true, if_true]; rfl
        · intro l' hl' he
          obtain ⟨l2, h2, h3⟩ := hinv ⟨l', hl', he⟩
          simp at h2; subst h2; exact hkey h3
    | node h p k a b =>
      obtain ⟨w1, w2, w3, w4, w5, w6⟩ := hwfs
      simp only [T.any, ok_bind]
      rw [walkDown_ok w1]
      simp only [ok_bind]
      simp only [T.height] at hn
      by_cases hb : critBit p key = true
      · simp only [hb, if_true]
        refine ih ⟨h, p, k, true, a⟩ (f :: c) b ht ?_ (by omega)
        intro hex
        obtain ⟨l, hl, he⟩ := hinv hex
        simp only [T.lvs_node, List.mem_append] at hl
        rcases hl with hl | hl
        · have := (w3 l hl).2; rw [he, hb] at this; cases this
        · exact ⟨l, hl, he⟩
      · simp only [Bool.not_eq_true] at hb
        simp only [hb, Bool.false_eq_true, if_false]
        refine ih ⟨h, p, k, false, b⟩ (f :: c) a ht ?_ (by omega)
        intro hex
        obtain ⟨l, hl, he⟩ := hinv hex
        simp only [T.lvs_node, List.mem_append] at hl
        rcases hl with hl | hl
        · exact ⟨l, hl, he⟩
        · have := (w4 l hl).2; rw [he, hb] at this; cases this

theorem removeFound_spec {t : Nodes} {o : List Nat} {r : Root} {f : Frame} {c : Ctx} {h : Nat} {l : LeafNode}
    (ht : TreeOk t (plug (f :: c) (.leaf h l)) o) (hr : r.leafCount ≥ 1) :
    ∃ t', t.removeFound r f.h h f.b (ctxStack (f :: c)) = .ok (l, t', { r with leafCount := r.leafCount - 1 }) ∧
      TreeOk t' (plug c (f.sib.setHandle f.h)) o ∧ (∀ x ∈ o, t'.nodes x = t.nodes x) ∧ t'.side = t.side := by
  obtain ⟨hslab, hrep, hwf⟩ := ht
  have hsl := plug_slab.mp hslab
  obtain ⟨hrl, hrf, hrs, hrc⟩ := (plug_rep (f :: c) _).mp hrep
  have hsl1 : Slab t (f.sib.handle :: h :: f.h :: (f.sib.subHs ++ (ctxHs c ++ o))) := by
    refine hsl.perm ?_
    show ([h] ++ ((f.h :: (f.sib.handle :: f.sib.subHs ++ ctxHs c)) ++ o)).Perm _
    simp only [List.cons_append, List.nil_append, List.append_assoc]
    refine (List.Perm.cons _ (List.Perm.swap _ _ _)).trans ?_
    exact List.Perm.swap _ _ _
  have hnd := hsl1.nodup
  simp only [List.nodup_cons, List.mem_cons, List.mem_append, not_or] at hnd
  obtain ⟨⟨s1, s2, s3, s4, s5⟩, ⟨k1, k2, k3, k4⟩, ⟨p1, p2, p3⟩, hnd4⟩ := hnd
  have hsany : t.nodes f.sib.handle = f.sib.any := hrs.any
  obtain ⟨t1, g1, g2, g3, g4, g5⟩ := remove_spec hsl1 (by rw [hsany]; exact f.sib.any_isTree)
  have hplt : f.h < maxOrderTreeNodes := hsl1.lt (by simp)
  unfold Nodes.removeFound
  rw [nodeU_inner hplt hrf]
  simp only [ok_bind]
  have hch : (f.inner h l.expiry).child (!f.b) = f.sib.handle := by
    unfold Frame.inner InnerNode.child; cases f.b <;> rfl
  have hch' : (f.inner (T.leaf h l).handle (T.leaf h l).minExp).child (!f.b) = f.sib.handle := hch
  rw [hch', g1]
  simp only [ok_bind, unwrapR_some, hsany, T.any_expiry]
  have hp1 : t1.nodes f.h = .inner (f.inner h l.expiry) := by
    rw [g3 _ (fun e => s2 e.symm)]; exact hrf
  rw [nodeU_inner hplt hp1]
  simp only [ok_bind]
  rw [show assertR (r.leafCount ≥ 1) = .ok () from req_true hr]
  simp only [ok_bind]
  have hsl2 : Slab (t1.set f.h f.sib.any) (h :: f.h :: (f.sib.subHs ++ (ctxHs c ++ o))) := g2.set (by simp) _
  have hh2 : (t1.set f.h f.sib.any).nodes h = .leaf l := by
    simp only [Nodes.set, k1, if_false]
    rw [g3 _ (fun e => s1 e.symm)]; exact hrl
  obtain ⟨t3, q1, q2, q3, q4, q5⟩ := remove_spec hsl2 (by rw [hh2]; trivial)
  rw [q1]
  simp only [ok_bind, unwrapR_some, hh2]
  have n3 : ∀ x, x ≠ f.h → x ≠ h → x ≠ f.sib.handle → t3.nodes x = t.nodes x := by
    intro x e1 e2 e3
    rw [q3 x e2]; simp only [Nodes.set, e1, if_false]; exact g3 x e3
  have hf3 : t3.nodes f.h = f.sib.any := by rw [q3 _ (fun e => k1 e.symm)]; simp [Nodes.set]
  have hrs3 : Rep t3.nodes (f.sib.setHandle f.h) := by
    refine hrs.move hf3 ?_
    intro x hx
    refine n3 x ?_ ?_ ?_
    · rintro rfl; exact p1 hx
    · rintro rfl; exact k2 hx
    · rintro rfl; exact s3 hx
  have hrc3 : RepCtx t3.nodes c f.h (min l.expiry f.sib.minExp) := by
    refine RepCtx.congr hrc ?_
    intro x hx
    refine n3 x ?_ ?_ ?_
    · rintro rfl; exact p2 hx
    · rintro rfl; exact k3 hx
    · rintro rfl; exact s4 hx
  have hcn : (ctxHs c).Nodup := (List.nodup_append.mp (List.nodup_append.mp hnd4).2.1).1
  have hclt : ∀ x ∈ ctxHs c, x < maxOrderTreeNodes := fun x hx => hsl1.lt (by simp [hx])
  have hfin : ∃ t4, t3.updateParentEarliestExpiry (ctxStack c) l.expiry f.sib.minExp = .ok t4 ∧
      RepCtx t4.nodes c f.h f.sib.minExp ∧ (∀ x, x ∉ ctxHs c → t4.nodes x = t3.nodes x) ∧ SameHdr t3 t4 := by
    by_cases hle : l.expiry ≤ f.sib.minExp
    · rw [Nat.min_eq_left hle] at hrc3
      exact update_spec f.sib.minExp hrc3 hcn hclt
    · rw [Nat.min_eq_right (by omega)] at hrc3
      exact ⟨t3, update_other _ hrc3 (by omega) hclt, hrc3, fun _ _ => rfl, rfl, rfl, rfl, rfl⟩
  obtain ⟨t4, z1, z2, z3, z4⟩ := hfin
  have hsl3 : Slab t3 ((f.sib.setHandle f.h).hs ++ (ctxHs c ++ o)) := by
    refine q2.perm ?_
    simp [T.hs]
  have hdis := List.nodup_append.mp hnd4
  have hdis2 := List.nodup_append.mp hdis.2.1
  refine ⟨t4, ?_, ⟨?_, ?_, ?_⟩, ?_, ?_⟩
  · have : (ctxStack (f :: c)).tail = ctxStack c := rfl
    rw [this, z1]; rfl
  · rw [plug_slab]
    refine hsl3.congr z4 ?_
    intro x hx
    exact z3 x (fun hm => hx (by simp [hm]))
  · rw [plug_rep]
    refine ⟨hrs3.congr ?_, by simpa using z2⟩
    intro x hx
    refine z3 x (fun hm => ?_)
    simp only [T.hs, T.handle_setHandle, T.subHs_setHandle, List.mem_cons] at hx
    rcases hx with rfl | hx
    · exact p2 hm
    · exact hdis.2.2 x hx x (by simp [hm]) rfl
  · have hwf1 : WF (plug c (f.fill (.leaf h l))) := hwf
    obtain ⟨_, u2, _⟩ := WF.unfill (WF.unplug hwf1)
    refine WF.replace hwf1 (u2.setHandle _) ?_
    intro l' hl'
    left
    refine ⟨l', ?_, rfl⟩
    rw [(f.fill_lvs _).mem_iff]
    simp at hl'
    simp [hl']
  · intro x hx
    rw [z3 x (fun hm => hdis2.2.2 x hm x hx rfl)]
    refine n3 x ?_ ?_ ?_
    · rintro rfl; exact p3 hx
    · rintro rfl; exact k4 hx
    · rintro rfl; exact s5 hx
  · rw [z4.1, q4]; exact g4

/-! ### roots -/

def OT.hs : Option T → List Nat
  | none => []
  | some t => t.hs
def OT.lvs : Option T → List LeafNode
  | none => []
  | some t => t.lvs
def OT.leaves : Option T → List (Nat × LeafNode)
  | none => []
  | some t => t.leaves

/-- The root points to the tree `ot`. -/
def RootRep (nd : Nat → AnyNode) (r : Root) : Option T → Prop
  | none => r.leafCount = 0
  | some t => r.maybeNode = t.handle ∧ r.leafCount = t.lvs.length ∧ Rep nd t ∧ WF t

theorem RootRep.congr {nd nd' : Nat → AnyNode} {r : Root} {ot : Option T} (h : RootRep nd r ot)
    (he : ∀ x ∈ OT.hs ot, nd' x = nd x) : RootRep nd' r ot := by
  cases ot with
  | none => exact h
  | some t => exact ⟨h.1, h.2.1, h.2.2.1.congr he, h.2.2.2⟩

theorem T.lvs_length_pos (t : T) : 0 < t.lvs.length := by
  have := t.leaves_ne_nil
  rw [T.lvs, List.length_map]
  exact List.length_pos_iff.mpr this

theorem RootRep.node {nd : Nat → AnyNode} {r : Root} {ot : Option T} (h : RootRep nd r ot) :
    r.node = ot.map T.handle := by
  cases ot with
  | none => unfold Root.node; rw [if_pos (show r.leafCount = 0 from h)]; rfl
  | some t =>
    unfold Root.node
    have := t.lvs_length_pos
    rw [if_neg (by rw [h.2.1]; omega), h.1]; rfl

theorem RootRep.sorted {nd : Nat → AnyNode} {r : Root} {ot : Option T} (h : RootRep nd r ot) :
    (OT.lvs ot).Pairwise (fun x y => x.key < y.key) := by
  cases ot with
  | none => simp [OT.lvs]
  | some t => exact h.2.2.2.sorted

theorem RootRep.key_lt {nd : Nat → AnyNode} {r : Root} {ot : Option T} (h : RootRep nd r ot) :
    ∀ l ∈ OT.lvs ot, l.key < 2 ^ 128 := by
  cases ot with
  | none => simp [OT.lvs]
  | some t => exact h.2.2.2.key_lt

theorem Slab.height {t : Nodes} {tr : T} {o : List Nat} (h : Slab t (tr.hs ++ o)) : tr.height ≤ Nodes.fuel := by
  have h1 := tr.height_le
  have h2 := h.length_le
  simp only [List.length_append] at h2
  unfold maxOrderTreeNodes at h2; unfold Nodes.fuel; omega

/-- Inserting a fresh key. -/
theorem insertLeaf_spec {t : Nodes} {r : Root} {ot : Option T} {o : List Nat} {leaf : LeafNode}
    (hs : Slab t (OT.hs ot ++ o)) (hr : RootRep t.nodes r ot) (hk : leaf.key < 2 ^ 128)
    (hf : ∀ l ∈ OT.lvs ot, l.key ≠ leaf.key) :
    (t.avail < 2 ∧ t.insertLeaf r leaf = .error .someError) ∨
    ∃ h t' r' ot', t.insertLeaf r leaf = .ok (h, none, t', r') ∧ Slab t' (OT.hs ot' ++ o) ∧ RootRep t'.nodes r' ot' ∧
      (OT.lvs ot').Perm (leaf :: OT.lvs ot) ∧ (∀ x ∈ o, t'.nodes x = t.nodes x) ∧ t'.side = t.side := by
  unfold Nodes.insertLeaf
  rw [hr.node]
  cases ot with
  | none =>
    simp only [Option.map_none]
    rcases insert_spec hs (.leaf leaf) with ⟨h0, herr⟩ | ⟨lh, t1, g1, g2, g3, g4, g5, g6⟩
    · left; refine ⟨by omega, ?_⟩; rw [herr]; rfl
    · right
      rw [g1]
      refine ⟨lh, t1, ⟨lh, 1⟩, some (.leaf lh leaf), rfl, ?_, ⟨rfl, rfl, ?_, hk⟩, by simp [OT.lvs], ?_, g5⟩
      · exact g3
      · show t1.nodes lh = _; rw [g4]; simp [Nodes.set]
      · intro x hx
        have : x ≠ lh := by rintro rfl; exact g2 (by simp [OT.hs, hx])
        rw [g4]; simp [Nodes.set, this]
  | some tr =>
    simp only [Option.map_some]
    obtain ⟨r1, r2, r3, r4⟩ := hr
    rcases insertLoop_spec r (leaf := leaf) Nodes.fuel [] tr ⟨hs, r3, r4⟩ hk (by intro f hf; simp at hf) hf
      (Slab.height hs) with ⟨h0, herr⟩ | ⟨h, t', tr', g1, g2, g3, g4, g5, g6⟩
    · left; exact ⟨h0, herr⟩
    · right
      refine ⟨h, t', _, some tr', g1, g2.slab, ⟨?_, ?_, g2.rep, g2.wf⟩, g3, g5, g6⟩
      · rw [r1]; exact g4.symm
      · have := g3.length_eq
        simp [plug] at this
        rw [this]; simp [r2]

theorem insertLeaf_replace {t : Nodes} {r : Root} {ot : Option T} {o : List Nat} {leaf : LeafNode}
    (hs : Slab t (OT.hs ot ++ o)) (hr : RootRep t.nodes r ot) (hk : leaf.key < 2 ^ 128)
    (hf : ∃ l ∈ OT.lvs ot, l.key = leaf.key) :
    ∃ h old rest t' ot', t.insertLeaf r leaf = .ok (h, some old, t', r) ∧ Slab t' (OT.hs ot' ++ o) ∧
      RootRep t'.nodes r ot' ∧ old.key = leaf.key ∧ (OT.lvs ot).Perm (old :: rest) ∧
      (OT.lvs ot').Perm (leaf :: rest) ∧ (∀ x ∈ o, t'.nodes x = t.nodes x) ∧ t'.side = t.side := by
  unfold Nodes.insertLeaf
  rw [hr.node]
  cases ot with
  | none => simp [OT.lvs] at hf
  | some tr =>
    simp only [Option.map_some]
    obtain ⟨r1, r2, r3, r4⟩ := hr
    obtain ⟨h, old, rest, t', tr', g1, g2, g3, g4, g5, g6, g7, g8⟩ :=
      insertLoop_replace r (leaf := leaf) Nodes.fuel [] tr ⟨hs, r3, r4⟩ hk hf (Slab.height hs)
    refine ⟨h, old, rest, t', some tr', g1, g5.slab, ⟨?_, ?_, g5.rep, g5.wf⟩, g2, g3, g4, g7, g8⟩
    · rw [r1]; exact g6.symm
    · have h1 := g3.length_eq
      have h2 := g4.length_eq
      simp [plug] at h1 h2
      rw [r2, h1, h2]

theorem removeByKey_spec {t : Nodes} {r : Root} {ot : Option T} {o : List Nat} (key : Nat)
    (hs : Slab t (OT.hs ot ++ o)) (hr : RootRep t.nodes r ot) :
    (t.removeByKey r key = .ok none ∧ ∀ l ∈ OT.lvs ot, l.key ≠ key) ∨
    ∃ l t' r' ot', t.removeByKey r key = .ok (some (l, t', r')) ∧ l.key = key ∧ Slab t' (OT.hs ot' ++ o) ∧
      RootRep t'.nodes r' ot' ∧ (OT.lvs ot).Perm (l :: OT.lvs ot') ∧ (∀ x ∈ o, t'.nodes x = t.nodes x) ∧
      t'.side = t.side := by
  unfold Nodes.removeByKey
  rw [hr.node]
  cases ot with
  | none => left; exact ⟨rfl, by simp [OT.lvs]⟩
  | some tr =>
    simp only [Option.map_some]
    obtain ⟨r1, r2, r3, r4⟩ := hr
    have hplt : tr.handle < maxOrderTreeNodes := hs.lt (by simp [OT.hs, T.hs])
    rw [nodeU_tree hplt (by rw [r3.any]; exact tr.any_isTree), r3.any]
    cases tr with
    | leaf h l =>
      simp only [T.any, ok_bind, T.handle]
      by_cases hkey : l.key = key
      · right
        rw [if_pos hkey, show assertR (r.leafCount = 1) = .ok () from req_true (by simpa using r2)]
        have hs' : Slab t (h :: o) := hs
        have hn : t.nodes h = .leaf l := r3
        obtain ⟨t', g1, g2, g3, g4, g5⟩ := remove_spec hs' (by rw [hn]; trivial)
        simp only [ok_bind, g1, unwrapR_some]
        refine ⟨l, t', ⟨0, 0⟩, none, rfl, hkey, g2, rfl, by simp [OT.lvs], ?_, g4⟩
        intro x hx
        refine g3 x ?_
        rintro rfl
        exact (List.nodup_cons.mp hs'.nodup).1 hx
      · left
        rw [if_neg hkey]
        exact ⟨rfl, by simpa [OT.lvs] using hkey⟩
    | node h p k a b =>
      obtain ⟨w1, w2, w3, w4, w5, w6⟩ := id r4
      simp only [T.any, ok_bind]
      rw [walkDown_ok w1]
      simp only [ok_bind]
      have hhe := Slab.height (tr := T.node h p k a b) hs
      simp only [T.height] at hhe
      have main : ∀ f sub, plug [f] sub = T.node h p k a b → f.h = h → sub.height ≤ Nodes.fuel →
          ((∃ l ∈ (T.node h p k a b).lvs, l.key = key) → ∃ l ∈ sub.lvs, l.key = key) →
          ((do match ← t.removeWalk key Nodes.fuel h sub.handle f.b [(h, f.b)] with
              | none => return none
              | some (parent, child, b', stack) => return some (← t.removeFound r parent child b' stack) :
                R (Option (LeafNode × Nodes × Root))) = .ok none ∧ ∀ l ∈ (T.node h p k a b).lvs, l.key ≠ key) ∨
          ∃ l t' r' ot', (do match ← t.removeWalk key Nodes.fuel h sub.handle f.b [(h, f.b)] with
              | none => return none
              | some (parent, child, b', stack) => return some (← t.removeFound r parent child b' stack) :
                R (Option (LeafNode × Nodes × Root))) = .ok (some (l, t', r')) ∧
            l.key = key ∧ Slab t' (OT.hs ot' ++ o) ∧
            RootRep t'.nodes r' ot' ∧ (T.node h p k a b).lvs.Perm (l :: OT.lvs ot') ∧ (∀ x ∈ o, t'.nodes x = t.nodes x) ∧
            t'.side = t.side := by
        intro f sub he hfh hsh hinv
        subst hfh
        have hok : TreeOk t (plug [f] sub) o := by rw [he]; exact ⟨hs, r3, r4⟩
        rcases removeWalk_spec (key := key) Nodes.fuel f [] sub hok (by rw [he]; exact hinv) hsh with
          ⟨g1, g2⟩ | ⟨f', c', lh, l, g1, g2, g3⟩
        · left
          rw [he] at g2
          refine ⟨?_, g2⟩
          have : ctxStack [f] = [(f.h, f.b)] := rfl
          rw [this] at g1
          rw [g1]; rfl
        · right
          have : ctxStack [f] = [(f.h, f.b)] := rfl
          rw [this] at g1
          rw [g1]
          simp only [ok_bind]
          have hpos := (T.node f.h p k a b).lvs_length_pos
          rw [g3] at hok
          obtain ⟨t', q1, q2, q3, q4⟩ := removeFound_spec (r := r) hok (by rw [r2]; omega)
          rw [q1]
          have hperm : (T.node f.h p k a b).lvs.Perm (l :: (plug c' (f'.sib.setHandle f'.h)).lvs) := by
            rw [← he, g3]
            refine (plug_lvs (f' :: c') (.leaf lh l)).trans ?_
            simp only [T.lvs_leaf, List.cons_append, List.nil_append]
            refine List.Perm.cons _ ?_
            refine List.Perm.trans ?_ (plug_lvs c' _).symm
            simp [ctxLvs]
          refine ⟨l, t', _, some (plug c' (f'.sib.setHandle f'.h)), rfl, g2, q2.slab, ⟨?_, ?_, q2.rep, q2.wf⟩, hperm, q3, q4⟩
          · show r.maybeNode = _
            rw [r1, ← he, g3]
            exact plug_handle c' (f'.fill (.leaf lh l)) (f'.sib.setHandle f'.h) (by simp)
          · have := hperm.length_eq
            show r.leafCount - 1 = _
            rw [r2, this]; simp
      by_cases hb : critBit p key = true
      · simp only [hb, if_true]
        refine main ⟨h, p, k, true, a⟩ b rfl rfl (by omega) ?_
        rintro ⟨l, hl, he⟩
        simp only [T.lvs_node, List.mem_append] at hl
        rcases hl with hl | hl
        · have := (w3 l hl).2; rw [he, hb] at this; cases this
        · exact ⟨l, hl, he⟩
      · simp only [Bool.not_eq_true] at hb
        simp only [hb, Bool.false_eq_true, if_false]
        refine main ⟨h, p, k, false, b⟩ a rfl rfl (by omega) ?_
        rintro ⟨l, hl, he⟩
        simp only [T.lvs_node, List.mem_append] at hl
        rcases hl with hl | hl
        · exact ⟨l, hl, he⟩
        · have := (w4 l hl).2; rw [he, hb] at this; cases this

end OB
