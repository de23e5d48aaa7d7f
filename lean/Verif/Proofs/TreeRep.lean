import Verif.Proofs.Slab
/-! Abstract crit-bit trees, their representation in the slab, and zipper contexts. -/
namespace OB

inductive T
  | leaf (h : Nat) (l : LeafNode)
  | node (h p k : Nat) (a b : T)

namespace T

def handle : T → Nat
  | leaf h _ => h
  | node h _ _ _ _ => h

/-- Smallest expiry in the tree. -/
def minExp : T → Nat
  | leaf _ l => l.expiry
  | node _ _ _ a b => min a.minExp b.minExp

/-- Leaves with their handles, in key order. -/
def leaves : T → List (Nat × LeafNode)
  | leaf h l => [(h, l)]
  | node _ _ _ a b => a.leaves ++ b.leaves

def lvs (t : T) : List LeafNode := t.leaves.map (·.2)

/-- Handles below the root. -/
def subHs : T → List Nat
  | leaf _ _ => []
  | node _ _ _ a b => (a.handle :: a.subHs) ++ (b.handle :: b.subHs)

def hs (t : T) : List Nat := t.handle :: t.subHs

def height : T → Nat
  | leaf _ _ => 1
  | node _ _ _ a b => max a.height b.height + 1

/-- Node contents at the root. -/
def any : T → AnyNode
  | leaf _ l => .leaf l
  | node _ p k a b => .inner ⟨p, k, a.handle, b.handle, a.minExp, b.minExp⟩

def setHandle (h : Nat) : T → T
  | leaf _ l => leaf h l
  | node _ p k a b => node h p k a b

@[simp] theorem lvs_leaf (h : Nat) (l : LeafNode) : (leaf h l).lvs = [l] := rfl
@[simp] theorem lvs_node (h p k : Nat) (a b : T) : (node h p k a b).lvs = a.lvs ++ b.lvs := by simp [lvs, leaves]
@[simp] theorem handle_setHandle (h : Nat) (t : T) : (t.setHandle h).handle = h := by cases t <;> rfl
@[simp] theorem minExp_setHandle (h : Nat) (t : T) : (t.setHandle h).minExp = t.minExp := by cases t <;> rfl
@[simp] theorem any_setHandle (h : Nat) (t : T) : (t.setHandle h).any = t.any := by cases t <;> rfl
@[simp] theorem subHs_setHandle (h : Nat) (t : T) : (t.setHandle h).subHs = t.subHs := by cases t <;> rfl
@[simp] theorem lvs_setHandle (h : Nat) (t : T) : (t.setHandle h).lvs = t.lvs := by cases t <;> rfl
@[simp] theorem height_setHandle (h : Nat) (t : T) : (t.setHandle h).height = t.height := by cases t <;> rfl

theorem any_isTree (t : T) : t.any.isTree := by cases t <;> trivial
theorem any_expiry (t : T) : t.any.earliestExpiry = .ok t.minExp := by cases t <;> rfl

theorem hs_node (h p k : Nat) (a b : T) : (node h p k a b).hs = h :: (a.hs ++ b.hs) := rfl

theorem height_le (t : T) : t.height ≤ t.hs.length := by
  induction t with
  | leaf h l => simp [height, hs]
  | node h p k a b iha ihb => rw [hs_node]; simp only [height, List.length_cons, List.length_append]; omega

theorem leaves_ne_nil (t : T) : t.leaves ≠ [] := by
  induction t with
  | leaf h l => simp [leaves]
  | node h p k a b iha ihb => simp [leaves, iha]

theorem leaves_handle_mem {t : T} {x : Nat × LeafNode} (hx : x ∈ t.leaves) : x.1 ∈ t.hs := by
  induction t with
  | leaf h l => simp [leaves] at hx; simp [hs, handle, hx]
  | node h p k a b iha ihb =>
    rw [hs_node]
    simp only [leaves, List.mem_append] at hx
    rcases hx with hx | hx
    · simp [iha hx]
    · simp [ihb hx]

theorem leaves_length (t : T) : t.hs.length + 1 = 2 * t.leaves.length := by
  induction t with
  | leaf h l => simp [leaves, hs, subHs]
  | node h p k a b iha ihb =>
    rw [hs_node]; simp only [leaves, List.length_cons, List.length_append]; omega

theorem minExp_mem (t : T) : ∃ l ∈ t.lvs, l.expiry = t.minExp := by
  induction t with
  | leaf h l => exact ⟨l, by simp, rfl⟩
  | node h p k a b iha ihb =>
    obtain ⟨la, ha, ha'⟩ := iha
    obtain ⟨lb, hb, hb'⟩ := ihb
    simp only [minExp, lvs_node, List.mem_append]
    by_cases h : a.minExp ≤ b.minExp
    · exact ⟨la, .inl ha, by omega⟩
    · exact ⟨lb, .inr hb, by omega⟩

theorem minExp_le {t : T} {l : LeafNode} (hl : l ∈ t.lvs) : t.minExp ≤ l.expiry := by
  induction t with
  | leaf h l' => simp at hl; subst hl; exact Nat.le_refl _
  | node h p k a b iha ihb =>
    simp only [lvs_node, List.mem_append] at hl
    simp only [minExp]
    rcases hl with hl | hl
    · have := iha hl; omega
    · have := ihb hl; omega

end T

/-- The slab contents represent the tree. -/
def Rep (nd : Nat → AnyNode) : T → Prop
  | .leaf h l => nd h = .leaf l
  | .node h p k a b => nd h = .inner ⟨p, k, a.handle, b.handle, a.minExp, b.minExp⟩ ∧ Rep nd a ∧ Rep nd b

theorem Rep.any {nd : Nat → AnyNode} {t : T} (h : Rep nd t) : nd t.handle = t.any := by
  cases t with
  | leaf h l => exact h
  | node h p k a b => exact h.1

theorem Rep.congr {nd nd' : Nat → AnyNode} {t : T} (h : Rep nd t) (he : ∀ x ∈ t.hs, nd' x = nd x) : Rep nd' t := by
  induction t with
  | leaf h' l => show nd' h' = _; rw [he h' (by simp [T.hs, T.handle])]; exact h
  | node h' p k a b iha ihb =>
    obtain ⟨h1, h2, h3⟩ := h
    refine ⟨by rw [he h' (by simp [T.hs, T.handle])]; exact h1, iha h2 ?_, ihb h3 ?_⟩
    · intro x hx; exact he x (by rw [T.hs_node]; simp [hx])
    · intro x hx; exact he x (by rw [T.hs_node]; simp [hx])

theorem Rep.move {nd nd' : Nat → AnyNode} {t : T} {h' : Nat} (h : Rep nd t) (hn : nd' h' = t.any)
    (he : ∀ x ∈ t.subHs, nd' x = nd x) : Rep nd' (t.setHandle h') := by
  cases t with
  | leaf h'' l => exact hn
  | node h'' p k a b =>
    obtain ⟨h1, h2, h3⟩ := h
    refine ⟨hn, h2.congr ?_, h3.congr ?_⟩
    · intro x hx; exact he x (List.mem_append_left _ hx)
    · intro x hx; exact he x (List.mem_append_right _ hx)

theorem Rep.leaf_mem {nd : Nat → AnyNode} {t : T} (h : Rep nd t) {x : Nat × LeafNode} (hx : x ∈ t.leaves) :
    nd x.1 = .leaf x.2 := by
  induction t with
  | leaf h' l => simp [T.leaves] at hx; subst hx; exact h
  | node h' p k a b iha ihb =>
    simp only [T.leaves, List.mem_append] at hx
    rcases hx with hx | hx
    · exact iha h.2.1 hx
    · exact ihb h.2.2 hx

/-- Crit-bit invariant. -/
def WF : T → Prop
  | .leaf _ l => l.key < 2 ^ 128
  | .node _ p k a b => p ≤ 127 ∧ k < 2 ^ 128 ∧ (∀ l ∈ a.lvs, Share p l.key k ∧ critBit p l.key = false) ∧
      (∀ l ∈ b.lvs, Share p l.key k ∧ critBit p l.key = true) ∧ WF a ∧ WF b

theorem WF.setHandle {t : T} (h : WF t) (h' : Nat) : WF (t.setHandle h') := by cases t <;> exact h

theorem WF.key_lt {t : T} (h : WF t) : ∀ l ∈ t.lvs, l.key < 2 ^ 128 := by
  induction t with
  | leaf h' l => intro x hx; simp at hx; subst hx; exact h
  | node h' p k a b iha ihb =>
    intro x hx
    simp only [T.lvs_node, List.mem_append] at hx
    rcases hx with hx | hx
    · exact iha h.2.2.2.2.1 x hx
    · exact ihb h.2.2.2.2.2 x hx

theorem WF.sorted {t : T} (h : WF t) : t.lvs.Pairwise (fun x y => x.key < y.key) := by
  induction t with
  | leaf h' l => simp
  | node h' p k a b iha ihb =>
    obtain ⟨h1, h2, h3, h4, h5, h6⟩ := h
    rw [T.lvs_node, List.pairwise_append]
    refine ⟨iha h5, ihb h6, fun x hx y hy => ?_⟩
    exact lt_of_critBit h1 ((h3 x hx).1.trans (h4 y hy).1.symm) (h3 x hx).2 (h4 y hy).2

/-! ### zipper contexts -/

structure Frame where
  h : Nat
  p : Nat
  k : Nat
  /-- the hole is child `b` -/
  b : Bool
  sib : T

abbrev Ctx := List Frame

def Frame.fill (f : Frame) (t : T) : T := if f.b then .node f.h f.p f.k f.sib t else .node f.h f.p f.k t f.sib

def Frame.inner (f : Frame) (hd e : Nat) : InnerNode :=
  { prefixLen := f.p, key := f.k, child0 := if f.b then f.sib.handle else hd, child1 := if f.b then hd else f.sib.handle,
    exp0 := if f.b then f.sib.minExp else e, exp1 := if f.b then e else f.sib.minExp }

def plug : Ctx → T → T
  | [], t => t
  | f :: c, t => plug c (f.fill t)

def RepCtx (nd : Nat → AnyNode) : Ctx → Nat → Nat → Prop
  | [], _, _ => True
  | f :: c, hd, e => nd f.h = .inner (f.inner hd e) ∧ Rep nd f.sib ∧ RepCtx nd c f.h (min e f.sib.minExp)

def ctxHs : Ctx → List Nat
  | [] => []
  | f :: c => f.h :: (f.sib.hs ++ ctxHs c)

def ctxLvs : Ctx → List LeafNode
  | [] => []
  | f :: c => f.sib.lvs ++ ctxLvs c

def ctxStack (c : Ctx) : List (Nat × Bool) := c.map (fun f => (f.h, f.b))

@[simp] theorem Frame.fill_handle (f : Frame) (t : T) : (f.fill t).handle = f.h := by
  unfold Frame.fill; split <;> rfl

theorem Frame.fill_minExp (f : Frame) (t : T) : (f.fill t).minExp = min t.minExp f.sib.minExp := by
  unfold Frame.fill; split <;> simp only [T.minExp]; exact Nat.min_comm _ _

theorem Frame.fill_lvs (f : Frame) (t : T) : (f.fill t).lvs.Perm (t.lvs ++ f.sib.lvs) := by
  unfold Frame.fill; split
  · simp only [T.lvs_node]; exact List.perm_append_comm
  · simp

theorem Frame.fill_hs (f : Frame) (t : T) : (f.fill t).hs.Perm (t.hs ++ f.h :: f.sib.hs) := by
  unfold Frame.fill; split
  · rw [T.hs_node]
    refine List.Perm.trans ?_ List.perm_middle.symm
    exact List.Perm.cons _ List.perm_append_comm
  · rw [T.hs_node]; exact List.perm_middle.symm

theorem Frame.fill_rep {nd : Nat → AnyNode} (f : Frame) (t : T) :
    Rep nd (f.fill t) ↔ nd f.h = .inner (f.inner t.handle t.minExp) ∧ Rep nd f.sib ∧ Rep nd t := by
  unfold Frame.fill Frame.inner
  cases f.b
  · simp only [Bool.false_eq_true, if_false, Rep]; tauto
  · simp only [if_true, Rep]

theorem plug_lvs (c : Ctx) (t : T) : (plug c t).lvs.Perm (t.lvs ++ ctxLvs c) := by
  induction c generalizing t with
  | nil => simp [plug, ctxLvs]
  | cons f c ih =>
    refine (ih (f.fill t)).trans ?_
    simp only [ctxLvs]
    rw [← List.append_assoc]
    exact (f.fill_lvs t).append_right _

theorem plug_hs (c : Ctx) (t : T) : (plug c t).hs.Perm (t.hs ++ ctxHs c) := by
  induction c generalizing t with
  | nil => simp [plug, ctxHs]
  | cons f c ih =>
    refine (ih (f.fill t)).trans ?_
    simp only [ctxHs]
    have := (f.fill_hs t).append_right (ctxHs c)
    rw [List.append_assoc, List.cons_append] at this
    exact this

theorem plug_rep {nd : Nat → AnyNode} (c : Ctx) (t : T) :
    Rep nd (plug c t) ↔ Rep nd t ∧ RepCtx nd c t.handle t.minExp := by
  induction c generalizing t with
  | nil => simp [plug, RepCtx]
  | cons f c ih =>
    simp only [plug, ih, f.fill_rep, RepCtx, Frame.fill_handle, f.fill_minExp]
    tauto

theorem plug_handle (c : Ctx) (t t' : T) (h : t.handle = t'.handle) : (plug c t).handle = (plug c t').handle := by
  induction c generalizing t t' with
  | nil => exact h
  | cons f c ih => exact ih _ _ (by simp)

/-- The key would be stored below the hole. -/
def Compat (c : Ctx) (key : Nat) : Prop := ∀ f ∈ c, Share f.p key f.k ∧ critBit f.p key = f.b

theorem WF.unfill {f : Frame} {t : T} (h : WF (f.fill t)) : WF t ∧ WF f.sib ∧ f.p ≤ 127 ∧ f.k < 2 ^ 128 ∧
    (∀ l ∈ t.lvs, Share f.p l.key f.k ∧ critBit f.p l.key = f.b) ∧
    (∀ l ∈ f.sib.lvs, Share f.p l.key f.k ∧ critBit f.p l.key = !f.b) := by
  unfold Frame.fill at h
  split at h
  · rename_i hb
    obtain ⟨h1, h2, h3, h4, h5, h6⟩ := h
    exact ⟨h6, h5, h1, h2, by simpa [hb] using h4, by simpa [hb] using h3⟩
  · rename_i hb
    obtain ⟨h1, h2, h3, h4, h5, h6⟩ := h
    simp only [Bool.not_eq_true] at hb
    exact ⟨h5, h6, h1, h2, by simpa [hb] using h3, by simpa [hb] using h4⟩

theorem WF.fill {f : Frame} {t : T} (h1 : WF t) (h2 : WF f.sib) (h3 : f.p ≤ 127) (h4 : f.k < 2 ^ 128)
    (h5 : ∀ l ∈ t.lvs, Share f.p l.key f.k ∧ critBit f.p l.key = f.b)
    (h6 : ∀ l ∈ f.sib.lvs, Share f.p l.key f.k ∧ critBit f.p l.key = !f.b) : WF (f.fill t) := by
  unfold Frame.fill
  split
  · rename_i hb
    exact ⟨h3, h4, by simpa [hb] using h6, by simpa [hb] using h5, h2, h1⟩
  · rename_i hb
    simp only [Bool.not_eq_true] at hb
    exact ⟨h3, h4, by simpa [hb] using h5, by simpa [hb] using h6, h1, h2⟩

theorem WF.unplug {c : Ctx} {t : T} (h : WF (plug c t)) : WF t := by
  induction c generalizing t with
  | nil => exact h
  | cons f c ih => exact (WF.unfill (ih h)).1

theorem WF.replace {c : Ctx} {t t' : T} (h : WF (plug c t)) (ht : WF t')
    (hk : ∀ l' ∈ t'.lvs, (∃ l ∈ t.lvs, l.key = l'.key) ∨ Compat c l'.key) : WF (plug c t') := by
  induction c generalizing t t' with
  | nil => exact ht
  | cons f c ih =>
    obtain ⟨h1, h2, h3, h4, h5, h6⟩ := WF.unfill (WF.unplug (c := c) (t := f.fill t) h)
    refine ih (t := f.fill t) (t' := f.fill t') h (WF.fill ht h2 h3 h4 ?_ h6) ?_
    · intro l' hl'
      rcases hk l' hl' with ⟨l, hl, he⟩ | hc
      · rw [← he]; exact h5 l hl
      · exact hc f (by simp)
    · intro l' hl'
      have := (f.fill_lvs t').mem_iff.mp hl'
      rcases List.mem_append.mp this with hm | hm
      · rcases hk l' hm with ⟨l, hl, he⟩ | hc
        · exact .inl ⟨l, (f.fill_lvs t).mem_iff.mpr (List.mem_append_left _ hl), he⟩
        · exact .inr (fun g hg => hc g (List.mem_cons_of_mem _ hg))
      · exact .inl ⟨l', (f.fill_lvs t).mem_iff.mpr (List.mem_append_right _ hm), rfl⟩

theorem RepCtx.congr {nd nd' : Nat → AnyNode} {c : Ctx} {hd e : Nat} (h : RepCtx nd c hd e)
    (he : ∀ x ∈ ctxHs c, nd' x = nd x) : RepCtx nd' c hd e := by
  induction c generalizing hd e with
  | nil => trivial
  | cons f c ih =>
    obtain ⟨h1, h2, h3⟩ := h
    refine ⟨by rw [he f.h (by simp [ctxHs])]; exact h1, h2.congr ?_, ih h3 ?_⟩
    · intro x hx; exact he x (by simp [ctxHs, hx])
    · intro x hx; exact he x (by simp [ctxHs, hx])

/-- Same header. -/
def SameHdr (t t' : Nodes) : Prop :=
  t'.side = t.side ∧ t'.bumpIndex = t.bumpIndex ∧ t'.freeListLen = t.freeListLen ∧ t'.freeListHead = t.freeListHead

theorem SameHdr.trans {a b c : Nodes} (h : SameHdr a b) (h' : SameHdr b c) : SameHdr a c :=
  ⟨h'.1.trans h.1, h'.2.1.trans h.2.1, h'.2.2.1.trans h.2.2.1, h'.2.2.2.trans h.2.2.2⟩

theorem SameHdr.set (t : Nodes) (x : Nat) (v : AnyNode) : SameHdr t (t.set x v) := ⟨rfl, rfl, rfl, rfl⟩

theorem SameHdr.avail {t t' : Nodes} (h : SameHdr t t') : t'.avail = t.avail := by
  unfold Nodes.avail; rw [h.2.1, h.2.2.1]

theorem Slab.congr {t t' : Nodes} {us : List Nat} (h : Slab t us) (hh : SameHdr t t')
    (he : ∀ x, x ∉ us → t'.nodes x = t.nodes x) : Slab t' us := by
  obtain ⟨⟨fl, h1, h2, h3⟩, h4⟩ := h
  obtain ⟨_, hb, hl, hf⟩ := hh
  refine ⟨⟨fl, ?_, by rw [hl]; exact h2, by rw [hb]; exact h3⟩, by rw [hb]; exact h4⟩
  rw [hf]
  refine h1.congr ?_
  intro y hy
  have hnd := h3.nodup_iff.mpr List.nodup_range
  exact he y (fun hm => (List.nodup_append.mp hnd).2.2 y hm y hy rfl)

theorem Frame.inner_exp (f : Frame) (hd e : Nat) : (f.inner hd e).exp f.b = e := by
  unfold Frame.inner InnerNode.exp; cases f.b <;> rfl

theorem Frame.inner_setExp (f : Frame) (hd e e' : Nat) : (f.inner hd e).setExp f.b e' = f.inner hd e' := by
  unfold Frame.inner InnerNode.setExp; cases f.b <;> rfl

theorem Frame.inner_earliest (f : Frame) (hd e : Nat) : (f.inner hd e).earliestExpiry = min e f.sib.minExp := by
  unfold Frame.inner InnerNode.earliestExpiry; cases f.b
  · rfl
  · simp only [if_true]; exact Nat.min_comm _ _

/-- Propagating a changed expiry of the hole up the tree. -/
theorem update_spec {t : Nodes} {c : Ctx} {hd e : Nat} (e' : Nat) (hr : RepCtx t.nodes c hd e) (hn : (ctxHs c).Nodup)
    (hlt : ∀ x ∈ ctxHs c, x < maxOrderTreeNodes) :
    ∃ t', t.updateParentEarliestExpiry (ctxStack c) e e' = .ok t' ∧ RepCtx t'.nodes c hd e' ∧
      (∀ x, x ∉ ctxHs c → t'.nodes x = t.nodes x) ∧ SameHdr t t' := by
  induction c generalizing t hd e e' with
  | nil => exact ⟨t, rfl, trivial, fun _ _ => rfl, rfl, rfl, rfl, rfl⟩
  | cons f c ih =>
    obtain ⟨h1, h2, h3⟩ := hr
    have hfl : f.h < maxOrderTreeNodes := hlt _ (by simp [ctxHs])
    simp only [ctxHs, List.nodup_cons, List.mem_append, not_or] at hn
    obtain ⟨⟨hfs, hfc⟩, hn2⟩ := hn
    have hn3 := (List.nodup_append.mp hn2).2.1
    have hdis := (List.nodup_append.mp hn2).2.2
    let t1 := t.set f.h (.inner (f.inner hd e'))
    have hc1 : RepCtx t1.nodes c f.h (min e f.sib.minExp) := by
      refine h3.congr ?_
      intro x hx
      have : x ≠ f.h := by rintro rfl; exact hfc hx
      simp [t1, Nodes.set, this]
    obtain ⟨t', g1, g2, g3, g4⟩ := ih (min e' f.sib.minExp) hc1 hn3 (fun x hx => hlt x (by simp [ctxHs, hx]))
    refine ⟨t', ?_, ⟨?_, ?_, g2⟩, ?_, (SameHdr.set t _ _).trans g4⟩
    · show t.updateParentEarliestExpiry ((f.h, f.b) :: ctxStack c) e e' = _
      rw [Nodes.updateParentEarliestExpiry, nodeU_inner hfl h1]
      simp only [ok_bind, f.inner_exp, ne_eq, not_true_eq_false, if_false, f.inner_setExp, f.inner_earliest]
      exact g1
    · rw [g3 _ hfc]; simp [t1, Nodes.set]
    · refine h2.congr ?_
      intro x hx
      have h5 : x ∉ ctxHs c := fun hm => hdis x hx x hm rfl
      have h6 : x ≠ f.h := by rintro rfl; exact hfs hx
      rw [g3 x h5]; simp [t1, Nodes.set, h6]
    · intro x hx
      simp only [ctxHs, List.mem_cons, List.mem_append, not_or] at hx
      rw [g3 x hx.2.2]; simp [t1, Nodes.set, hx.1]

/-- If the old expiry recorded above is another one nothing is changed. -/
theorem update_other {t : Nodes} {c : Ctx} {hd e o : Nat} (e' : Nat) (hr : RepCtx t.nodes c hd e) (hne : e ≠ o)
    (hlt : ∀ x ∈ ctxHs c, x < maxOrderTreeNodes) :
    t.updateParentEarliestExpiry (ctxStack c) o e' = .ok t := by
  cases c with
  | nil => rfl
  | cons f c =>
    show t.updateParentEarliestExpiry ((f.h, f.b) :: ctxStack c) o e' = _
    rw [Nodes.updateParentEarliestExpiry, nodeU_inner (hlt _ (by simp [ctxHs])) hr.1]
    simp only [ok_bind, f.inner_exp, ne_eq, hne, not_false_eq_true, if_true]
    rfl

end OB
