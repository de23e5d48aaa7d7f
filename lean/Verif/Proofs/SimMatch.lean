import Verif.Proofs.SimSide
import Verif.Proofs.Loop
/-! The matching loop over two book sides with the same orders: handles are renamed, everything else is the same. -/
namespace OB

/-! ### renaming handles -/

def ren (ρ : Nat → Nat) (x : Nat × LeafNode) : Nat × LeafNode := (ρ x.1, x.2)
def IterItem.ren (ρ : Nat → Nat) (i : IterItem) : IterItem := { i with handle := ρ i.handle }
def renQ (ρ : Nat → Nat) (x : Nat × Int) : Nat × Int := (ρ x.1, x.2)
def MatchSt.ren (ρ : Nat → Nat) (s : MatchSt) : MatchSt := { s with changes := s.changes.map (renQ ρ) }

theorem rename_ex (A B : HL) (h : B.map (·.2) = A.map (·.2)) (hn : (A.map (·.1)).Nodup) : ∃ ρ, B = A.map (ren ρ) := by
  induction A generalizing B with
  | nil =>
    simp at h
    exact ⟨id, by rw [h]; rfl⟩
  | cons a A ih =>
    cases B with
    | nil => simp at h
    | cons b B =>
      simp only [List.map_cons, List.cons.injEq] at h
      simp only [List.map_cons, List.nodup_cons] at hn
      obtain ⟨ρ, e⟩ := ih B h.2 hn.2
      refine ⟨fun x => if x = a.1 then b.1 else ρ x, ?_⟩
      have e2 : A.map (ren fun x => if x = a.1 then b.1 else ρ x) = A.map (ren ρ) := by
        apply List.map_congr_left
        intro x hx
        have : x.1 ≠ a.1 := fun he => hn.1 (by rw [← he]; exact List.mem_map_of_mem hx)
        simp [ren, this]
      rw [List.map_cons, e2, ← e]
      simp [ren, ← h.1]

theorem skipAhead_ren (ρ : Nat → Nat) (o : Int) (s : Side) (L : HL) :
    skipAhead o s (L.map (ren ρ)) = ((skipAhead o s L).1.map (ren ρ), (skipAhead o s L).2.map (ren ρ)) := by
  induction L with
  | nil => rfl
  | cons q L ih =>
    simp only [List.map_cons, skipAhead]
    have : isSkipped o s (ren ρ q) = isSkipped o s q := rfl
    rw [this]
    split
    · exact ih
    · rfl

theorem pegPeek_ren (ρ : Nat → Nat) (oracle : Option Int) (s : Side) (P : HL) :
    pegPeek oracle s (P.map (ren ρ)) = ((pegPeek oracle s P).1.map (ren ρ), (pegPeek oracle s P).2.map (ren ρ)) := by
  cases oracle with
  | none => rfl
  | some o =>
    cases P with
    | nil => rfl
    | cons p P =>
      simp only [List.map_cons, pegPeek]
      have : isSkipped o s (ren ρ p) = isSkipped o s p := rfl
      rw [this]
      split
      · exact skipAhead_ren ρ o s P
      · rfl

theorem nextL_ren (ρ : Nat → Nat) (s : Side) (now : Nat) (oracle : Option Int) (F P : HL) :
    nextL s now oracle (F.map (ren ρ)) (P.map (ren ρ)) =
      (nextL s now oracle F P).map (fun x => (x.1.ren ρ, x.2.1.map (ren ρ), x.2.2.map (ren ρ))) := by
  unfold nextL
  rw [pegPeek_ren]
  cases oracle with
  | none => cases F <;> rfl
  | some o =>
    cases hp : (pegPeek (some o) s P).1 with
    | none => cases F <;> rfl
    | some p =>
      cases F with
      | nil => simp only [List.map_nil, Option.map_some, List.map_tail]; rfl
      | cons f F =>
        simp only [List.map_cons, Option.map_some]
        have e1 : (ren ρ f).2 = f.2 := rfl
        have e2 : (ren ρ p).2 = p.2 := rfl
        rw [e1, e2]
        split
        · rfl
        · simp only [Option.map_some, List.map_tail, List.map_cons]; rfl

theorem items_ren (ρ : Nat → Nat) (s : Side) (now : Nat) (oracle : Option Int) (F P : HL) :
    items s now oracle (F.map (ren ρ)) (P.map (ren ρ)) = (items s now oracle F P).map (IterItem.ren ρ) := by
  refine items_induct (s := s) (now := now) (oracle := oracle)
    (motive := fun F P => items s now oracle (F.map (ren ρ)) (P.map (ren ρ)) = (items s now oracle F P).map (IterItem.ren ρ)) ?_ ?_ F P
  · intro F P h
    rw [items_eq, nextL_ren, items_eq s now oracle F P, h]; rfl
  · intro F P item F' P' h ih
    rw [items_eq, nextL_ren, items_eq s now oracle F P, h]
    simp only [Option.map_some, List.map_cons, ih]

/-! ### one step of the loop -/

theorem matchFill_ren (ρ : Nat → Nat) (env : Env) (i : IterItem) (b q : Int) (s : MatchSt) :
    RSim (fun x y => y = x.ren ρ) (matchFill env i b q s) (matchFill env (i.ren ρ) b q (s.ren ρ)) := by
  unfold matchFill
  refine RSim.same fun _ _ => RSim.same fun _ _ => RSim.same fun _ _ => RSim.same fun n _ => ?_
  refine RSim.same fun x _ => RSim.same fun _ _ => ?_
  show _ = _
  unfold MatchSt.ren
  by_cases h : n = 0 <;> simp [h, IterItem.ren, renQ, mkFill]

theorem matchStep_ren (ρ : Nat → Nat) (env : Env) (price : Int) (i : IterItem) (s : MatchSt) :
    RSim (fun x y => y = (x.1, x.2.ren ρ)) (matchStep env price i s) (matchStep env price (i.ren ρ) (s.ren ρ)) := by
  unfold matchStep
  simp only [show (i.ren ρ).state = i.state from rfl, show (i.ren ρ).leaf = i.leaf from rfl, show (i.ren ρ).comp = i.comp from rfl,
    show (i.ren ρ).priceLots = i.priceLots from rfl, show (s.ren ρ).remBase = s.remBase from rfl, show (s.ren ρ).remQuote = s.remQuote from rfl,
    show (s.ren ρ).dropped = s.dropped from rfl, show (s.ren ρ).limit = s.limit from rfl, show (s.ren ρ).g = s.g from rfl,
    show (s.ren ρ).decr = s.decr from rfl, show (s.ren ρ).rebates = s.rebates from rfl]
  split
  · exact rfl
  split
  · split
    · exact RSim.same fun _ _ => rfl
    · exact rfl
  split
  · exact rfl
  split
  · exact rfl
  split
  · exact rfl
  refine RSim.same fun _ _ => ?_
  split
  · exact rfl
  refine RSim.same fun _ _ => ?_
  split
  · split
    · refine RSim.same fun d _ => ?_
      refine (matchFill_ren ρ env i _ _ { s with decr := d }).bind ?_
      intro x y h; rw [h]; exact rfl
    · exact RSim.same fun _ _ => RSim.same fun _ _ => rfl
    · exact rfl
  · refine RSim.same fun _ _ => RSim.same fun _ _ => RSim.same fun d _ => ?_
    refine (matchFill_ren ρ env i _ _ { s with rebates := d }).bind ?_
    intro x y h; rw [h]; exact rfl

theorem foldItems_ren (ρ : Nat → Nat) (env : Env) (price : Int) (L : List IterItem) (s : MatchSt) :
    RSim (fun x y => y = x.ren ρ) (foldItems env price L s) (foldItems env price (L.map (IterItem.ren ρ)) (s.ren ρ)) := by
  induction L generalizing s with
  | nil => exact rfl
  | cons i L ih =>
    simp only [List.map_cons, foldItems]
    refine (matchStep_ren ρ env price i s).bind ?_
    intro x y h
    rw [h]
    simp only
    split
    · exact ih x.2
    · exact rfl

/-- The loop changes only orders it was given. -/
theorem foldItems_changes {env : Env} {price : Int} {H : Nat → Prop} (L : List IterItem) (s s' : MatchSt)
    (hL : ∀ i ∈ L, H i.handle) (hs : ∀ x ∈ s.changes, H x.1) (h : foldItems env price L s = .ok s') : ∀ x ∈ s'.changes, H x.1 := by
  have key : ∀ i s go s', H i.handle → (∀ x ∈ s.changes, H x.1) → StepOut env price i s go s' → ∀ x ∈ s'.changes, H x.1 := by
    intro i s go s' hi hs h
    have fill : ∀ g p, ∀ x ∈ (afterFill env i s g p).changes, H x.1 := by
      intro g p x hx
      unfold afterFill at hx
      simp only at hx
      split at hx
      · exact hs x hx
      · rcases List.mem_append.mp hx with hx | hx
        · exact hs x hx
        · simp at hx; rw [hx]; exact hi
    cases h with
    | fillSelf g p => exact fill g p
    | fill g p => exact fill g p
    | _ => exact hs
  refine foldItems_induct (env := env) (price := price) (I := fun _ todo s => (∀ i ∈ todo, H i.handle) ∧ ∀ x ∈ s.changes, H x.1)
    (J := fun s => ∀ x ∈ s.changes, H x.1) ?_ ?_ ?_ L [] s s' ⟨hL, hs⟩ h
  · intro _ s h; exact h.2
  · intro _ i todo s s' hI hst
    exact ⟨fun j hj => hI.1 j (by simp [hj]), key i s true s' (hI.1 i (by simp)) hI.2 hst⟩
  · intro _ i todo s s' hI hst
    exact key i s false s' (hI.1 i (by simp)) hI.2 hst

/-! ### renaming and the trees -/

/-- The leaves of both components, fixed first. -/
def allLeaves (ot : Comp → Option T) : HL := OT.leaves (ot .fixed) ++ OT.leaves (ot .pegged)

/-- `ρ` renames the handles of one side to those of the other. -/
structure Renames (ρ : Nat → Nat) (ot ot' : Comp → Option T) : Prop where
  leaves : ∀ c, OT.leaves (ot' c) = (OT.leaves (ot c)).map (ren ρ)
  inj : ∀ x ∈ (allLeaves ot).map (·.1), ∀ y ∈ (allLeaves ot).map (·.1), ρ x = ρ y → x = y

theorem BSim.renames {b b' : BookSide} {ot ot' : Comp → Option T} (h : BSim b b' ot ot') : ∃ ρ, Renames ρ ot ot' := by
  have hn := h.ok.handles
  have hn' := h.ok'.handles
  rw [← List.map_append] at hn hn'
  have hl : ∀ c, (OT.leaves (ot' c)).map (·.2) = (OT.leaves (ot c)).map (·.2) := fun c => by rw [← OT.lvs_eq, ← OT.lvs_eq, h.lvs]
  obtain ⟨ρ, e⟩ := rename_ex (allLeaves ot) (allLeaves ot') (by unfold allLeaves; rw [List.map_append, List.map_append, hl, hl]) hn
  have hlen : (OT.leaves (ot' .fixed)).length = ((OT.leaves (ot .fixed)).map (ren ρ)).length := by
    have := congrArg List.length (hl .fixed); simpa using this
  unfold allLeaves at e
  rw [List.map_append] at e
  obtain ⟨e1, e2⟩ := List.append_inj e hlen
  refine ⟨ρ, ?_, ?_⟩
  · intro c; cases c
    · exact e1
    · exact e2
  · have hm : (allLeaves ot').map (·.1) = ((allLeaves ot).map (·.1)).map ρ := by
      unfold allLeaves; rw [e]
      simp only [List.map_append, List.map_map]
      rfl
    have hn2 : (((allLeaves ot).map (·.1)).map ρ).Nodup := by rw [← hm]; exact hn'
    intro x hx y hy he
    exact List.inj_on_of_nodup_map hn2 hx hy he

theorem Renames.ord {ρ : Nat → Nat} {ot ot' : Comp → Option T} (h : Renames ρ ot ot') (s : Side) (c : Comp) :
    OT.ord s (ot' c) = (OT.ord s (ot c)).map (ren ρ) := by
  rw [OT.ord_eq, OT.ord_eq]
  cases s with
  | bid => simp only [h.leaves, List.map_reverse]
  | ask => exact h.leaves c

theorem setQL_ren {ρ : Nat → Nat} {L : HL} {h : Nat} (q : Int) (hi : ∀ x ∈ L, ρ x.1 = ρ h → x.1 = h) :
    setQL (ρ h) q (L.map (ren ρ)) = (setQL h q L).map (ren ρ) := by
  unfold setQL
  rw [List.map_map, List.map_map]
  apply List.map_congr_left
  intro x hx
  simp only [Function.comp, ren]
  by_cases he : x.1 = h
  · simp [he]
  · rw [if_neg he]
    exact if_neg (fun e => he (hi x hx e))

theorem setQs_ren {ρ : Nat → Nat} {H : Nat → Prop} (hi : ∀ x y, H x → H y → ρ x = ρ y → x = y) (C : List (Nat × Int)) (L : HL)
    (hC : ∀ x ∈ C, H x.1) (hL : ∀ x ∈ L, H x.1) : setQs (C.map (renQ ρ)) (L.map (ren ρ)) = (setQs C L).map (ren ρ) := by
  induction C generalizing L with
  | nil => rfl
  | cons c C ih =>
    show setQs (C.map (renQ ρ)) (setQL (ρ c.1) c.2 (L.map (ren ρ))) = (setQs C (setQL c.1 c.2 L)).map (ren ρ)
    rw [setQL_ren c.2 (fun x hx he => hi x.1 c.1 (hL x hx) (hC c (by simp)) he)]
    refine ih _ (fun x hx => hC x (by simp [hx])) ?_
    intro x hx
    have : x.1 ∈ (setQL c.1 c.2 L).map (·.1) := List.mem_map_of_mem hx
    rw [setQL_handles] at this
    obtain ⟨y, hy, e⟩ := List.mem_map.mp this
    rw [← e]; exact hL y hy

theorem mem_allLeaves {ot : Comp → Option T} {c : Comp} {x : Nat × LeafNode} (h : x ∈ OT.leaves (ot c)) : x.1 ∈ (allLeaves ot).map (·.1) := by
  refine List.mem_map_of_mem ?_
  unfold allLeaves
  cases c <;> simp [h]

theorem BSim.applyChanges {b b' : BookSide} {ot ot' : Comp → Option T} (h : BSim b b' ot ot') {ρ : Nat → Nat} (hr : Renames ρ ot ot')
    {C : List (Nat × Int)} (hC : ∀ x ∈ C, x.1 ∈ (allLeaves ot).map (·.1)) :
    RSim SideSim (OB.applyChanges b C) (OB.applyChanges b' (C.map (renQ ρ))) := by
  have h1 : ∀ x ∈ C, ∃ c, x.1 ∈ (OT.leaves (ot c)).map (·.1) := by
    intro x hx
    have := hC x hx
    unfold allLeaves at this
    rw [List.map_append, List.mem_append] at this
    rcases this with h | h
    · exact ⟨.fixed, h⟩
    · exact ⟨.pegged, h⟩
  obtain ⟨b1, ot1, e1, o1, l1, s1⟩ := applyChanges_spec h.ok C h1
  obtain ⟨b2, ot2, e2, o2, l2, s2⟩ := applyChanges_spec h.ok' (C.map (renQ ρ)) (by
    intro x hx
    obtain ⟨y, hy, rfl⟩ := List.mem_map.mp hx
    obtain ⟨c, hc⟩ := h1 y hy
    refine ⟨c, ?_⟩
    rw [hr.leaves, List.map_map]
    obtain ⟨z, hz, e⟩ := List.mem_map.mp hc
    refine List.mem_map.mpr ⟨z, hz, ?_⟩
    simp [ren, renQ, e])
  rw [e1, e2]
  refine ⟨ot1, ot2, o1, o2, ?_, by rw [s1, s2, h.side], by rw [applyChanges_bump e1, applyChanges_bump e2, h.bump], ?_⟩
  · intro c
    rw [OT.lvs_eq, OT.lvs_eq, l1, l2, hr.leaves,
      setQs_ren (H := fun x => x ∈ (allLeaves ot).map (·.1)) (fun x y hx hy => hr.inj x hx y hy) C _ hC (fun x hx => mem_allLeaves hx)]
    rw [List.map_map]; rfl
  · intro l hl
    rw [OT.lvs_eq, l1] at hl
    have : l.key ∈ (setQs C (OT.leaves (ot .fixed))).map (·.2.key) := by
      obtain ⟨x, hx, rfl⟩ := List.mem_map.mp hl
      exact List.mem_map.mpr ⟨x, hx, rfl⟩
    rw [setQs_keys] at this
    obtain ⟨x, hx, e⟩ := List.mem_map.mp this
    have := h.fixed x.2 (by rw [OT.lvs_eq]; exact List.mem_map_of_mem hx)
    obtain ⟨k1, k2, k3⟩ := this
    unfold LeafNode.priceData at k2 k3
    rw [e] at k1 k2 k3
    exact ⟨k1, k2, k3⟩

/-! ### the whole loop and the best price -/

theorem BSim.fixedOrd {b b' : BookSide} {ot ot' : Comp → Option T} (h : BSim b b' ot ot') (s : Side) :
    ∀ f ∈ OT.ord s (ot .fixed), FixedOk f.2 := by
  intro f hf
  refine h.fixed f.2 ?_
  rw [OT.lvs_eq]
  exact List.mem_map_of_mem ((OT.ord_perm _ _).mem_iff.mp hf)

theorem BSim.symm {b b' : BookSide} {ot ot' : Comp → Option T} (h : BSim b b' ot ot') : BSim b' b ot' ot :=
  ⟨h.ok', h.ok, fun c => (h.lvs c).symm, h.side.symm, h.bump.symm, by rw [h.lvs]; exact h.fixed⟩

theorem BSim.ordLen {b b' : BookSide} {ot ot' : Comp → Option T} (h : BSim b b' ot ot') (s : Side) :
    (OT.ord s (ot .pegged)).length ≤ 1024 ∧ (OT.ord s (ot .fixed)).length + (OT.ord s (ot .pegged)).length + 1 ≤ 2 * Nodes.fuel := by
  have hlen := h.ok.lengths
  have lF := (OT.ord_perm s (ot .fixed)).length_eq
  have lP := (OT.ord_perm s (ot .pegged)).length_eq
  unfold Nodes.fuel
  omega

/-- The loop as a fold. -/
theorem BSim.loop {b b' : BookSide} {ot ot' : Comp → Option T} (h : BSim b b' ot ot') :
    ∃ it, b.iter = .ok it ∧ ∀ env price s, matchLoop env price b.nodes (2 * Nodes.fuel) it s =
      foldItems env price (items b.side env.nowTs env.oracle (OT.ord b.side (ot .fixed)) (OT.ord b.side (ot .pegged))) s := by
  obtain ⟨it, hit, hi1, hi2⟩ := bs_iter h.ok
  obtain ⟨h1, h2⟩ := h.ordLen b.side
  exact ⟨it, hit, fun env price s => matchLoop_eq (2 * Nodes.fuel) s ⟨hi1, hi2⟩ (h.fixedOrd _) h1 h2⟩

theorem BSim.bestPrice {b b' : BookSide} {ot ot' : Comp → Option T} (h : BSim b b' ot ot') (now : Nat) (oracle : Option Int) :
    b'.bestPrice now oracle = b.bestPrice now oracle := by
  have key : ∀ {b b' : BookSide} {ot ot' : Comp → Option T}, BSim b b' ot ot' → b.bestPrice now oracle =
      .ok (((items b.side now oracle (OT.ord b.side (ot .fixed)) (OT.ord b.side (ot .pegged))).find? (fun i => i.state = .valid)).map (·.priceLots)) := by
    intro b b' ot ot' h
    obtain ⟨it, hit, hi1, hi2⟩ := bs_iter h.ok
    obtain ⟨h1, h2⟩ := h.ordLen b.side
    unfold BookSide.bestPrice
    rw [hit]
    simp only [ok_bind]
    rw [firstValid_eq (2 * Nodes.fuel) ⟨hi1, hi2⟩ (h.fixedOrd _) h1 h2]
    simp only [ok_bind]
    show (match List.find? _ (items b.side now oracle _ _) with | none => _ | some item => _ : R (Option Int)) = _
    cases List.find? (fun i : IterItem => decide (i.state = .valid)) (items b.side now oracle (OT.ord b.side (ot .fixed)) (OT.ord b.side (ot .pegged))) <;> rfl
  rw [key h, key h.symm]
  obtain ⟨ρ, hr⟩ := h.renames
  rw [h.side, hr.ord, hr.ord, items_ren, List.find?_map]
  simp only [Option.map_map]
  rfl

end OB
