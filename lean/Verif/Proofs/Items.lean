import Verif.Proofs.SideIter
/-! Which items the book side iterator yields, and in which order. -/
namespace OB

theorem pegPeek_none {oracle : Option Int} {s : Side} {P : HL} (h : (pegPeek oracle s P).1 = none) :
    oracle = none ∨ (pegPeek oracle s P).2 = [] := by
  cases oracle with
  | none => exact .inl rfl
  | some o =>
    right
    unfold pegPeek at *
    cases P with
    | nil => rfl
    | cons p ps =>
      simp only at *
      split at h
      · rename_i hp; rw [if_pos hp]; exact (skipAhead_none h).1
      · cases h

/-- The order on offer splits the list. -/
theorem pegPeek_split {oracle : Option Int} {s : Side} {P : HL} {p : Nat × LeafNode} (h : (pegPeek oracle s P).1 = some p) :
    ∃ A R, P = A ++ p :: R ∧ ((pegPeek oracle s P).2 = p :: R ∨ (pegPeek oracle s P).2 = R) := by
  obtain ⟨o, _, _, hc⟩ := pegPeek_some h
  rcases hc with ⟨P', h1, h2⟩ | ⟨A, L, h1, _, _, h3⟩
  · exact ⟨[], P', by rw [h1]; rfl, .inl (by rw [h2, h1])⟩
  · exact ⟨A, L, h1, .inr h3⟩

theorem items_mem {s : Side} {now : Nat} {oracle : Option Int} (F P : HL) : ∀ i ∈ items s now oracle F P,
    (∃ f ∈ F, i = fixedItem now f) ∨ ∃ o, oracle = some o ∧ ∃ p ∈ P, isSkipped o s p = false ∧ i = peggedItem s now o p := by
  refine items_induct (s := s) (now := now) (oracle := oracle)
    (motive := fun F P => ∀ i ∈ items s now oracle F P,
      (∃ f ∈ F, i = fixedItem now f) ∨ ∃ o, oracle = some o ∧ ∃ p ∈ P, isSkipped o s p = false ∧ i = peggedItem s now o p)
    ?_ ?_ F P
  · intro F P h i hi
    rw [items_eq, h] at hi; simp at hi
  · intro F P item F' P' h ih i hi
    rw [items_eq, h] at hi
    simp only [List.mem_cons] at hi
    obtain ⟨s1, s2⟩ := nextL_subset h
    rcases hi with rfl | hi
    · rcases nextL_cases h with ⟨f, h1, h2, _⟩ | ⟨o, p, h1, h2, h3, _, _⟩
      · exact .inl ⟨f, by rw [h1]; simp, h2⟩
      · right
        obtain ⟨o', e1, e2, _⟩ := pegPeek_some h2
        rw [h1] at e1; injection e1 with e1; subst e1
        obtain ⟨A, R, e3, _⟩ := pegPeek_split h2
        exact ⟨o, h1, p, by rw [e3]; simp, e2, h3⟩
    · rcases ih i hi with ⟨f, hf, he⟩ | ⟨o, ho, p, hp, he⟩
      · exact .inl ⟨f, s1.subset hf, he⟩
      · exact .inr ⟨o, ho, p, s2.subset hp, he⟩

def IterItem.ref (i : IterItem) : Nat × LeafNode := (i.handle, i.leaf)

/-- Every order of the fixed tree is visited exactly once, in tree order. -/
theorem items_fixed {s : Side} {now : Nat} {oracle : Option Int} (F P : HL) :
    ((items s now oracle F P).filter (fun i => i.comp = .fixed)).map IterItem.ref = F := by
  refine items_induct (s := s) (now := now) (oracle := oracle)
    (motive := fun F P => ((items s now oracle F P).filter (fun i => i.comp = .fixed)).map IterItem.ref = F) ?_ ?_ F P
  · intro F P h
    rw [items_eq, h]
    have : F = [] := by
      unfold nextL at h
      cases F with
      | nil => rfl
      | cons f F =>
        split at h
        · simp only at h; split at h <;> cases h
        · cases h
    subst this; rfl
  · intro F P item F' P' h ih
    rw [items_eq, h]
    rcases nextL_cases h with ⟨f, h1, h2, _⟩ | ⟨o, p, h1, h2, h3, h4, _⟩
    · subst h1; subst h2
      rw [List.filter_cons_of_pos (by simp [fixedItem]), List.map_cons, ih]; rfl
    · subst h3; subst h4
      rw [List.filter_cons_of_neg (by simp [peggedItem, peggedToResult]), ih]

/-- Every order of the pegged tree is visited at most once, in tree order. -/
theorem items_pegged {s : Side} {now : Nat} {oracle : Option Int} (F P : HL) :
    (((items s now oracle F P).filter (fun i => i.comp = .pegged)).map IterItem.ref).Sublist P := by
  refine items_induct (s := s) (now := now) (oracle := oracle)
    (motive := fun F P => (((items s now oracle F P).filter (fun i => i.comp = .pegged)).map IterItem.ref).Sublist P) ?_ ?_ F P
  · intro F P h
    rw [items_eq, h]; simp
  · intro F P item F' P' h ih
    rw [items_eq, h]
    rcases nextL_cases h with ⟨f, h1, h2, h3⟩ | ⟨o, p, h1, h2, h3, h4, h5⟩
    · subst h2
      rw [List.filter_cons_of_neg (by simp [fixedItem])]
      exact ih.trans (nextL_subset h).2.sublist
    · subst h3
      rw [List.filter_cons_of_pos (by simp [peggedItem, peggedToResult]), List.map_cons]
      obtain ⟨A, R, e1, e2⟩ := pegPeek_split h2
      have hR : P'.Sublist R := by
        rw [h5]
        rcases e2 with e2 | e2 <;> rw [e2]
        · exact List.Sublist.refl _
        · exact List.tail_sublist _
      rw [e1]
      exact (List.Sublist.cons_cons p (ih.trans hR)).trans (List.sublist_append_right _ _)

/-- With a price for every pegged order, every pegged order is visited. -/
theorem items_pegged_all {s : Side} {now : Nat} {o : Int} (F P : HL) (hP : ∀ p ∈ P, isSkipped o s p = false) :
    ((items s now (some o) F P).filter (fun i => i.comp = .pegged)).map IterItem.ref = P := by
  revert hP
  refine items_induct (s := s) (now := now) (oracle := some o)
    (motive := fun F P => (∀ p ∈ P, isSkipped o s p = false) →
      ((items s now (some o) F P).filter (fun i => i.comp = .pegged)).map IterItem.ref = P) ?_ ?_ F P
  · intro F P h hP
    rw [items_eq, h]
    cases P with
    | nil => rfl
    | cons p P =>
      have hp := hP p (by simp)
      unfold nextL at h
      simp only [pegPeek, hp, Bool.false_eq_true, if_false] at h
      split at h <;> (try split at h) <;> cases h
  · intro F P item F' P' h ih hP
    rw [items_eq, h]
    have hpk : pegPeek (some o) s P = (P.head?, P) := by
      cases P with
      | nil => rfl
      | cons p P => simp [pegPeek, hP p (by simp)]
    rcases nextL_cases h with ⟨f, h1, h2, h3⟩ | ⟨o', p, h1, h2, h3, h4, h5⟩
    · subst h2
      rw [List.filter_cons_of_neg (by simp [fixedItem])]
      rw [hpk] at h3; subst h3
      exact ih hP
    · subst h3
      rw [List.filter_cons_of_pos (by simp [peggedItem, peggedToResult]), List.map_cons]
      rw [hpk] at h2 h5
      subst h5
      cases P with
      | nil => cases h2
      | cons q P =>
        simp only [List.head?_cons, Option.some.injEq] at h2; subst h2
        simp only [List.tail_cons] at *
        rw [ih (fun x hx => hP x (by simp [hx]))]
        rfl

/-- Key of an item as a fixed price order. -/
def IterItem.ekey (i : IterItem) : Nat := effKey i.leaf.key i.priceLots

/-- `a` is as good as `b` for the side. -/
def geKey (s : Side) (a b : Nat) : Prop := match s with | .bid => b ≤ a | .ask => a ≤ b

theorem geKey.trans {s : Side} {a b c : Nat} (h1 : geKey s a b) (h2 : geKey s b c) : geKey s a c := by
  cases s <;> (simp only [geKey] at *; omega)

theorem geKey_of_better {s : Side} {a b : Nat} (h : betterKey s a b = true) : geKey s a b := by
  cases s <;> (simp [betterKey, geKey] at *; omega)

theorem geKey_of_not_better {s : Side} {a b : Nat} (h : ¬ betterKey s a b = true) : geKey s b a := by
  cases s <;> (simp [betterKey, geKey] at *; omega)

def SortedSide (s : Side) (L : HL) : Prop := L.Pairwise (fun a b => betterKey s a.2.key b.2.key = true)

theorem FixedOk.ekey {now : Nat} {f : Nat × LeafNode} (h : FixedOk f.2) : (fixedItem now f).ekey = f.2.key := by
  have h1 := h.key
  unfold IterItem.ekey fixedItem effKey
  show ((f.2.priceData : Int)).toNat * two64 + f.2.key % two64 = f.2.key
  unfold LeafNode.priceData
  rw [Nat.shiftRight_eq_div_pow]
  unfold two64 at *
  omega

theorem notSkipped_price {o : Int} {s : Side} {p : Nat × LeafNode} (h : isSkipped o s p = false) :
    (oraclePeggedPrice o p.2 s).2 = o + oraclePeggedPriceOffset p.2.priceData ∧
    1 ≤ o + oraclePeggedPriceOffset p.2.priceData ∧ o + oraclePeggedPriceOffset p.2.priceData < i64Max := by
  unfold isSkipped at h
  simp only [decide_eq_false_iff_not] at h
  unfold oraclePeggedPrice at *
  simp only at *
  split at h
  · rename_i hc
    rw [if_pos hc]
    have e : satAddI64 o (oraclePeggedPriceOffset p.2.priceData) = o + oraclePeggedPriceOffset p.2.priceData := by
      unfold satAddI64 i64Max i64Min at *; omega
    rw [e] at hc
    refine ⟨?_, hc⟩
    rw [← e]; split <;> rfl
  · simp at h

theorem pegged_ekey {o : Int} {s : Side} {now : Nat} {p : Nat × LeafNode} (h : isSkipped o s p = false) (hk : p.2.key < 2 ^ 128) :
    ((peggedItem s now o p).ekey : Int) = p.2.key + (o - 9223372036854775808) * two64 := by
  obtain ⟨h1, h2, h3⟩ := notSkipped_price h
  have hpd : p.2.priceData < two64 := Nat.mod_lt _ (by decide)
  rw [oraclePeggedPriceOffset_eq hpd] at *
  unfold IterItem.ekey peggedItem peggedToResult effKey
  simp only [h1]
  have e : p.2.priceData = p.2.key / two64 := by
    unfold LeafNode.priceData
    rw [Nat.shiftRight_eq_div_pow]
    unfold two64
    omega
  unfold two64 at *
  omega

theorem pegged_ekey_mono {o : Int} {s : Side} {now : Nat} {p q : Nat × LeafNode} (hp : isSkipped o s p = false)
    (hq : isSkipped o s q = false) (hkp : p.2.key < 2 ^ 128) (hkq : q.2.key < 2 ^ 128)
    (h : betterKey s p.2.key q.2.key = true) : betterKey s (peggedItem s now o p).ekey (peggedItem s now o q).ekey = true := by
  have e1 := pegged_ekey (now := now) hp hkp
  have e2 := pegged_ekey (now := now) hq hkq
  cases s <;> (simp [betterKey] at *; omega)

/-- The items come in the order of their effective keys. -/
theorem items_sorted {s : Side} {now : Nat} {oracle : Option Int} (F P : HL) (hF : ∀ f ∈ F, FixedOk f.2)
    (hP : ∀ p ∈ P, p.2.key < 2 ^ 128) (sF : SortedSide s F) (sP : SortedSide s P) :
    (items s now oracle F P).Pairwise (fun i j => geKey s i.ekey j.ekey) := by
  revert hF hP sF sP
  refine items_induct (s := s) (now := now) (oracle := oracle)
    (motive := fun F P => (∀ f ∈ F, FixedOk f.2) → (∀ p ∈ P, p.2.key < 2 ^ 128) → SortedSide s F → SortedSide s P →
      (items s now oracle F P).Pairwise (fun i j => geKey s i.ekey j.ekey)) ?_ ?_ F P
  · intro F P h _ _ _ _
    rw [items_eq, h]; simp
  · intro F P item F' P' h ih hF hP sF sP
    rw [items_eq, h]
    obtain ⟨s1, s2⟩ := nextL_subset h
    have ih' := ih (fun f hf => hF f (s1.subset hf)) (fun p hp => hP p (s2.subset hp)) (sF.sublist s1.sublist)
      (sP.sublist s2.sublist)
    refine List.Pairwise.cons ?_ ih'
    intro j hj
    have hm := items_mem F' P' j hj
    rcases nextL_cases h with ⟨f, h1, h2, h3⟩ | ⟨o, p, h1, h2, h3, h4, h5⟩
    · subst h2
      rw [FixedOk.ekey (hF f (by rw [h1]; simp))]
      rcases hm with ⟨f', hf', rfl⟩ | ⟨o, ho, q, hq, hsk, rfl⟩
      · rw [FixedOk.ekey (hF f' (s1.subset hf'))]
        rw [h1] at sF
        exact geKey_of_better ((List.pairwise_cons.mp sF).1 f' hf')
      · subst ho
        have hpk : ∃ p, (pegPeek (some o) s P).1 = some p := by
          cases hx : (pegPeek (some o) s P).1 with
          | some p => exact ⟨p, rfl⟩
          | none =>
            rcases pegPeek_none hx with hx | hx
            · cases hx
            · rw [h3, hx] at hq; simp at hq
        obtain ⟨p, hpk⟩ := hpk
        obtain ⟨o', e1, e2, _⟩ := pegPeek_some hpk
        injection e1 with e1; subst e1
        obtain ⟨A, R, e3, e4⟩ := pegPeek_split hpk
        have hpP : p ∈ P := by rw [e3]; simp
        have hfp : betterKey s f.2.key (peggedItem s now o p).ekey = true := by
          unfold nextL at h
          simp only [hpk, h1] at h
          split at h
          · rename_i hb; exact hb
          · simp only [Option.some.injEq, Prod.mk.injEq] at h
            have := congrArg IterItem.comp h.1
            simp [peggedItem, peggedToResult, fixedItem] at this
        have hpq : geKey s (peggedItem s now o p).ekey (peggedItem s now o q).ekey := by
          have hq' : q = p ∨ q ∈ R := by
            rw [h3] at hq
            rcases e4 with e4 | e4 <;> rw [e4] at hq
            · simpa using hq
            · exact .inr hq
          rcases hq' with rfl | hq'
          · cases s <;> simp [geKey]
          · have sP' := sP
            unfold SortedSide at sP'
            rw [e3] at sP'
            have := (List.pairwise_cons.mp (List.pairwise_append.mp sP').2.1).1 q hq'
            exact geKey_of_better (pegged_ekey_mono e2 hsk (hP p hpP) (hP q (s2.subset hq)) this)
        exact (geKey_of_better hfp).trans hpq
    · subst h3
      obtain ⟨o', e1, e2, _⟩ := pegPeek_some h2
      rw [h1] at e1; injection e1 with e1; subst e1
      obtain ⟨A, R, e3, e4⟩ := pegPeek_split h2
      have hpP : p ∈ P := by rw [e3]; simp
      rcases hm with ⟨f', hf', rfl⟩ | ⟨o', ho, q, hq, hsk, rfl⟩
      · rw [FixedOk.ekey (hF f' (s1.subset hf'))]
        cases F with
        | nil => have := s1.subset hf'; simp at this
        | cons f F =>
          have hb : ¬ betterKey s f.2.key (peggedItem s now o p).ekey = true := by
            unfold nextL at h
            simp only [h1] at h2
            simp only [h1, h2] at h
            split at h
            · simp only [Option.some.injEq, Prod.mk.injEq] at h
              have := congrArg IterItem.comp h.1
              simp [peggedItem, peggedToResult, fixedItem] at this
            · rename_i hb; exact hb
          have h0 := geKey_of_not_better hb
          have hf'' := s1.subset hf'
          simp only [List.mem_cons] at hf''
          rcases hf'' with rfl | hf''
          · exact h0
          · exact h0.trans (geKey_of_better ((List.pairwise_cons.mp sF).1 f' hf''))
      · rw [h1] at ho; injection ho with ho; subst ho
        have hq' : q ∈ R := by
          rw [h5] at hq
          rcases e4 with e4 | e4 <;> rw [e4] at hq
          · exact hq
          · exact List.mem_of_mem_tail hq
        have sP' := sP
        unfold SortedSide at sP'
        rw [e3] at sP'
        have := (List.pairwise_cons.mp (List.pairwise_append.mp sP').2.1).1 q hq'
        exact geKey_of_better (pegged_ekey_mono e2 hsk (hP p hpP) (hP q (s2.subset hq)) this)

/-- Iteration order of a tree is sorted. -/
theorem ord_sorted {nd : Nat → AnyNode} {r : Root} {ot : Option T} (h : RootRep nd r ot) (s : Side) : SortedSide s (OT.ord s ot) := by
  have hs := h.sorted
  rw [OT.lvs_eq, List.pairwise_map] at hs
  unfold SortedSide
  rw [OT.ord_eq]
  cases s with
  | bid =>
    simp only [List.pairwise_reverse]
    exact hs.imp (by intro a b hab; simp [betterKey]; omega)
  | ask =>
    exact hs.imp (by intro a b hab; simp [betterKey]; omega)

end OB
