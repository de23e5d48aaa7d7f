import Verif.Proofs.BookSide
import Verif.Proofs.Keys
import Verif.Model.Book
/-! The book side iterator on lists. -/
namespace OB

abbrev HL := List (Nat × LeafNode)

/-- What is known of an order in the fixed price tree. -/
structure FixedOk (l : LeafNode) : Prop where
  key : l.key < 2 ^ 128
  lo : 1 ≤ l.priceData
  hi : (l.priceData : Int) ≤ i64Max

def isSkipped (o : Int) (s : Side) (x : Nat × LeafNode) : Bool := (oraclePeggedPrice o x.2 s).1 = .skipped

/-- After a first skipped order the iterator is one ahead of the order it offers. -/
def skipAhead (o : Int) (s : Side) : HL → Option (Nat × LeafNode) × HL
  | [] => (none, [])
  | q :: qs => if isSkipped o s q then skipAhead o s qs else (some q, qs)

/-- The pegged order on offer and the position of the iterator. -/
def pegPeek (oracle : Option Int) (s : Side) (P : HL) : Option (Nat × LeafNode) × HL :=
  match oracle with
  | none => (none, P)
  | some o =>
    match P with
    | [] => (none, [])
    | p :: ps => if isSkipped o s p then skipAhead o s ps else (some p, p :: ps)

def fixedItem (now : Nat) (f : Nat × LeafNode) : IterItem :=
  { comp := .fixed, handle := f.1, leaf := f.2, priceLots := (f.2.priceData : Int),
    state := if f.2.isExpired now then .invalid else .valid }

def peggedItem (s : Side) (now : Nat) (o : Int) (p : Nat × LeafNode) : IterItem :=
  peggedToResult p.1 p.2 (oraclePeggedPrice o p.2 s).2 (oraclePeggedPrice o p.2 s).1 now

/-- Key the order would have as a fixed price order. -/
def effKey (key : Nat) (price : Int) : Nat := price.toNat * two64 + key % two64

def betterKey (s : Side) (a b : Nat) : Bool := if s = .bid then decide (a > b) else decide (a < b)

def nextL (s : Side) (now : Nat) (oracle : Option Int) (F P : HL) : Option (IterItem × HL × HL) :=
  match oracle, (pegPeek oracle s P).1 with
  | some o, some p =>
    match F with
    | f :: F' =>
      if betterKey s f.2.key (effKey p.2.key (oraclePeggedPrice o p.2 s).2) then
        some (fixedItem now f, F', (pegPeek oracle s P).2)
      else some (peggedItem s now o p, F, (pegPeek oracle s P).2.tail)
    | [] => some (peggedItem s now o p, [], (pegPeek oracle s P).2.tail)
  | _, _ =>
    match F with
    | f :: F' => some (fixedItem now f, F', (pegPeek oracle s P).2)
    | [] => none

theorem skipLoop_ahead {t : Nodes} {o : Int} {s : Side} (n : Nat) {x : Nat × LeafNode} {it : TreeIter} {L : HL}
    (h : IterAt t it L) (hn : L.length + 2 ≤ n) :
    ∃ it', SideIter.skipLoop t o s n (some x) it = .ok ((skipAhead o s (x :: L)).1, it') ∧
      IterAt t it' (skipAhead o s (x :: L)).2 := by
  induction n generalizing x it L with
  | zero => omega
  | succ n ih =>
    rw [SideIter.skipLoop, skipAhead]
    by_cases hs : isSkipped o s x = true
    · have hs' : (oraclePeggedPrice o x.2 s).1 = .skipped := by simpa [isSkipped] using hs
      simp only [hs', ne_eq, not_true_eq_false, if_false, hs, if_true]
      obtain ⟨it', h1, h2⟩ := treeIter_next h
      rw [h1]
      simp only [ok_bind]
      cases L with
      | nil =>
        cases n with
        | zero => simp at hn
        | succ n => exact ⟨it', rfl, h2⟩
      | cons y L => exact ih h2 (by simp at hn ⊢; omega)
    · have hs' : ¬ (oraclePeggedPrice o x.2 s).1 = .skipped := by simpa [isSkipped] using hs
      simp only [hs', ne_eq, not_false_eq_true, if_true, hs, Bool.false_eq_true, if_false]
      exact ⟨it, rfl, h⟩

theorem skipLoop_spec {t : Nodes} {o : Int} {s : Side} (n : Nat) {it : TreeIter} {L : HL}
    (h : IterAt t it L) (hn : L.length + 2 ≤ n) :
    ∃ it', SideIter.skipLoop t o s n it.peek it = .ok ((pegPeek (some o) s L).1, it') ∧ IterAt t it' (pegPeek (some o) s L).2 := by
  rw [h.peek]
  cases L with
  | nil =>
    cases n with
    | zero => omega
    | succ n => exact ⟨it, rfl, h⟩
  | cons x L =>
    cases n with
    | zero => omega
    | succ n =>
      simp only [List.head?_cons, pegPeek]
      rw [SideIter.skipLoop]
      by_cases hs : isSkipped o s x = true
      · have hs' : (oraclePeggedPrice o x.2 s).1 = .skipped := by simpa [isSkipped] using hs
        simp only [hs', ne_eq, not_true_eq_false, if_false, hs, if_true]
        obtain ⟨it', h1, h2⟩ := treeIter_next h
        rw [h1]
        simp only [ok_bind, List.head?_cons]
        have := skipLoop_ahead (o := o) (s := s) n (x := x) h2 (by simp at hn ⊢; omega)
        simpa [skipAhead, hs] using this
      · have hs' : ¬ (oraclePeggedPrice o x.2 s).1 = .skipped := by simpa [isSkipped] using hs
        simp only [hs', ne_eq, not_false_eq_true, if_true, hs, Bool.false_eq_true, if_false]
        exact ⟨it, rfl, h⟩

theorem fixedToResult_eq {f : Nat × LeafNode} (now : Nat) (h : FixedOk f.2) : fixedToResult f now = .ok (fixedItem now f) := by
  unfold fixedToResult
  rw [fixedPriceLots_ok h.hi]; rfl

theorem oraclePeggedPrice_pos (o : Int) (l : LeafNode) (s : Side) :
    1 ≤ (oraclePeggedPrice o l s).2 ∧ (oraclePeggedPrice o l s).2 ≤ i64Max := by
  unfold oraclePeggedPrice
  simp only
  split
  · rename_i h
    split <;> (simp only; omega)
  · simp only [satAddI64]; unfold i64Max i64Min; omega

theorem keyForFixedPrice_eq {key : Nat} {p : Int} (h1 : 1 ≤ p) (h2 : p ≤ i64Max) :
    keyForFixedPrice key p = .ok (effKey key p) := by
  unfold keyForFixedPrice
  rw [show assertR (p ≥ 1) = .ok () from req_true h1]
  simp only [ok_bind]
  rw [fixedPriceData_ok h1 h2]
  simp only [ok_bind]
  rw [shl_or (by unfold two64; omega)]
  rfl

/-- Iterator positions. -/
def SIterAt (t : Nodes) (it : SideIter) (F P : HL) : Prop := IterAt t it.fixedIter F ∧ IterAt t it.peggedIter P

theorem pegPeek_sub (oracle : Option Int) (s : Side) (P : HL) : (pegPeek oracle s P).2.length ≤ P.length := by
  have ha : ∀ o (L : HL), (skipAhead o s L).2.length ≤ L.length := by
    intro o L
    induction L with
    | nil => simp [skipAhead]
    | cons q qs ih => rw [skipAhead]; split <;> simp; omega
  unfold pegPeek
  split
  · simp
  · split
    · simp
    · rename_i p ps
      split
      · have := ha (by assumption) ps; simp; omega
      · simp

/-- One call of `next` on the model is `nextL` on the lists. -/
theorem sideIter_next {t : Nodes} {it : SideIter} {F P : HL} (now : Nat) (oracle : Option Int)
    (h : SIterAt t it F P) (hF : ∀ f ∈ F, FixedOk f.2) (hl : P.length ≤ 1024) :
    (nextL t.side now oracle F P = none ∧ it.next t now oracle = .ok none) ∨
    ∃ item it' F' P', nextL t.side now oracle F P = some (item, F', P') ∧ it.next t now oracle = .ok (some (item, it')) ∧
      SIterAt t it' F' P' := by
  obtain ⟨hf, hp⟩ := h
  have hskip : ∃ pIter, (match (generalizing := false) oracle with
      | some o => SideIter.skipLoop t o t.side (Nodes.fuel + 1) it.peggedIter.peek it.peggedIter
      | none => .ok (none, it.peggedIter) : R _) = .ok ((pegPeek oracle t.side P).1, pIter) ∧
      IterAt t pIter (pegPeek oracle t.side P).2 := by
    cases oracle with
    | none => exact ⟨it.peggedIter, rfl, hp⟩
    | some o => exact skipLoop_spec _ hp (by unfold Nodes.fuel; omega)
  obtain ⟨pIter, hs1, hs2⟩ := hskip
  have hfixed : ∀ f F', F = f :: F' → ∃ f', it.fixedIter.next t = .ok (some f, f') ∧ IterAt t f' F' := by
    intro f F' he
    subst he
    obtain ⟨f', g1, g2⟩ := treeIter_next hf
    exact ⟨f', g1, g2⟩
  obtain ⟨p', hpn1, hpn2⟩ := treeIter_next hs2
  unfold SideIter.next nextL rankOrders
  rw [hf.peek]
  cases oracle with
  | none =>
    simp only at hs1 ⊢
    rw [hs1]
    simp only [ok_bind]
    cases F with
    | nil => left; exact ⟨rfl, rfl⟩
    | cons f F' =>
      right
      obtain ⟨f', g1, g2⟩ := hfixed f F' rfl
      refine ⟨fixedItem now f, ⟨f', pIter⟩, F', (pegPeek none t.side P).2, rfl, ?_, g2, hs2⟩
      simp only [List.head?_cons]
      rw [fixedToResult_eq now (hF f (by simp))]
      simp only [ok_bind, pure_bind', fixedItem]
      rw [g1]; rfl
  | some o =>
    simp only at hs1 ⊢
    rw [hs1]
    simp only [ok_bind]
    cases hpk : (pegPeek (some o) t.side P).1 with
    | none =>
      simp only
      cases F with
      | nil => left; exact ⟨rfl, rfl⟩
      | cons f F' =>
        right
        obtain ⟨f', g1, g2⟩ := hfixed f F' rfl
        refine ⟨fixedItem now f, ⟨f', pIter⟩, F', (pegPeek (some o) t.side P).2, rfl, ?_, g2, hs2⟩
        simp only [List.head?_cons]
        rw [fixedToResult_eq now (hF f (by simp))]
        simp only [ok_bind, pure_bind', fixedItem]
        rw [g1]; rfl
    | some p =>
      right
      simp only
      cases F with
      | nil =>
        refine ⟨peggedItem t.side now o p, ⟨it.fixedIter, p'⟩, [], (pegPeek (some o) t.side P).2.tail, rfl, ?_, hf, hpn2⟩
        simp only [List.head?_nil, pure_bind']
        simp only [peggedItem, peggedToResult]
        rw [hpn1]; rfl
      | cons f F' =>
        obtain ⟨f', g1, g2⟩ := hfixed f F' rfl
        obtain ⟨e1, e2⟩ := oraclePeggedPrice_pos o p.2 t.side
        simp only [List.head?_cons]
        rw [keyForFixedPrice_eq e1 e2]
        simp only [ok_bind]
        by_cases hb : betterKey t.side f.2.key (effKey p.2.key (oraclePeggedPrice o p.2 t.side).2) = true
        · refine ⟨fixedItem now f, ⟨f', pIter⟩, F', (pegPeek (some o) t.side P).2, by rw [if_pos hb], ?_, g2, hs2⟩
          unfold betterKey at hb
          simp only [hb, Bool.xor_false, if_true]
          rw [fixedToResult_eq now (hF f (by simp))]
          simp only [ok_bind, pure_bind', fixedItem]
          rw [g1]; rfl
        · refine ⟨peggedItem t.side now o p, ⟨it.fixedIter, p'⟩, f :: F', (pegPeek (some o) t.side P).2.tail,
            by rw [if_neg hb], ?_, hf, hpn2⟩
          unfold betterKey at hb
          simp only [hb, Bool.xor_false, Bool.false_eq_true, if_false, pure_bind', peggedItem, peggedToResult]
          rw [hpn1]; rfl

/-- The list of items the iterator yields. -/
def itemsL (s : Side) (now : Nat) (oracle : Option Int) : Nat → HL → HL → List IterItem
  | 0, _, _ => []
  | n + 1, F, P =>
    match nextL s now oracle F P with
    | none => []
    | some (item, F', P') => item :: itemsL s now oracle n F' P'

/-- The matching loop as a fold over a list of items. -/
def foldItems (env : Env) (priceLots : Int) : List IterItem → MatchSt → R MatchSt
  | [], s => .ok s
  | i :: is, s => do
    let (go, s') ← matchStep env priceLots i s
    if go then foldItems env priceLots is s' else return s'

theorem skipAhead_some {o : Int} {s : Side} {L : HL} {p : Nat × LeafNode} {L' : HL} (h : skipAhead o s L = (some p, L')) :
    ∃ A, L = A ++ p :: L' ∧ isSkipped o s p = false := by
  induction L with
  | nil => simp [skipAhead] at h
  | cons q qs ih =>
    rw [skipAhead] at h
    split at h
    · obtain ⟨A, h1, h2⟩ := ih h; exact ⟨q :: A, by rw [h1]; rfl, h2⟩
    · rename_i hq
      simp only [Bool.not_eq_true] at hq
      injection h with h1 h2; injection h1 with h1; subst h1; subst h2
      exact ⟨[], rfl, hq⟩

theorem skipAhead_none {o : Int} {s : Side} {L : HL} (h : (skipAhead o s L).1 = none) :
    (skipAhead o s L).2 = [] ∧ ∀ p ∈ L, isSkipped o s p = true := by
  induction L with
  | nil => simp [skipAhead]
  | cons q qs ih =>
    rw [skipAhead] at h ⊢
    split at h
    · rename_i hq
      obtain ⟨h1, h2⟩ := ih h
      rw [if_pos hq]
      refine ⟨h1, ?_⟩
      intro p hp
      rcases List.mem_cons.mp hp with rfl | hp
      · exact hq
      · exact h2 p hp
    · simp at h

/-- The pegged order on offer is in the list, is not skipped, and what the iterator has left comes after it (or is it). -/
theorem pegPeek_some {oracle : Option Int} {s : Side} {P : HL} {p : Nat × LeafNode} (h : (pegPeek oracle s P).1 = some p) :
    ∃ o, oracle = some o ∧ isSkipped o s p = false ∧
      ((∃ P', P = p :: P' ∧ (pegPeek oracle s P).2 = P) ∨
       ∃ A L, P = A ++ p :: L ∧ A ≠ [] ∧ (∀ x ∈ A.head?, isSkipped o s x = true) ∧ (pegPeek oracle s P).2 = L) := by
  cases oracle with
  | none => simp [pegPeek] at h
  | some o =>
    refine ⟨o, rfl, ?_⟩
    cases P with
    | nil => simp [pegPeek] at h
    | cons q qs =>
      simp only [pegPeek] at h ⊢
      split at h
      · rename_i hq
        rw [if_pos hq]
        obtain ⟨A, h1, h2⟩ := skipAhead_some (o := o) (s := s) (L := qs) (p := p) (L' := (skipAhead o s qs).2) (by rw [← h])
        refine ⟨h2, .inr ⟨q :: A, (skipAhead o s qs).2, ?_, by simp, by simpa using hq, rfl⟩⟩
        rw [List.cons_append, ← h1]
      · rename_i hq
        simp only [Bool.not_eq_true] at hq
        injection h with h; subst h
        rw [if_neg (by simp [hq])]
        exact ⟨hq, .inl ⟨qs, rfl, rfl⟩⟩

theorem pegPeek_suffix (oracle : Option Int) (s : Side) (P : HL) : (pegPeek oracle s P).2 <:+ P := by
  have ha : ∀ o (L : HL), (skipAhead o s L).2 <:+ L := by
    intro o L
    induction L with
    | nil => simp [skipAhead]
    | cons q qs ih =>
      rw [skipAhead]; split
      · exact ih.trans (List.suffix_cons _ _)
      · exact List.suffix_cons _ _
  unfold pegPeek
  split
  · exact List.suffix_refl _
  · split
    · exact List.suffix_refl _
    · rename_i p ps
      split
      · exact (ha _ ps).trans (List.suffix_cons _ _)
      · exact List.suffix_refl _

/-- Shape of one step. -/
theorem nextL_cases {s : Side} {now : Nat} {oracle : Option Int} {F P : HL} {item : IterItem} {F' P' : HL}
    (h : nextL s now oracle F P = some (item, F', P')) :
    (∃ f, F = f :: F' ∧ item = fixedItem now f ∧ P' = (pegPeek oracle s P).2) ∨
    (∃ o p, oracle = some o ∧ (pegPeek oracle s P).1 = some p ∧ item = peggedItem s now o p ∧ F' = F ∧
      P' = (pegPeek oracle s P).2.tail) := by
  unfold nextL at h
  split at h
  · rename_i o p he
    cases F with
    | nil =>
      simp only [Option.some.injEq, Prod.mk.injEq] at h
      obtain ⟨rfl, rfl, rfl⟩ := h
      exact .inr ⟨o, p, rfl, he, rfl, rfl, rfl⟩
    | cons f F1 =>
      simp only at h
      split at h
      · simp only [Option.some.injEq, Prod.mk.injEq] at h
        obtain ⟨rfl, rfl, rfl⟩ := h
        exact .inl ⟨f, rfl, rfl, rfl⟩
      · simp only [Option.some.injEq, Prod.mk.injEq] at h
        obtain ⟨rfl, rfl, rfl⟩ := h
        exact .inr ⟨o, p, rfl, he, rfl, rfl, rfl⟩
  · cases F with
    | nil => simp at h
    | cons f F1 =>
      simp only [Option.some.injEq, Prod.mk.injEq] at h
      obtain ⟨rfl, rfl, rfl⟩ := h
      exact .inl ⟨f, rfl, rfl, rfl⟩

theorem nextL_length {s : Side} {now : Nat} {oracle : Option Int} {F P : HL} {item : IterItem} {F' P' : HL}
    (h : nextL s now oracle F P = some (item, F', P')) : F'.length + P'.length + 1 ≤ F.length + P.length := by
  have hs := pegPeek_sub oracle s P
  rcases nextL_cases h with ⟨f, rfl, _, rfl⟩ | ⟨o, p, _, hpk, _, rfl, rfl⟩
  · simp; omega
  · obtain ⟨o', _, _, hc⟩ := pegPeek_some hpk
    rcases hc with ⟨P1, h1, h2⟩ | ⟨A, L, h1, h2, _, h3⟩
    · rw [h2, h1]; simp; omega
    · rw [h3, h1]
      simp only [List.length_tail, List.length_append, List.length_cons]
      omega

theorem itemsL_fuel {s : Side} {now : Nat} {oracle : Option Int} (n m : Nat) (F P : HL)
    (hn : F.length + P.length ≤ n) (hm : F.length + P.length ≤ m) : itemsL s now oracle n F P = itemsL s now oracle m F P := by
  induction n generalizing m F P with
  | zero =>
    have hF : F = [] := List.length_eq_zero_iff.mp (by omega)
    have hP : P = [] := List.length_eq_zero_iff.mp (by omega)
    subst hF hP
    cases m with
    | zero => rfl
    | succ m => simp only [itemsL]; cases oracle <;> rfl
  | succ n ih =>
    cases m with
    | zero =>
      have hF : F = [] := List.length_eq_zero_iff.mp (by omega)
      have hP : P = [] := List.length_eq_zero_iff.mp (by omega)
      subst hF hP
      simp only [itemsL]; cases oracle <;> rfl
    | succ m =>
      simp only [itemsL]
      cases hx : nextL s now oracle F P with
      | none => rfl
      | some x =>
        obtain ⟨item, F', P'⟩ := x
        simp only
        have := nextL_length hx
        rw [ih m F' P' (by omega) (by omega)]

/-- All items of the two lists. -/
def items (s : Side) (now : Nat) (oracle : Option Int) (F P : HL) : List IterItem := itemsL s now oracle (F.length + P.length) F P

theorem items_eq (s : Side) (now : Nat) (oracle : Option Int) (F P : HL) :
    items s now oracle F P = match nextL s now oracle F P with
      | none => []
      | some (item, F', P') => item :: items s now oracle F' P' := by
  have h1 : items s now oracle F P = itemsL s now oracle (F.length + P.length + 1) F P :=
    itemsL_fuel _ _ _ _ (Nat.le_refl _) (by omega)
  rw [h1, itemsL]
  cases hx : nextL s now oracle F P with
  | none => rfl
  | some x =>
    obtain ⟨item, F', P'⟩ := x
    simp only
    have := nextL_length hx
    rw [itemsL_fuel (F.length + P.length) (F'.length + P'.length) F' P' (by omega) (Nat.le_refl _)]
    rfl

/-- Induction over the items. -/
theorem items_induct {s : Side} {now : Nat} {oracle : Option Int} {motive : HL → HL → Prop}
    (hnil : ∀ F P, nextL s now oracle F P = none → motive F P)
    (hcons : ∀ F P item F' P', nextL s now oracle F P = some (item, F', P') → motive F' P' → motive F P) :
    ∀ F P, motive F P := by
  intro F P
  generalize hn : F.length + P.length = n
  induction n using Nat.strongRecOn generalizing F P with
  | _ n ih =>
    cases hx : nextL s now oracle F P with
    | none => exact hnil F P hx
    | some x =>
      obtain ⟨item, F', P'⟩ := x
      have := nextL_length hx
      exact hcons F P item F' P' hx (ih _ (by omega) F' P' rfl)

theorem nextL_subset {s : Side} {now : Nat} {oracle : Option Int} {F P : HL} {item : IterItem} {F' P' : HL}
    (h : nextL s now oracle F P = some (item, F', P')) : F' <:+ F ∧ P' <:+ P := by
  have hs := pegPeek_suffix oracle s P
  rcases nextL_cases h with ⟨f, rfl, _, rfl⟩ | ⟨o, p, _, hpk, _, rfl, rfl⟩
  · exact ⟨List.suffix_cons _ _, hs⟩
  · exact ⟨List.suffix_refl _, (List.tail_suffix _).trans hs⟩

/-- The matching loop folds over the items of the two lists. -/
theorem matchLoop_eq {env : Env} {priceLots : Int} {t : Nodes} (n : Nat) {it : SideIter} {F P : HL} (st : MatchSt)
    (h : SIterAt t it F P) (hF : ∀ f ∈ F, FixedOk f.2) (hl : P.length ≤ 1024) (hn : F.length + P.length + 1 ≤ n) :
    matchLoop env priceLots t n it st = foldItems env priceLots (items t.side env.nowTs env.oracle F P) st := by
  induction n generalizing it F P st with
  | zero => omega
  | succ n ih =>
    rw [matchLoop, items_eq]
    rcases sideIter_next env.nowTs env.oracle h hF hl with ⟨h1, h2⟩ | ⟨item, it', F', P', h1, h2, h3⟩
    · rw [h1, h2]; rfl
    · rw [h1, h2]
      simp only [ok_bind, foldItems]
      have hlen := nextL_length h1
      obtain ⟨s1, s2⟩ := nextL_subset h1
      cases hm : matchStep env priceLots item st with
      | error e => rfl
      | ok x =>
        obtain ⟨go, st'⟩ := x
        simp only [ok_bind]
        cases go with
        | false => rfl
        | true =>
          simp only [if_true]
          exact ih st' h3 (fun f hf => hF f (s1.subset hf)) (by have := s2.length_le; omega) (by omega)

theorem firstValid_eq {t : Nodes} {now : Nat} {oracle : Option Int} (n : Nat) {it : SideIter} {F P : HL}
    (h : SIterAt t it F P) (hF : ∀ f ∈ F, FixedOk f.2) (hl : P.length ≤ 1024) (hn : F.length + P.length + 1 ≤ n) :
    BookSide.firstValid t now oracle n it = .ok ((items t.side now oracle F P).find? (fun i => i.state = .valid)) := by
  induction n generalizing it F P with
  | zero => omega
  | succ n ih =>
    rw [BookSide.firstValid, items_eq]
    rcases sideIter_next now oracle h hF hl with ⟨h1, h2⟩ | ⟨item, it', F', P', h1, h2, h3⟩
    · rw [h1, h2]; rfl
    · rw [h1, h2]
      simp only [ok_bind]
      have hlen := nextL_length h1
      obtain ⟨s1, s2⟩ := nextL_subset h1
      rw [List.find?_cons]
      by_cases hv : item.state = .valid
      · simp only [hv, if_true, decide_true]; rfl
      · simp only [hv, if_false, decide_false]
        exact ih h3 (fun f hf => hF f (s1.subset hf)) (by have := s2.length_le; omega) (by omega)

end OB
