import Verif.Spec.Chain

/-!
The lists of writes of the client's cache: insertion, pruning and the search for the newest write.
-/

namespace OB
namespace Cache

variable {α : Type}

/-- Insertion into a list with the highest slot first. -/
def ins (w : Write α) : List (Write α) → List (Write α)
  | [] => [w]
  | d :: l => if d.slot ≤ w.slot then w :: d :: l else d :: ins w l

/-- Highest slot first. -/
def Desc (l : List (Write α)) : Prop := l.Pairwise (fun a b => b.slot ≤ a.slot)

theorem ins_eq (w : Write α) (l : List (Write α)) :
    ins w l = l.takeWhile (fun d => !decide (d.slot ≤ w.slot)) ++
      w :: l.dropWhile (fun d => !decide (d.slot ≤ w.slot)) := by
  induction l with
  | nil => rfl
  | cons d l ih =>
    by_cases hd : d.slot ≤ w.slot
    · simp [ins, hd]
    · simp [ins, hd, ih]

theorem findIdx_take (l : List (Write α)) (q : Write α → Bool) :
    (l.findIdx? q).getD l.length = (l.takeWhile (fun d => !q d)).length := by
  induction l with
  | nil => rfl
  | cons d l ih =>
    rw [List.findIdx?_cons]
    cases hq : q d with
    | true => simp [hq]
    | false =>
      simp only [List.takeWhile_cons, hq, Bool.not_false, if_true, List.length_cons, ← ih]
      cases l.findIdx? q <;> simp

theorem take_all (l : List (Write α)) (q : Write α → Bool) :
    ∀ d ∈ l.takeWhile q, q d = true := by
  intro d hd
  induction l with
  | nil => simp at hd
  | cons a l ih =>
    rw [List.takeWhile_cons] at hd
    split at hd
    · next h =>
      rcases List.mem_cons.mp hd with h' | h'
      · subst h'; exact h
      · exact ih h'
    · cases hd

theorem insertIdx_mid (a b : List (Write α)) (w : Write α) :
    (a ++ b).insertIdx a.length w = a ++ w :: b := by
  induction a with
  | nil => simp
  | cons d a ih => simpa using ih

/-- chain_data.rs:157-169: no entry is ever overwritten, the write goes after the last entry whose
slot is not above its own. -/
theorem insertWrite_eq (v : List (Write α)) (w : Write α) :
    insertWrite v w = (ins w v.reverse).reverse := by
  have hpos : position v w.slot =
      v.length - (v.reverse.takeWhile (fun d => !decide (d.slot ≤ w.slot))).length := by
    have h := findIdx_take v.reverse (fun d => decide (d.slot ≤ w.slot))
    simp only [List.length_reverse] at h
    unfold position
    rw [h]
  generalize hT : v.reverse.takeWhile (fun d => !decide (d.slot ≤ w.slot)) = T at hpos
  generalize hR : v.reverse.dropWhile (fun d => !decide (d.slot ≤ w.slot)) = R' at *
  have hv : v = R'.reverse ++ T.reverse := by
    have h := List.takeWhile_append_dropWhile (p := fun d : Write α => !decide (d.slot ≤ w.slot))
      (l := v.reverse)
    rw [hT, hR] at h
    have h2 := congrArg List.reverse h
    simpa using h2.symm
  have hp : position v w.slot = R'.reverse.length := by
    have h1 : v.length = R'.length + T.length := by
      have := congrArg List.length hv
      simpa using this
    simp only [List.length_reverse]
    omega
  have hins : (ins w v.reverse).reverse = R'.reverse ++ w :: T.reverse := by
    rw [ins_eq, hT, hR]
    simp
  have hidx : v.insertIdx (position v w.slot) w = R'.reverse ++ w :: T.reverse := by
    rw [hp]
    conv => lhs; rw [hv]
    exact insertIdx_mid _ _ _
  rw [hins]
  unfold insertWrite
  simp only []
  split
  · next d hd =>
    split
    · next he =>
      exfalso
      rw [hp] at hd
      rw [hv, List.getElem?_append_right (Nat.le_refl _)] at hd
      have hm : d ∈ T := by
        have := List.mem_of_getElem? hd
        simpa using this
      rw [← hT] at hm
      have := take_all _ _ d hm
      simp at this
      omega
    · exact hidx
  · exact hidx

theorem ins_mem {w x : Write α} {l : List (Write α)} : x ∈ ins w l ↔ x = w ∨ x ∈ l := by
  induction l with
  | nil => simp [ins]
  | cons d l ih =>
    simp only [ins]
    split
    · simp
    · simp only [List.mem_cons, ih]
      constructor
      · rintro (h | h | h) <;> simp [h]
      · rintro (h | h | h) <;> simp [h]

theorem ins_desc {w : Write α} {l : List (Write α)} (hl : Desc l) : Desc (ins w l) := by
  induction l with
  | nil => simp [ins, Desc]
  | cons d l ih =>
    obtain ⟨h1, h2⟩ := List.pairwise_cons.mp hl
    simp only [ins]
    split
    · next h =>
      refine List.pairwise_cons.mpr ⟨?_, hl⟩
      intro a ha
      rcases List.mem_cons.mp ha with rfl | ha
      · exact h
      · exact Nat.le_trans (h1 a ha) h
    · next h =>
      refine List.pairwise_cons.mpr ⟨?_, ih h2⟩
      intro a ha
      rcases ins_mem.mp ha with rfl | ha
      · omega
      · exact h1 a ha

/-- The newer of a found write and one more. -/
def comb (P : Nat → Bool) (w : Write α) : Option (Write α) → Option (Write α)
  | none => if P w.slot then some w else none
  | some v => if P w.slot && decide (v.slot ≤ w.slot) then some w else some v

/-- The newest write of the slots with `P`, from the writes with the most recent first. -/
def pick (P : Nat → Bool) : List (Write α) → Option (Write α)
  | [] => none
  | w :: l => comb P w (pick P l)

theorem find_ins (P : Nat → Bool) (w : Write α) {l : List (Write α)} (hl : Desc l) :
    (ins w l).find? (fun x => P x.slot) = comb P w (l.find? (fun x => P x.slot)) := by
  induction l with
  | nil => cases h : P w.slot <;> simp [ins, comb, h]
  | cons d l ih =>
    obtain ⟨h1, h2⟩ := List.pairwise_cons.mp hl
    simp only [ins]
    split
    · next h =>
      cases hw : P w.slot with
      | false =>
        simp only [List.find?_cons, hw]
        cases hd : P d.slot with
        | true => simp [comb, hw]
        | false =>
          simp only []
          cases hf : l.find? (fun x => P x.slot) <;> simp [comb, hw]
      | true =>
        simp only [List.find?_cons, hw]
        cases hd : P d.slot with
        | true => simp [comb, hw, h]
        | false =>
          simp only []
          cases hf : l.find? (fun x => P x.slot) with
          | none => simp [comb, hw]
          | some v =>
            have := h1 v (List.mem_of_find?_eq_some hf)
            have : v.slot ≤ w.slot := by omega
            simp [comb, hw, this]
    · next h =>
      simp only [List.find?_cons]
      cases hd : P d.slot with
      | true => simp [comb, h]
      | false => exact ih h2

theorem pick_some {P : Nat → Bool} {l : List (Write α)} {w : Write α} :
    pick P l = some w ↔ P w.slot = true ∧
      ∃ later earlier, l = later ++ w :: earlier ∧
        (∀ v ∈ later, P v.slot = true → v.slot < w.slot) ∧
        (∀ v ∈ earlier, P v.slot = true → v.slot ≤ w.slot) := by
  have hnone : ∀ l : List (Write α), pick P l = none ↔ ∀ v ∈ l, P v.slot = false := by
    intro l
    induction l with
    | nil => simp [pick]
    | cons d l ih =>
      simp only [pick]
      cases hp : pick P l with
      | none =>
        have := ih.mp hp
        cases hd : P d.slot with
        | true => simp [comb, hd]
        | false => simpa [comb, hd] using this
      | some v =>
        have hn : ¬ ∀ v ∈ l, P v.slot = false := fun h => by rw [ih.mpr h] at hp; cases hp
        constructor
        · intro h
          simp only [comb] at h
          split at h <;> cases h
        · intro h
          exact absurd (fun v hv => h v (List.mem_cons_of_mem _ hv)) hn
  induction l generalizing w with
  | nil => simp [pick]
  | cons d l ih =>
    simp only [pick]
    cases hp : pick P l with
    | none =>
      have hall := (hnone l).mp hp
      constructor
      · intro h
        simp only [comb] at h
        split at h
        · next hd =>
          cases h
          refine ⟨hd, [], l, rfl, by simp, ?_⟩
          intro v hv hpv
          rw [hall v hv] at hpv
          cases hpv
        · cases h
      · rintro ⟨hw, later, earlier, he, -, -⟩
        cases later with
        | nil =>
          simp only [List.nil_append, List.cons.injEq] at he
          simp [comb, he.1, hw]
        | cons a later =>
          simp only [List.cons_append, List.cons.injEq] at he
          have := hall w (by rw [he.2]; simp)
          rw [this] at hw
          cases hw
    | some v =>
      obtain ⟨hv, la, ea, hl, hla, hea⟩ := ih.mp hp
      constructor
      · intro h
        simp only [comb] at h
        split at h
        · next hd =>
          cases h
          simp only [Bool.and_eq_true, decide_eq_true_eq] at hd
          refine ⟨hd.1, [], l, rfl, by simp, ?_⟩
          intro x hx hpx
          rw [hl] at hx
          rcases List.mem_append.mp hx with hx | hx
          · have := hla x hx hpx; omega
          · rcases List.mem_cons.mp hx with rfl | hx
            · exact hd.2
            · have := hea x hx hpx; omega
        · next hd =>
          cases h
          refine ⟨hv, d :: la, ea, by rw [hl]; rfl, ?_, hea⟩
          intro x hx hpx
          rcases List.mem_cons.mp hx with rfl | hx
          · simp only [Bool.and_eq_true, decide_eq_true_eq, not_and] at hd
            have := hd hpx
            omega
          · exact hla x hx hpx
      · rintro ⟨hw, later, earlier, he, h1, h2⟩
        cases later with
        | nil =>
          simp only [List.nil_append, List.cons.injEq] at he
          obtain ⟨rfl, rfl⟩ := he
          have := h2 v (by rw [hl]; simp) hv
          simp [comb, hw, this]
        | cons a later =>
          simp only [List.cons_append, List.cons.injEq] at he
          obtain ⟨rfl, he⟩ := he
          have hw2 : pick P l = some w :=
            ih.mpr ⟨hw, later, earlier, he, fun x hx => h1 x (List.mem_cons_of_mem _ hx), h2⟩
          rw [hp] at hw2
          cases hw2
          have hd : ¬ (P d.slot && decide (w.slot ≤ d.slot)) = true := by
            intro hc
            simp only [Bool.and_eq_true, decide_eq_true_eq] at hc
            have := h1 d List.mem_cons_self hc.1
            omega
          simp only [comb]
          rw [if_neg hd]

/-- Pruning does not change what is found, as long as the writes up to the rooted slot that it
takes for rooted are those searched for. -/
theorem find_prune (P Q : Nat → Bool) (r : Nat) (l : List (Write α))
    (hag : ∀ w ∈ l, w.slot ≤ r → Q w.slot = P w.slot) :
    (l.filter (fun w => decide (w.slot =
        (match l.find? (fun w => decide (w.slot ≤ r) && Q w.slot) with
         | some w => w.slot
         | none => r + 1) ∨ w.slot > r))).find? (fun x => P x.slot) =
      l.find? (fun x => P x.slot) := by
  -- for any slot that is that of the first such write from some point on
  have key : ∀ (x : Nat) (l : List (Write α)), (∀ w ∈ l, w.slot ≤ r → Q w.slot = P w.slot) →
      (∀ w, l.find? (fun w => decide (w.slot ≤ r) && Q w.slot) = some w → x = w.slot) →
      (l.filter (fun w => decide (w.slot = x ∨ w.slot > r))).find? (fun x => P x.slot) =
        l.find? (fun x => P x.slot) := by
    intro x l
    induction l with
    | nil => intros; rfl
    | cons d l ih =>
      intro hag hx
      have hag' : ∀ w ∈ l, w.slot ≤ r → Q w.slot = P w.slot :=
        fun w hw => hag w (List.mem_cons_of_mem _ hw)
      cases hd : P d.slot with
      | false =>
        have hx' : ∀ w, l.find? (fun w => decide (w.slot ≤ r) && Q w.slot) = some w → x = w.slot := by
          intro w hw
          apply hx
          rw [List.find?_cons]
          have : (decide (d.slot ≤ r) && Q d.slot) = false := by
            by_cases hle : d.slot ≤ r
            · rw [hag d List.mem_cons_self hle, hd]; simp
            · simp [hle]
          rw [this]
          exact hw
        have hrec := ih hag' hx'
        rw [List.find?_cons, hd]
        simp only []
        rw [List.filter_cons]
        split
        · rw [List.find?_cons, hd]
          exact hrec
        · exact hrec
      | true =>
        have hk : d.slot = x ∨ d.slot > r := by
          by_cases hle : d.slot ≤ r
          · left
            have hq := hag d List.mem_cons_self hle
            exact (hx d (by rw [List.find?_cons]; simp [hle, hq, hd])).symm
          · right; omega
        rw [List.filter_cons]
        simp [hk, List.find?_cons, hd]
  apply key
  · exact hag
  · intro w hw
    rw [hw]

end Cache
end OB
