import Verif.Proofs.Basic
import Verif.Model.OpenOrders
/-! The account store. -/
namespace OB
namespace Accts

theorem get?_nil (k : Pubkey) : Accts.get? [] k = none := rfl

theorem get?_cons (x : Pubkey × OOA) (xs : Accts) (k : Pubkey) :
    Accts.get? (x :: xs) k = if x.1 = k then some x.2 else Accts.get? xs k := by
  unfold get?
  rw [List.find?_cons]
  by_cases h : x.1 = k <;> simp [h]

theorem get_ok {as : Accts} {k : Pubkey} {a : OOA} : as.get k = .ok a ↔ as.get? k = some a := okOr_ok

theorem get?_set_same {as : Accts} {k : Pubkey} {a : OOA} (h : as.get? k ≠ none) (b : OOA) (hb : as.get? k = some a) :
    (as.set k b).get? k = some b := by
  induction as with
  | nil => exact absurd rfl h
  | cons x xs ih =>
    rw [Accts.set]
    by_cases hx : x.1 = k
    · rw [if_pos hx, get?_cons]; simp
    · rw [if_neg hx, get?_cons, if_neg hx]
      rw [get?_cons, if_neg hx] at h hb
      exact ih h hb

theorem get?_set (as : Accts) (k j : Pubkey) (b : OOA) :
    (as.set k b).get? j = if j = k then (as.get? k).map (fun _ => b) else as.get? j := by
  induction as with
  | nil => simp [Accts.set, get?_nil]
  | cons x xs ih =>
    rw [Accts.set]
    by_cases hx : x.1 = k
    · rw [if_pos hx, get?_cons, get?_cons, get?_cons, if_pos hx]
      by_cases hj : j = k
      · subst hj; simp
      · rw [if_neg hj, if_neg (fun h => hj h.symm), if_neg (by rw [hx]; exact fun h => hj h.symm)]
    · rw [if_neg hx, get?_cons, get?_cons, get?_cons, if_neg hx, ih]
      by_cases hj : j = k
      · subst hj; simp [hx]
      · rw [if_neg hj]; simp [hj]

theorem get?_set_self {as : Accts} {k : Pubkey} {a : OOA} (b : OOA) (h : as.get? k = some a) : (as.set k b).get? k = some b := by
  rw [get?_set, if_pos rfl, h]; rfl

theorem get?_set_ne {as : Accts} {k j : Pubkey} (b : OOA) (h : j ≠ k) : (as.set k b).get? j = as.get? j := by
  rw [get?_set, if_neg h]

theorem keys_set (as : Accts) (k : Pubkey) (b : OOA) : (as.set k b).map (·.1) = as.map (·.1) := by
  induction as with
  | nil => rfl
  | cons x xs ih =>
    rw [Accts.set]
    by_cases hx : x.1 = k
    · rw [if_pos hx]; simp [hx]
    · rw [if_neg hx]; simp [ih]

theorem set_set (as : Accts) (k : Pubkey) (a b : OOA) : (as.set k a).set k b = as.set k b := by
  induction as with
  | nil => rfl
  | cons x xs ih =>
    rw [Accts.set, Accts.set]
    by_cases hx : x.1 = k
    · rw [if_pos hx, if_pos hx, Accts.set]; simp
    · rw [if_neg hx, if_neg hx, Accts.set, if_neg hx, ih]

theorem get?_some_iff {as : Accts} (hn : (as.map (·.1)).Nodup) {k : Pubkey} {a : OOA} :
    as.get? k = some a ↔ (k, a) ∈ as := by
  induction as with
  | nil => simp [get?_nil]
  | cons x xs ih =>
    rw [List.map_cons, List.nodup_cons] at hn
    rw [get?_cons]
    by_cases hx : x.1 = k
    · rw [if_pos hx]
      constructor
      · intro h; injection h with h; simp [← h, ← hx]
      · intro h
        rcases List.mem_cons.mp h with h | h
        · rw [← h]
        · exact absurd (by rw [hx]; exact List.mem_map_of_mem (f := (·.1)) h) hn.1
    · rw [if_neg hx, ih hn.2]
      constructor
      · intro h; exact List.mem_cons_of_mem _ h
      · intro h
        rcases List.mem_cons.mp h with h | h
        · exact absurd (by rw [← h]) hx
        · exact h

theorem get?_none_iff {as : Accts} {k : Pubkey} : as.get? k = none ↔ k ∉ as.map (·.1) := by
  induction as with
  | nil => simp [get?_nil]
  | cons x xs ih =>
    rw [get?_cons]
    by_cases hx : x.1 = k
    · simp [hx]
    · rw [if_neg hx, ih]
      simp only [List.map_cons, List.mem_cons, not_or]
      exact ⟨fun h => ⟨fun he => hx he.symm, h⟩, fun h => h.2⟩

theorem get?_append (as bs : Accts) (k : Pubkey) : Accts.get? (as ++ bs) k = (as.get? k).or (Accts.get? bs k) := by
  induction as with
  | nil => simp [get?_nil]
  | cons x xs ih =>
    rw [List.cons_append, get?_cons, get?_cons]
    by_cases hx : x.1 = k
    · simp [hx]
    · rw [if_neg hx, if_neg hx, ih]

/-- The account list around one account. -/
theorem split {as : Accts} {k : Pubkey} {a : OOA} (h : as.get? k = some a) :
    ∃ A B, as = A ++ (k, a) :: B ∧ (∀ b, as.set k b = A ++ (k, b) :: B) ∧ as.del k = A ++ B := by
  induction as with
  | nil => cases h
  | cons x xs ih =>
    rw [get?_cons] at h
    by_cases hx : x.1 = k
    · rw [if_pos hx] at h; injection h with h
      refine ⟨[], xs, ?_, ?_, ?_⟩
      · rw [← h, ← hx]; rfl
      · intro b; rw [Accts.set, if_pos hx]; rfl
      · rw [Accts.del, if_pos hx]; rfl
    · rw [if_neg hx] at h
      obtain ⟨A, B, h1, h2, h3⟩ := ih h
      refine ⟨x :: A, B, by rw [h1]; rfl, ?_, ?_⟩
      · intro b; rw [Accts.set, if_neg hx, h2]; rfl
      · rw [Accts.del, if_neg hx, h3]; rfl

end Accts
end OB
