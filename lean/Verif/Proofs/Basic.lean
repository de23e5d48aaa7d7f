import Verif.Model.Num
/-! Inversion lemmas for the `R` monad and the range checks. -/
namespace OB

theorem bind_ok {α β : Type} {x : R α} {f : α → R β} {b : β} :
    (x >>= f) = .ok b ↔ ∃ a, x = .ok a ∧ f a = .ok b := by
  cases x with
  | error e => simp [bind, Except.bind]
  | ok a => simp [bind, Except.bind]

theorem pure_ok {α : Type} {a b : α} : (pure a : R α) = .ok b ↔ a = b := by
  simp [pure, Except.pure]

theorem ok_ok {α : Type} {a b : α} : (Except.ok a : R α) = .ok b ↔ a = b := by
  constructor
  · intro h; cases h; rfl
  · intro h; rw [h]

theorem err_ok {α : Type} {e : Err} {b : α} : (Except.error e : R α) = .ok b ↔ False := by
  simp

theorem req_ok {c : Prop} [Decidable c] {e : Err} {u : Unit} : req c e = .ok u ↔ c := by
  unfold req; split <;> simp_all

theorem ckI64_ok {x y : Int} : ckI64 x = .ok y ↔ (i64Min ≤ x ∧ x ≤ i64Max) ∧ x = y := by
  unfold ckI64; split
  · simp_all
  · rename_i h; simp only [reduceCtorEq, false_iff]; rintro ⟨h', _⟩; exact h h'

theorem ckU64_ok {x y : Int} : ckU64 x = .ok y ↔ (0 ≤ x ∧ x ≤ u64Max) ∧ x = y := by
  unfold ckU64; split
  · simp_all
  · rename_i h; simp only [reduceCtorEq, false_iff]; rintro ⟨h', _⟩; exact h h'

theorem ckU128_ok {x y : Int} : ckU128 x = .ok y ↔ (0 ≤ x ∧ x ≤ u128Max) ∧ x = y := by
  unfold ckU128; split
  · simp_all
  · rename_i h; simp only [reduceCtorEq, false_iff]; rintro ⟨h', _⟩; exact h h'

theorem unwrapR_ok {α : Type} {o : Option α} {a : α} : unwrapR o = .ok a ↔ o = some a := by
  cases o <;> simp [unwrapR]

theorem okOr_ok {α : Type} {e : Err} {o : Option α} {a : α} : okOr e o = .ok a ↔ o = some a := by
  cases o <;> simp [okOr]

/-- Introduction forms, used to run the model forward. -/
theorem ok_bind {α β : Type} (a : α) (f : α → R β) : ((.ok a : R α) >>= f) = f a := rfl
theorem pure_bind' {α β : Type} (a : α) (f : α → R β) : ((pure a : R α) >>= f) = f a := rfl
theorem err_bind {α β : Type} (e : Err) (f : α → R β) : ((.error e : R α) >>= f) = .error e := rfl

theorem req_true {c : Prop} [Decidable c] {e : Err} (h : c) : req c e = .ok () := by
  unfold req; simp [h]

theorem ckI64_eq {x : Int} (h1 : i64Min ≤ x) (h2 : x ≤ i64Max) : ckI64 x = .ok x := by
  unfold ckI64; simp [h1, h2]

theorem ckU64_eq {x : Int} (h1 : 0 ≤ x) (h2 : x ≤ u64Max) : ckU64 x = .ok x := by
  unfold ckU64; simp [h1, h2]

theorem ckU128_eq {x : Int} (h1 : 0 ≤ x) (h2 : x ≤ u128Max) : ckU128 x = .ok x := by
  unfold ckU128; simp [h1, h2]

theorem unwrapR_some {α : Type} (a : α) : unwrapR (some a) = .ok a := rfl

/-- `as` casts are the identity in range. -/
theorem asU64_eq {x : Int} (h1 : 0 ≤ x) (h2 : x ≤ u64Max) : asU64 x = x := by
  unfold asU64; unfold u64Max at h2; omega

theorem asI64_eq {x : Int} (h1 : i64Min ≤ x) (h2 : x ≤ i64Max) : asI64 x = x := by
  unfold asI64 i64Max; unfold i64Max at h2; unfold i64Min at h1
  simp only
  split <;> omega

theorem asU64_nonneg (x : Int) : 0 ≤ asU64 x := by unfold asU64; omega
theorem asU64_le (x : Int) : asU64 x ≤ u64Max := by unfold asU64 u64Max; omega

/-- Undo the duplication of the continuation that `do` notation makes for `let x ← if ..`. -/
theorem ite_bind {α β : Type} {c : Prop} [Decidable c] (a b : R α) (f : α → R β) :
    (if c then a >>= f else b >>= f) = (if c then a else b) >>= f := by split <;> rfl

end OB
