import Verif.Spec.Best
import Verif.Proofs.More
/-! The greedy match compared with every other choice from the same offers (C108). -/
namespace OB
open Spec

theorem Spec.Choice.tail {env : Env} {o : Offer} {L : List Offer} {a : Offer → Int} (h : Choice env (o :: L) a) : Choice env L a :=
  ⟨fun x hx => h.nonneg x (List.mem_cons_of_mem _ hx), fun x hx => h.offered x (List.mem_cons_of_mem _ hx),
    fun x hx => h.own x (List.mem_cons_of_mem _ hx)⟩

theorem choiceQty_cons (o : Offer) (L : List Offer) (a : Offer → Int) : choiceQty (o :: L) a = a o + choiceQty L a := rfl
theorem choiceQuote_cons (o : Offer) (L : List Offer) (a : Offer → Int) : choiceQuote (o :: L) a = a o * o.price + choiceQuote L a := rfl
theorem costSum_cons (x : Offer × Int) (xs : List (Offer × Int)) : costSum (x :: xs) = x.2 * x.1.price + costSum xs := rfl

theorem dear_add (s : Side) (p q : Int) : dear s (p + q) = dear s p + dear s q := by
  unfold dear; cases s <;> simp only; omega

theorem dear_mul (s : Side) (x p : Int) : dear s (x * p) = x * dear s p := by
  unfold dear; cases s
  · rfl
  · exact (Int.mul_neg x p).symm

/-- At a price below all of them, a choice is worth at least its lots. -/
theorem choice_above {env : Env} {L : List Offer} {a : Offer → Int} (ha : Choice env L a) {s : Side} {m : Int}
    (hm : ∀ o ∈ L, m ≤ dear s o.price) : m * choiceQty L a ≤ dear s (choiceQuote L a) := by
  induction L with
  | nil => simp [choiceQty, choiceQuote, dear]; cases s <;> simp
  | cons o L ih =>
    rw [choiceQty_cons, choiceQuote_cons, dear_add, dear_mul]
    have h1 := ih ha.tail (fun x hx => hm x (List.mem_cons_of_mem _ hx))
    have h2 := Int.mul_le_mul_of_nonneg_left (hm o (by simp)) (ha.nonneg o (by simp))
    linarith

theorem choiceQty_none {L : List Offer} {a : Offer → Int} (h : ∀ x ∈ L, a x = 0) : choiceQty L a = 0 := by
  induction L with
  | nil => rfl
  | cons o L ih => rw [choiceQty_cons, h o (by simp), ih (fun x hx => h x (List.mem_cons_of_mem _ hx))]; rfl

/-- Nothing is taken once the means do not suffice for the next lot. -/
theorem greedy_poor {env : Env} {L : List Offer} {n : Nat} {b q : Int} (h : ∀ o ∈ L, q < o.price) : greedy env n b q L = [] := by
  cases L with
  | nil => rfl
  | cons o L => rw [greedy, if_pos (.inr (.inr (.inr (h o (by simp)))))]

theorem greedy_zero {env : Env} {L : List Offer} {n : Nat} {q : Int} : greedy env n 0 q L = [] := by
  cases L with
  | nil => rfl
  | cons o L => rw [greedy, if_pos (.inl rfl)]

/-- How the taking of one offer ends. -/
theorem greedy_take {env : Env} {o : Offer} {L : List Offer} {n : Nat} {b q : Int} (hpos : 1 ≤ o.order.quantity ∧ 1 ≤ o.price)
    (hs : ∀ x ∈ L, dear env.order.side o.price ≤ dear env.order.side x.price) (hb : 0 ≤ b) (hq : 0 ≤ q)
    (hroom : env.order.side = .bid ∨ ∀ x ∈ o :: L, b * x.price ≤ q)
    (x : Int) (hx : x = min (min b o.order.quantity) (q / o.price)) :
    0 ≤ x ∧ x ≤ b ∧ x ≤ o.order.quantity ∧ x * o.price ≤ q ∧
    (env.order.side = .bid ∨ ∀ y ∈ L, (b - x) * y.price ≤ q - x * o.price) ∧
    (x = o.order.quantity ∨ (x = b ∧ greedy env (n - 1) (b - x) (q - x * o.price) L = []) ∨
      (env.order.side = .bid ∧ q - x * o.price < o.price ∧ greedy env (n - 1) (b - x) (q - x * o.price) L = [])) := by
  have hd0 : 0 ≤ q / o.price := Int.ediv_nonneg hq (by omega)
  have hx0 : 0 ≤ x := by omega
  have hle : x * o.price ≤ q := by
    have h1 : x * o.price ≤ q / o.price * o.price := Int.mul_le_mul_of_nonneg_right (by omega) (by omega)
    have h2 := Int.ediv_mul_le q (show o.price ≠ 0 by omega)
    omega
  refine ⟨hx0, by omega, by omega, hle, ?_, ?_⟩
  · rcases hroom with h | h
    · exact .inl h
    · by_cases hbid : env.order.side = .bid
      · exact .inl hbid
      · right
        intro y hy
        have h1 := h o (by simp)
        have h2 := hs y hy
        have hask : env.order.side = .ask := by cases hc : env.order.side <;> simp_all
        rw [hask] at h2
        unfold dear at h2
        simp only at h2
        have h3 := Int.mul_le_mul_of_nonneg_left (show y.price ≤ o.price by omega) (show 0 ≤ b - x by omega)
        rw [Int.sub_mul] at h3 ⊢
        rw [Int.sub_mul] at h3
        omega
  · by_cases h1 : x = o.order.quantity
    · exact .inl h1
    · by_cases h2 : x = b
      · refine .inr (.inl ⟨h2, ?_⟩)
        rw [h2, Int.sub_self]; exact greedy_zero
      · have h3 : x = q / o.price := by omega
        have h4 : q - x * o.price < o.price := by
          have h2 := Int.emod_lt_of_pos q (show 0 < o.price by omega)
          have h3' := Int.emod_add_mul_ediv q o.price
          rw [h3, Int.mul_comm]; omega
        have hbid : env.order.side = .bid := by
          rcases hroom with h | h
          · exact h
          · exfalso
            have h5 := h o (by simp)
            have h6 := Int.le_ediv_of_mul_le (show 0 < o.price by omega) h5
            omega
        refine .inr (.inr ⟨hbid, h4, greedy_poor (fun y hy => ?_)⟩)
        have := hs y hy
        rw [hbid] at this
        unfold dear at this
        simp only at this
        omega

/-- There is a price at which no other choice does better than the greedy match. -/
theorem greedy_best {env : Env} (L : List Offer) (hs : L.Pairwise (OfferBefore env.order.side.invert))
    (hpos : ∀ o ∈ L, 1 ≤ o.order.quantity ∧ 1 ≤ o.price) (n : Nat) (b q : Int) (hb : 0 ≤ b) (hq : 0 ≤ q)
    (hroom : env.order.side = .bid ∨ ∀ o ∈ L, b * o.price ≤ q) (m : Int) (hm : ∀ o ∈ L, m ≤ dear env.order.side o.price) :
    ∃ P, m ≤ P ∧ ∀ a, Choice env L a → dear env.order.side (costSum (greedy env n b q L)) - P * sizeSum (greedy env n b q L) ≤
      dear env.order.side (choiceQuote L a) - P * choiceQty L a := by
  have stop : ∃ P, m ≤ P ∧ ∀ a, Choice env L a → dear env.order.side (costSum []) - P * sizeSum [] ≤
      dear env.order.side (choiceQuote L a) - P * choiceQty L a := by
    refine ⟨m, Int.le_refl _, fun a ha => ?_⟩
    have := choice_above ha hm
    have e1 : dear env.order.side (costSum []) = 0 := by unfold dear costSum; cases env.order.side <;> simp
    have e2 : sizeSum [] = 0 := rfl
    rw [e1, e2]
    omega
  induction L generalizing n b q m with
  | nil => exact stop
  | cons o L ih =>
    rw [greedy]
    split
    · exact stop
    · rename_i hgo
      have hsL := (List.pairwise_cons.mp hs).2
      have hdear : ∀ x ∈ L, dear env.order.side o.price ≤ dear env.order.side x.price := fun x hx =>
        dear_le ((List.pairwise_cons.mp hs).1 x hx)
      have hposL : ∀ x ∈ L, 1 ≤ x.order.quantity ∧ 1 ≤ x.price := fun x hx => hpos x (List.mem_cons_of_mem _ hx)
      have hmL : ∀ x ∈ L, m ≤ dear env.order.side x.price := fun x hx => hm x (List.mem_cons_of_mem _ hx)
      have stopL : ∀ m, (∀ x ∈ L, m ≤ dear env.order.side x.price) → ∃ P, m ≤ P ∧ ∀ a, Choice env L a →
          dear env.order.side (costSum []) - P * sizeSum [] ≤ dear env.order.side (choiceQuote L a) - P * choiceQty L a := by
        intro m hm
        refine ⟨m, Int.le_refl _, fun a ha => ?_⟩
        have := choice_above ha hm
        have e1 : dear env.order.side (costSum []) = 0 := by unfold dear costSum; cases env.order.side <;> simp
        have e2 : sizeSum [] = 0 := rfl
        rw [e1, e2]
        omega
      split
      · rename_i hown
        obtain ⟨P, h1, h2⟩ := ih hsL hposL n b q hb hq (hroom.imp_right (fun h x hx => h x (List.mem_cons_of_mem _ hx))) m hmL (stopL m hmL)
        refine ⟨P, h1, fun a ha => ?_⟩
        rw [choiceQty_cons, choiceQuote_cons, ha.own o (by simp) hown, Int.zero_mul, Int.zero_add, Int.zero_add]
        exact h2 a ha.tail
      · obtain ⟨x, hx⟩ : ∃ x, x = min (min b o.order.quantity) (q / o.price) := ⟨_, rfl⟩
        obtain ⟨k1, k2, k3, k4, k5, k6⟩ := greedy_take (n := n) (hpos o (by simp)) hdear hb hq hroom x hx
        simp only
        rw [← hx, sizeSum_cons, costSum_cons, dear_add, dear_mul]
        simp only
        have atP : greedy env (n - 1) (b - x) (q - x * o.price) L = [] → ∃ P, m ≤ P ∧ ∀ a, Choice env (o :: L) a →
            x * dear env.order.side o.price + dear env.order.side (costSum (greedy env (n - 1) (b - x) (q - x * o.price) L)) -
              P * (x + sizeSum (greedy env (n - 1) (b - x) (q - x * o.price) L)) ≤
            dear env.order.side (choiceQuote (o :: L) a) - P * choiceQty (o :: L) a := by
          intro he
          refine ⟨dear env.order.side o.price, hm o (by simp), fun a ha => ?_⟩
          have h1 := choice_above ha.tail hdear
          have e1 : dear env.order.side (costSum []) = 0 := by unfold dear costSum; cases env.order.side <;> simp
          have e2 : sizeSum [] = 0 := rfl
          rw [he, e1, e2, choiceQty_cons, choiceQuote_cons, dear_add, dear_mul]
          linarith
        rcases k6 with e | ⟨_, e⟩ | ⟨_, _, e⟩
        · obtain ⟨P, h1, h2⟩ := ih hsL hposL (n - 1) (b - x) (q - x * o.price) (by omega) (by omega) k5 _ hdear (stopL _ hdear)
          refine ⟨P, Int.le_trans (hm o (by simp)) h1, fun a ha => ?_⟩
          have h3 := h2 a ha.tail
          have h4 := ha.offered o (by simp)
          have h5 := Int.mul_le_mul_of_nonneg_right (show a o ≤ x by omega) (show 0 ≤ P - dear env.order.side o.price by omega)
          rw [choiceQty_cons, choiceQuote_cons, dear_add, dear_mul]
          linarith
        · exact atP e
        · exact atP e

/-- Why no more was taken. -/
theorem greedy_most {env : Env} (L : List Offer) (hs : L.Pairwise (OfferBefore env.order.side.invert))
    (hpos : ∀ o ∈ L, 1 ≤ o.order.quantity ∧ 1 ≤ o.price) (n : Nat) (b q : Int) (hb : 0 ≤ b) (hq : 0 ≤ q)
    (hroom : env.order.side = .bid ∨ ∀ o ∈ L, b * o.price ≤ q)
    (hn : (greedy env n b q L).length < n) (m : Int) (hm : ∀ o ∈ L, m ≤ dear env.order.side o.price) :
    sizeSum (greedy env n b q L) = b ∨
    (∀ a, Choice env L a → (∀ o ∈ L, ¬ acceptable env.order.side (limitOf env.order env.oracle) o.price → a o = 0) →
      choiceQty L a ≤ sizeSum (greedy env n b q L)) ∨
    ∃ P, env.order.side = .bid ∧ m ≤ P ∧ q - costSum (greedy env n b q L) < P ∧ ∀ a, Choice env L a →
      costSum (greedy env n b q L) - P * sizeSum (greedy env n b q L) ≤ choiceQuote L a - P * choiceQty L a := by
  have dd : env.order.side = .bid → ∀ p, dear env.order.side p = p := fun hbid p => by rw [hbid]; rfl
  induction L generalizing n b q m with
  | nil => exact .inr (.inl (fun a _ _ => by simp [choiceQty, greedy, sizeSum]))
  | cons o L ih =>
    have hsL := (List.pairwise_cons.mp hs).2
    have hdear : ∀ x ∈ L, dear env.order.side o.price ≤ dear env.order.side x.price := fun x hx =>
      dear_le ((List.pairwise_cons.mp hs).1 x hx)
    have hposL : ∀ x ∈ L, 1 ≤ x.order.quantity ∧ 1 ≤ x.price := fun x hx => hpos x (List.mem_cons_of_mem _ hx)
    have hmL : ∀ x ∈ L, m ≤ dear env.order.side x.price := fun x hx => hm x (List.mem_cons_of_mem _ hx)
    rw [greedy] at hn ⊢
    split at hn
    · rename_i hstop
      rw [if_pos hstop]
      rcases hstop with h | h | h | h
      · exact .inl (by rw [h]; rfl)
      · refine .inr (.inl (fun a ha hacc => ?_))
        have : ∀ x ∈ o :: L, a x = 0 := by
          intro x hx
          refine hacc x hx (fun hx' => h ?_)
          intro y hy
          have h1 := hx' y hy
          rcases List.mem_cons.mp hx with rfl | hx
          · exact h1
          · have h2 := hdear x hx
            unfold dear at h2
            unfold within at h1 ⊢
            revert h1 h2
            cases env.order.side <;> simp only <;> intro h1 h2 <;> omega
        have hz : choiceQty (o :: L) a = 0 := choiceQty_none this
        rw [hz]; exact Int.le_refl _
      · subst h; simp at hn
      · by_cases hbid : env.order.side = .bid
        swap
        · left
          have h1 := (hroom.resolve_left hbid) o (by simp)
          have h2 := (hpos o (by simp)).2
          have : b < 1 := by
            by_contra hc
            have := Int.mul_le_mul_of_nonneg_right (show 1 ≤ b by omega) (show 0 ≤ o.price by omega)
            omega
          rw [show sizeSum [] = 0 from rfl]; omega
        refine .inr (.inr ⟨o.price, hbid, by have := hm o (by simp); rwa [dd hbid] at this, by rw [show costSum [] = 0 from rfl]; omega, fun a ha => ?_⟩)
        have h1 := choice_above (s := .bid) ha (m := o.price) (fun x hx => by
          rcases List.mem_cons.mp hx with rfl | hx
          · exact Int.le_refl _
          · have := hdear x hx; rwa [dd hbid, dd hbid] at this)
        have h2 : dear .bid (choiceQuote (o :: L) a) = choiceQuote (o :: L) a := rfl
        rw [h2] at h1
        rw [show costSum [] = 0 from rfl, show sizeSum [] = 0 from rfl]
        omega
    · rename_i hgo
      rw [if_neg hgo]
      split at hn
      · rename_i hown
        rw [if_pos hown]
        rcases ih hsL hposL n b q hb hq (hroom.imp_right (fun h x hx => h x (List.mem_cons_of_mem _ hx))) hn m hmL with
          h | h | ⟨P, h0, h1, h2, h3⟩
        · exact .inl h
        · refine .inr (.inl (fun a ha hacc => ?_))
          rw [choiceQty_cons, ha.own o (by simp) hown, Int.zero_add]
          exact h a ha.tail (fun x hx => hacc x (List.mem_cons_of_mem _ hx))
        · refine .inr (.inr ⟨P, h0, h1, h2, fun a ha => ?_⟩)
          rw [choiceQty_cons, choiceQuote_cons, ha.own o (by simp) hown, Int.zero_mul, Int.zero_add, Int.zero_add]
          exact h3 a ha.tail
      · rename_i hown
        rw [if_neg hown]
        obtain ⟨x, hx⟩ : ∃ x, x = min (min b o.order.quantity) (q / o.price) := ⟨_, rfl⟩
        obtain ⟨k1, k2, k3, k4, k5, k6⟩ := greedy_take (env := env) (n := n) (hpos o (by simp)) hdear hb hq hroom x hx
        simp only at hn ⊢
        rw [← hx] at hn ⊢
        rw [sizeSum_cons, costSum_cons]
        simp only
        rcases k6 with e | ⟨e1, e2⟩ | ⟨hbid, e1, e2⟩
        · rcases ih hsL hposL (n - 1) (b - x) (q - x * o.price) (by omega) (by omega) k5
            (by simp only [List.length_cons] at hn; omega) _ hdear with h | h | ⟨P, h0, h1, h2, h3⟩
          · exact .inl (by omega)
          · refine .inr (.inl (fun a ha hacc => ?_))
            have := h a ha.tail (fun x hx => hacc x (List.mem_cons_of_mem _ hx))
            have := ha.offered o (by simp)
            rw [choiceQty_cons]; omega
          · refine .inr (.inr ⟨P, h0, Int.le_trans (hm o (by simp)) h1, by omega, fun a ha => ?_⟩)
            rw [dd h0] at h1
            have h4 := h3 a ha.tail
            have h5 := ha.offered o (by simp)
            have h6 := Int.mul_le_mul_of_nonneg_right (show a o ≤ x by omega) (show 0 ≤ P - o.price by omega)
            rw [choiceQty_cons, choiceQuote_cons]
            linarith
        · refine .inl ?_
          rw [e2, show sizeSum [] = 0 from rfl]; omega
        · refine .inr (.inr ⟨o.price, hbid, by have := hm o (by simp); rwa [dd hbid] at this, ?_, fun a ha => ?_⟩)
          · rw [e2, show costSum [] = 0 from rfl]; omega
          · have h1 := choice_above (s := .bid) ha.tail (m := o.price) (fun x hx => by have := hdear x hx; rwa [dd hbid, dd hbid] at this)
            have h2 : dear .bid (choiceQuote L a) = choiceQuote L a := rfl
            rw [h2] at h1
            rw [e2, show costSum [] = 0 from rfl, show sizeSum [] = 0 from rfl, choiceQty_cons, choiceQuote_cons]
            linarith

end OB
