import Verif.Proofs.More
import Verif.Proofs.BookEv
import Verif.Proofs.Asked
import Verif.Spec.Pieces
/-! What a greedy match leaves for the next one. -/
namespace OB
open Spec

/-- An offer that can be taken, lot by lot. -/
def unitsOf (L : List Offer) : List (Pubkey × Nat × Int) :=
  L.flatMap (fun o => List.replicate o.order.quantity.toNat (o.order.owner, o.order.ownerSlot, o.price))

def takenUnits (xs : List (Offer × Int)) : List (Pubkey × Nat × Int) :=
  xs.flatMap (fun x => List.replicate x.2.toNat (x.1.order.owner, x.1.order.ownerSlot, x.1.price))

/-- The offer when `x` lots are taken. -/
def Spec.Offer.less (o : Offer) (x : Int) : Offer := { o with order := o.order.withQty (o.order.quantity - x) }

/-- The offers that a greedy match leaves. -/
def greedyRest (env : Env) : Nat → Int → Int → List Offer → List Offer
  | _, _, _, [] => []
  | n, b, q, o :: L =>
    if b = 0 ∨ ¬ acceptable env.order.side (limitOf env.order env.oracle) o.price ∨ n = 0 ∨ q < o.price then o :: L
    else if cancelsOwn env o.order then greedyRest env n b q L
    else
      let x := min (min b o.order.quantity) (q / o.price)
      if x = o.order.quantity then greedyRest env (n - 1) (b - x) (q - x * o.price) L
      else o.less x :: greedyRest env (n - 1) (b - x) (q - x * o.price) L

theorem units_cons (o : Offer) (L : List Offer) :
    unitsOf (o :: L) = List.replicate o.order.quantity.toNat (o.order.owner, o.order.ownerSlot, o.price) ++ unitsOf L := rfl

theorem taken_cons (o : Offer) (x : Int) (xs : List (Offer × Int)) :
    takenUnits ((o, x) :: xs) = List.replicate x.toNat (o.order.owner, o.order.ownerSlot, o.price) ++ takenUnits xs := rfl

theorem lots_units (L : List Offer) : lotsOf L = (unitsOf L).map (·.2.2) := by
  induction L with
  | nil => rfl
  | cons o L ih => rw [lots_cons, units_cons, List.map_append, List.map_replicate, ih]

theorem fillsAre_units {env : Env} {book : Book} {xs : List (Offer × Int)} {fs : List FillEvent} (h : FillsAre env book xs fs) :
    lotsTaken fs = takenUnits xs := by
  unfold FillsAre at h
  induction h with
  | nil => rfl
  | @cons x f xs fs hx _ ih =>
    unfold lotsTaken takenUnits at *
    rw [List.flatMap_cons, List.flatMap_cons, ih, hx.2.2, hx.2.1, hx.1.maker.1, hx.1.maker.2.1]

theorem openTo_own {env : Env} {o : Offer} {L : List Offer} (h : cancelsOwn env o.order) : openTo env (o :: L) = openTo env L := by
  unfold openTo
  rw [List.filter_cons, if_neg (by simp [h])]

theorem openTo_yes {env : Env} {o : Offer} {L : List Offer} (h : ¬ cancelsOwn env o.order)
    (ha : acceptable env.order.side (limitOf env.order env.oracle) o.price) : openTo env (o :: L) = o :: openTo env L := by
  unfold openTo
  rw [List.filter_cons, if_pos (by simp [h, ha])]

theorem greedyRest_stop {env : Env} {n : Nat} {b q : Int} {L : List Offer} (h : b = 0 ∨ ∀ o ∈ L, q < o.price) : greedyRest env n b q L = L := by
  cases L with
  | nil => rw [greedyRest]
  | cons o L =>
    rw [greedyRest, if_pos]
    rcases h with h | h
    · exact .inl h
    · exact .inr (.inr (.inr (h o (by simp))))

/-- The greedy match takes the first lots that can be taken and leaves the others. -/
theorem greedy_units {env : Env} (L : List Offer) (hs : L.Pairwise (OfferBefore env.order.side.invert))
    (hq : ∀ o ∈ L, 1 ≤ o.order.quantity ∧ 1 ≤ o.price) (n : Nat) (b q : Int) (hb : 0 ≤ b)
    (hroom : env.order.side = .bid ∨ ∀ o ∈ L, b * o.price ≤ q) :
    takenUnits (greedy env n b q L) = (unitsOf (openTo env L)).take (sizeSum (greedy env n b q L)).toNat ∧
      unitsOf (openTo env (greedyRest env n b q L)) = (unitsOf (openTo env L)).drop (sizeSum (greedy env n b q L)).toNat := by
  induction L generalizing n b q with
  | nil => rw [greedy, greedyRest]; exact ⟨rfl, rfl⟩
  | cons o L ih =>
    have ho := hq o (by simp)
    have hq2 : ∀ o ∈ L, 1 ≤ o.order.quantity ∧ 1 ≤ o.price := fun x hx => hq x (List.mem_cons_of_mem _ hx)
    have hs2 := List.pairwise_cons.mp hs
    rw [greedy, greedyRest]
    by_cases hstop : b = 0 ∨ ¬ acceptable env.order.side (limitOf env.order env.oracle) o.price ∨ n = 0 ∨ q < o.price
    · rw [if_pos hstop, if_pos hstop]
      exact ⟨rfl, rfl⟩
    · rw [if_neg hstop, if_neg hstop]
      simp only [not_or, not_not, Int.not_lt] at hstop
      obtain ⟨hb0, hacc, hn0, hqp⟩ := hstop
      by_cases hown : cancelsOwn env o.order
      · rw [if_pos hown, if_pos hown, openTo_own hown]
        exact ih hs2.2 hq2 n b q hb (hroom.imp_right (fun h x hx => h x (List.mem_cons_of_mem _ hx)))
      · rw [if_neg hown, if_neg hown, openTo_yes hown hacc, units_cons]
        generalize hx : min (min b o.order.quantity) (q / o.price) = x
        have hdiv1 : 1 ≤ q / o.price := (Int.le_ediv_iff_mul_le (by omega)).mpr (by omega)
        have hx1 : 1 ≤ x := by omega
        simp only []
        rw [sizeSum_cons, taken_cons]
        by_cases hfull : x = o.order.quantity
        · rw [if_pos hfull]
          have hroom2 : env.order.side = .bid ∨ ∀ y ∈ L, (b - x) * y.price ≤ q - x * o.price := by
            by_cases hbid : env.order.side = .bid
            · exact .inl hbid
            · rcases hroom with hr | hr
              · exact .inl hr
              · exact .inr (room_after hs hbid (hr o (by simp)) (by omega))
          obtain ⟨i1, i2⟩ := ih hs2.2 hq2 (n - 1) (b - x) (q - x * o.price) (by omega) hroom2
          have h0 := greedy_nonneg (env := env) L hq2 (n - 1) (b - x) (q - x * o.price) (by omega)
          have e : (x + sizeSum (greedy env (n - 1) (b - x) (q - x * o.price) L)).toNat =
              o.order.quantity.toNat + (sizeSum (greedy env (n - 1) (b - x) (q - x * o.price) L)).toNat := by omega
          rw [e, List.take_append, List.drop_append, List.length_replicate, List.take_of_length_le (by simp), List.drop_of_length_le (by simp),
            Nat.add_sub_cancel_left, ← i1, ← i2, hfull]
          exact ⟨rfl, rfl⟩
        · rw [if_neg hfull]
          have hend : b - x = 0 ∨ ∀ y ∈ L, q - x * o.price < y.price := by
            by_cases hxb : x = b
            · left; omega
            · have hxd : x = q / o.price := by omega
              rcases hroom with hbid | hroom
              · right
                intro y hy
                have h1 := bid_ahead hbid hs y hy
                have h2 := Int.emod_lt_of_pos q (show 0 < o.price by omega)
                have h3 := Int.emod_add_mul_ediv q o.price
                rw [hxd, Int.mul_comm]
                omega
              · exfalso
                have h1 := hroom o (by simp)
                have h2 : b ≤ q / o.price := (Int.le_ediv_iff_mul_le (by omega)).mpr h1
                omega
          rw [greedy_stop hend, greedyRest_stop hend]
          have h0 : sizeSum ([] : List (Offer × Int)) = 0 := rfl
          have hless : ¬ cancelsOwn env (o.less x).order := hown
          rw [h0, Int.add_zero, openTo_yes hless hacc, units_cons]
          have hle : x.toNat ≤ o.order.quantity.toNat := by omega
          rw [List.take_append_of_le_length (by simpa using hle), List.drop_append_of_le_length (by simpa using hle), List.take_replicate,
            List.drop_replicate, Nat.min_eq_left hle]
          refine ⟨by simp [takenUnits], ?_⟩
          have e : (o.less x).order.quantity.toNat = o.order.quantity.toNat - x.toNat := by
            show (o.order.quantity - x).toNat = _
            omega
          rw [e]
          rfl

/-- Where what is left comes from. -/
theorem rest_from {env : Env} (L : List Offer) (n : Nat) (b q : Int) : ∀ o' ∈ greedyRest env n b q L,
    ∃ o ∈ L, o'.price = o.price ∧ o'.comp = o.comp ∧ o'.order.key = o.order.key := by
  induction L generalizing n b q with
  | nil => intro o' ho'; rw [greedyRest] at ho'; cases ho'
  | cons o L ih =>
    intro o' ho'
    rw [greedyRest] at ho'
    have tail : ∀ n b q, o' ∈ greedyRest env n b q L → ∃ x ∈ o :: L, o'.price = x.price ∧ o'.comp = x.comp ∧ o'.order.key = x.order.key :=
      fun n b q h => by
        obtain ⟨x, hx, h⟩ := ih n b q o' h
        exact ⟨x, List.mem_cons_of_mem _ hx, h⟩
    split at ho'
    · exact ⟨o', ho', rfl, rfl, rfl⟩
    · split at ho'
      · exact tail _ _ _ ho'
      · simp only [] at ho'
        split at ho'
        · exact tail _ _ _ ho'
        · rcases List.mem_cons.mp ho' with rfl | h
          · exact ⟨o, by simp, rfl, rfl, rfl⟩
          · exact tail _ _ _ h

theorem offerBefore_congr {s : Side} {a a' b b' : Offer} (h1 : a'.price = a.price) (h2 : a'.order.key = a.order.key)
    (h3 : b'.price = b.price) (h4 : b'.order.key = b.order.key) (h : OfferBefore s a b) : OfferBefore s a' b' := by
  unfold OfferBefore Before at *
  unfold seqNo at *
  rw [h1, h2, h3, h4]
  exact h

theorem rest_sorted {env : Env} {s : Side} (L : List Offer) (hs : L.Pairwise (OfferBefore s)) (n : Nat) (b q : Int) :
    (greedyRest env n b q L).Pairwise (OfferBefore s) := by
  induction L generalizing n b q with
  | nil => rw [greedyRest]; exact .nil
  | cons o L ih =>
    have hs2 := List.pairwise_cons.mp hs
    rw [greedyRest]
    split
    · exact hs
    · split
      · exact ih hs2.2 _ _ _
      · simp only []
        split
        · exact ih hs2.2 _ _ _
        · refine List.pairwise_cons.mpr ⟨fun y hy => ?_, ih hs2.2 _ _ _⟩
          obtain ⟨z, hz, h1, _, h3⟩ := rest_from L _ _ _ y hy
          exact offerBefore_congr (a := o) (b := z) rfl rfl h1 h3 (hs2.1 z hz)

theorem greedy_mem {env : Env} (L : List Offer) (n : Nat) (b q : Int) : ∀ x ∈ greedy env n b q L, x.1 ∈ L ∧ ¬ cancelsOwn env x.1.order := by
  induction L generalizing n b q with
  | nil => intro x hx; rw [greedy] at hx; cases hx
  | cons o L ih =>
    intro x hx
    rw [greedy] at hx
    split at hx
    · cases hx
    · split at hx
      · exact ⟨List.mem_cons_of_mem _ (ih _ _ _ x hx).1, (ih _ _ _ x hx).2⟩
      · rename_i hown
        rcases List.mem_cons.mp hx with rfl | hx
        · exact ⟨by simp, hown⟩
        · exact ⟨List.mem_cons_of_mem _ (ih _ _ _ x hx).1, (ih _ _ _ x hx).2⟩

/-- What is left: the offers not taken from, and what is left of those not used up. -/
theorem mem_rest {env : Env} {s : Side} (L : List Offer) (hs : L.Pairwise (OfferBefore s)) (n : Nat) (b q : Int) (o' : Offer)
    (hown : ¬ cancelsOwn env o'.order) : o' ∈ greedyRest env n b q L ↔
      (o' ∈ L ∧ ∀ x, (o', x) ∉ greedy env n b q L) ∨
      ∃ o x, (o, x) ∈ greedy env n b q L ∧ x ≠ o.order.quantity ∧ o' = o.less x := by
  induction L generalizing n b q with
  | nil =>
    rw [greedy, greedyRest]
    constructor
    · intro h; cases h
    · rintro (⟨h, _⟩ | ⟨_, _, h, _⟩) <;> cases h
  | cons o L ih =>
    have hs2 := List.pairwise_cons.mp hs
    rw [greedy, greedyRest]
    by_cases hstop : b = 0 ∨ ¬ acceptable env.order.side (limitOf env.order env.oracle) o.price ∨ n = 0 ∨ q < o.price
    · rw [if_pos hstop, if_pos hstop]
      constructor
      · exact fun h => .inl ⟨h, fun x hx => by cases hx⟩
      · rintro (⟨h, _⟩ | ⟨_, _, h, _⟩)
        · exact h
        · cases h
    · rw [if_neg hstop, if_neg hstop]
      by_cases hc : cancelsOwn env o.order
      · rw [if_pos hc, if_pos hc, ih hs2.2]
        have : o' ∈ o :: L ↔ o' ∈ L := by
          rw [List.mem_cons]
          exact ⟨fun h => h.resolve_left (fun e => hown (e ▸ hc)), .inr⟩
        rw [this]
      · rw [if_neg hc, if_neg hc]
        simp only []
        generalize min (min b o.order.quantity) (q / o.price) = x
        have hne : o' ∈ L → o' ≠ o := fun h e => offerBefore_irrefl s o (by have := hs2.1 _ h; rwa [e] at this)
        have hkey : (o' ∈ greedyRest env (n - 1) (b - x) (q - x * o.price) L ∨ (x ≠ o.order.quantity ∧ o' = o.less x)) ↔
            (o' ∈ o :: L ∧ ∀ y, (o', y) ∉ (o, x) :: greedy env (n - 1) (b - x) (q - x * o.price) L) ∨
            ∃ o1 y, (o1, y) ∈ (o, x) :: greedy env (n - 1) (b - x) (q - x * o.price) L ∧ y ≠ o1.order.quantity ∧ o' = o1.less y := by
          rw [ih hs2.2]
          constructor
          · rintro ((⟨h1, h2⟩ | ⟨o1, y, h1, h2⟩) | h)
            · refine .inl ⟨List.mem_cons_of_mem _ h1, fun y hy => ?_⟩
              rcases List.mem_cons.mp hy with e | hy
              · exact hne h1 (congrArg Prod.fst e)
              · exact h2 y hy
            · exact .inr ⟨o1, y, List.mem_cons_of_mem _ h1, h2⟩
            · exact .inr ⟨o, x, by simp, h⟩
          · rintro (⟨h1, h2⟩ | ⟨o1, y, h1, h2⟩)
            · rcases List.mem_cons.mp h1 with rfl | h1
              · exact absurd (List.mem_cons_self) (h2 x)
              · exact .inl (.inl ⟨h1, fun y hy => h2 y (List.mem_cons_of_mem _ hy)⟩)
            · rcases List.mem_cons.mp h1 with e | h1
              · obtain ⟨rfl, rfl⟩ := Prod.mk.inj e
                exact .inr h2
              · exact .inl (.inr ⟨o1, y, h1, h2⟩)
        rw [← hkey]
        by_cases hfull : x = o.order.quantity
        · rw [if_pos hfull]
          exact ⟨.inl, fun h => h.resolve_right (fun h => h.1 hfull)⟩
        · rw [if_neg hfull, List.mem_cons]
          constructor
          · rintro (rfl | h)
            · exact .inr ⟨hfull, rfl⟩
            · exact .inl h
          · rintro (h | ⟨_, rfl⟩)
            · exact .inr h
            · exact .inl rfl

theorem forall₂_left {α β : Type _} {r : α → β → Prop} {xs : List α} {ys : List β} (h : List.Forall₂ r xs ys) : ∀ x ∈ xs, ∃ y ∈ ys, r x y := by
  induction h with
  | nil => intro x hx; cases hx
  | cons h _ ih =>
    intro x hx
    rcases List.mem_cons.mp hx with rfl | hx
    · exact ⟨_, by simp, h⟩
    · obtain ⟨y, hy, hr⟩ := ih x hx
      exact ⟨y, List.mem_cons_of_mem _ hy, hr⟩

theorem forall₂_right {α β : Type _} {r : α → β → Prop} {xs : List α} {ys : List β} (h : List.Forall₂ r xs ys) : ∀ y ∈ ys, ∃ x ∈ xs, r x y := by
  induction h with
  | nil => intro x hx; cases hx
  | cons h _ ih =>
    intro x hx
    rcases List.mem_cons.mp hx with rfl | hx
    · exact ⟨_, by simp, h⟩
    · obtain ⟨y, hy, hr⟩ := ih x hx
      exact ⟨y, List.mem_cons_of_mem _ hy, hr⟩

namespace CallRun
variable {env : Env} {book book' : Book} {g g' : Ledger} {r : OrderResult}

/-- A fill is of one order. -/
theorem fill_of (C : CallRun env book g r book' g') {c c' : Comp} {l l' : LeafNode} {f : FillEvent} (h : IsFillOf env book c l f)
    (h' : IsFillOf env book c' l' f) : c = c' ∧ l = l' :=
  (slot_unique C.core h.resting h'.resting (h.maker.1.symm.trans h'.maker.1) (h.maker.2.1.symm.trans h'.maker.2.1)).2

/-- The offers that can be taken after a call are those that the match leaves. -/
theorem rest (C : CallRun env book g r book' g') {L L' : List Offer} {n : Nat} {b q : Int}
    (hL : Ladder book env.order.side.invert env.nowTs env.oracle L) (hL' : Ladder book' env.order.side.invert env.nowTs env.oracle L')
    (hf : FillsAre env book (Spec.greedy env n b q L) r.fills) : openTo env L' = openTo env (greedyRest env n b q L) := by
  have visit : ∀ o x, (o, x) ∈ Spec.greedy env n b q L → ∃ v, Visited C.tr o.comp o.order v ∧ ∃ sf, v.fate = .fill x sf := by
    intro o x hx
    obtain ⟨f, hm, h1, h2, h3⟩ := forall₂_left hf _ hx
    obtain ⟨v, hv, he, hi⟩ := C.fill_visit hm
    obtain ⟨e1, e2⟩ := C.fill_of hi h1
    obtain ⟨q', sf, hfate, hmk⟩ := fill_some.mp he
    refine ⟨v, ⟨hv, e1, e2⟩, sf, ?_⟩
    have : f.quantity = q' := by rw [hmk]; rfl
    rw [hfate, ← this, h3]
  have taken : ∀ c l v x sf, Visited C.tr c l v → v.fate = .fill x sf → ∃ o, (o, x) ∈ Spec.greedy env n b q L ∧ o.comp = c ∧ o.order = l := by
    intro c l v x sf hv hfate
    obtain ⟨f, hm, hi, e1, e2⟩ := C.visit_fill hv.1 hfate
    obtain ⟨⟨o, y⟩, ho, h1, h2, h3⟩ := forall₂_right hf f hm
    obtain ⟨e3, e4⟩ := C.fill_of hi h1
    refine ⟨o, ?_, e3.symm.trans hv.2.1, e4.symm.trans hv.2.2⟩
    rw [← e1, h3]
    exact ho
  have ladder_less : ∀ {o : Offer} {x : Int}, TradableAt env.nowTs env.oracle env.order.side.invert o.comp o.order o.price →
      TradableAt env.nowTs env.oracle env.order.side.invert o.comp (o.less x).order o.price := fun h => ⟨h.price, h.live, h.peg, h.range⟩
  have same : ∀ {o o' : Offer}, o ∈ L → o' ∈ L → o.comp = o'.comp → o.order = o'.order → o = o' := by
    rintro ⟨c, l, p⟩ ⟨c', l', p'⟩ h h' e1 e2
    simp only at e1 e2
    subst e1 e2
    have h1 := ((hL.mem _).mp h).2.price
    have h2 := ((hL.mem _).mp h').2.price
    simp only at h1 h2
    rw [h1] at h2
    injection h2 with h2
    rw [h2]
  refine sorted_unique (s := env.order.side.invert) (hL'.sorted.filter _) ((rest_sorted L hL.sorted n b q).filter _) (fun o' => ?_)
  unfold openTo
  rw [List.mem_filter, List.mem_filter, decide_eq_true_eq]
  refine and_congr_left (fun hacc => ?_)
  rw [mem_rest L hL.sorted n b q o' hacc.2, hL'.mem]
  constructor
  · rintro ⟨hm, ht⟩
    obtain ⟨l, hl, hcase⟩ := C.T.after C.P.opp (C.mem_after.mp hm)
    have hml : (env.order.side.invert, o'.comp, l) ∈ book.resting := mem_resting.mpr hl
    rcases hcase with ⟨rfl, hign⟩ | ⟨v, hv, q', sf, hfate, hne, he⟩
    · refine .inl ⟨(hL.mem _).mpr ⟨hml, ht⟩, fun x hx => ?_⟩
      obtain ⟨v, hv, sf, hfate⟩ := visit _ _ hx
      rw [hign v hv] at hfate
      cases hfate
    · right
      obtain ⟨o, ho, e1, e2⟩ := taken _ _ _ _ _ hv hfate
      refine ⟨o, q', ho, by rw [e2]; exact hne, ?_⟩
      have hoL := (greedy_mem L n b q _ ho).1
      have hp := ((hL.mem o).mp hoL).2.price
      have hp' := ht.price
      rw [he] at hp'
      have : priceOf env.oracle o'.comp (l.withQty (l.quantity - q')) = priceOf env.oracle o.comp o.order := by
        rw [e1, e2]; rfl
      rw [this, hp] at hp'
      injection hp' with hp'
      obtain ⟨c', l', p'⟩ := o'
      obtain ⟨c, l1, p⟩ := o
      simp only at e1 e2 he hp'
      subst e1 e2 hp'
      unfold Offer.less
      simp only [he]
  · rintro (⟨ho, hno⟩ | ⟨o, x, hx, hne, rfl⟩)
    · obtain ⟨hm, ht⟩ := (hL.mem o').mp ho
      refine ⟨?_, ht⟩
      have none_taken : ∀ v, Visited C.tr o'.comp o'.order v → ∀ x sf, v.fate ≠ .fill x sf := by
        intro v hv x sf hfate
        obtain ⟨o, h1, e1, e2⟩ := taken _ _ _ _ _ hv hfate
        have := same (greedy_mem L n b q _ h1).1 ho e1 e2
        exact hno x (this ▸ h1)
      obtain ⟨l', hl', hcase⟩ := C.T.stays C.P.opp (mem_resting.mp hm) (by
        rintro v hv (hc | hd | ⟨sf, hfill⟩)
        · obtain ⟨_, _, _, h2, h3, h4⟩ := (C.T.ok v hv.1).cancel hc
          exact hacc.2 ⟨h3, by rw [← hv.2.2]; exact h2, h4⟩
        · have hs := item_spec C.core C.P.opp (C.T.mem hv.1)
          have hbad := hs.invalid ((C.T.ok v hv.1).drop hd)
          have hp := hs.price
          rw [hv.2.1, hv.2.2, ht.price] at hp
          injection hp with hp
          rw [hv.2.1, hv.2.2, ← hp] at hbad
          rcases hbad with h | ⟨h1, h2⟩
          · exact ht.live h
          · exact ht.peg h1 h2
        · exact none_taken v hv _ _ hfill)
      rcases hcase with ⟨rfl, _⟩ | ⟨v, hv, q', sf, hfate, _⟩
      · exact C.mem_after.mpr hl'
      · exact absurd hfate (none_taken v hv _ _)
    · obtain ⟨hoL, _⟩ := greedy_mem L n b q _ hx
      obtain ⟨hm, ht⟩ := (hL.mem o).mp hoL
      refine ⟨?_, ladder_less ht⟩
      obtain ⟨v, hv, sf, hfate⟩ := visit _ _ hx
      have only : ∀ w, Visited C.tr o.comp o.order w → w = v := fun w hw =>
        C.T.inj C.P.opp hw.1 hv.1 (hw.2.1.trans hv.2.1.symm) (by rw [hw.2.2, hv.2.2])
      obtain ⟨l', hl', hcase⟩ := C.T.stays C.P.opp (mem_resting.mp hm) (by
        intro w hw
        rw [only w hw]
        rintro (hc | hd | ⟨sf', hfill⟩)
        · rw [hc] at hfate; cases hfate
        · rw [hd] at hfate; cases hfate
        · rw [hfill, hv.2.2] at hfate
          injection hfate with h1
          exact hne h1.symm)
      rcases hcase with ⟨_, hign⟩ | ⟨w, hw, q', sf', hfate', _, rfl⟩
      · rw [hign v hv] at hfate; cases hfate
      · rw [only w hw, hfate] at hfate'
        injection hfate' with h1
        subst h1
        exact C.mem_after.mpr hl'

end CallRun
end OB
