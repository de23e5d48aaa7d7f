import Verif.Proofs.Depth
import Verif.Spec.More
import Mathlib.Tactic.Linarith
import Mathlib.Data.List.Flatten
/-! Greedy matches of different orders and of different books compared. -/
namespace OB
open Spec

/-- How dear price `p` is to a taker of side `s`. -/
def dear (s : Side) (p : Int) : Int :=
  match s with
  | .bid => p
  | .ask => -p

/-- The prices of the offers, lot by lot. -/
def lotsOf (L : List Offer) : List Int := L.flatMap (fun o => List.replicate o.order.quantity.toNat o.price)

/-- The offers that the taker takes, given the means. -/
def openTo (env : Env) (L : List Offer) : List Offer :=
  L.filter (fun o => decide (acceptable env.order.side (limitOf env.order env.oracle) o.price ∧ ¬ cancelsOwn env o.order))

def costSum (xs : List (Offer × Int)) : Int := (xs.map (fun x => x.2 * x.1.price)).sum
def sizeSum (xs : List (Offer × Int)) : Int := (xs.map (·.2)).sum

theorem dear_le {s : Side} {o o' : Offer} (h : OfferBefore s.invert o o') : dear s o.price ≤ dear s o'.price := by
  unfold OfferBefore Before betterPrice at h
  unfold dear
  cases s <;> simp only [Side.invert] at * <;> omega

/-- The cheapest `n` lots of more lots cost no more. -/
theorem take_sum_le {U U1 : List Int} (h : U.Sublist U1) (hs : U1.Pairwise (· ≤ ·)) (n : Nat) (hn : n ≤ U.length) :
    (U1.take n).sum ≤ (U.take n).sum := by
  induction h generalizing n with
  | slnil => simp
  | @cons U U1 a h ih =>
    cases n with
    | zero => simp
    | succ m =>
      have hs2 := List.pairwise_cons.mp hs
      have hl := h.length_le
      refine Int.le_trans ?_ (ih hs2.2 (m + 1) hn)
      rw [List.take_succ_cons, List.sum_cons, List.take_succ_eq_append_getElem (by omega), List.sum_append]
      have := hs2.1 (U1[m]'(by omega)) (List.getElem_mem _)
      simp only [List.sum_cons, List.sum_nil]
      omega
  | @cons_cons U U1 a h ih =>
    cases n with
    | zero => simp
    | succ m =>
      rw [List.take_succ_cons, List.take_succ_cons, List.sum_cons, List.sum_cons]
      have := ih (List.pairwise_cons.mp hs).2 m (by simpa using hn)
      omega

theorem take_sum_mono {U : List Int} (h : ∀ p ∈ U, 0 ≤ p) {j k : Nat} (hjk : j ≤ k) : (U.take j).sum ≤ (U.take k).sum := by
  induction U generalizing j k with
  | nil => simp
  | cons a U ih =>
    have h1 := h a (by simp)
    have h2 := fun j k (hjk : j ≤ k) => ih (fun x hx => h x (List.mem_cons_of_mem _ hx)) (j := j) (k := k) hjk
    cases k with
    | zero => rw [Nat.le_zero.mp hjk]
    | succ k =>
      cases j with
      | zero =>
        have := h2 0 k (by omega)
        rw [List.take_zero, List.take_succ_cons, List.sum_cons]
        simp only [List.take_zero, List.sum_nil] at *
        omega
      | succ j =>
        have := h2 j k (by omega)
        rw [List.take_succ_cons, List.take_succ_cons, List.sum_cons, List.sum_cons]
        omega

theorem sum_map_neg (U : List Int) : (U.map (fun x => -x)).sum = - U.sum := by
  induction U with
  | nil => rfl
  | cons a U ih => rw [List.map_cons, List.sum_cons, List.sum_cons, ih]; omega

theorem take_sum_dear {s : Side} {U U1 : List Int} (h : U.Sublist U1) (hs : U1.Pairwise (fun a b => dear s a ≤ dear s b)) (n : Nat)
    (hn : n ≤ U.length) : dear s (U1.take n).sum ≤ dear s (U.take n).sum := by
  cases s with
  | bid => exact take_sum_le h hs n hn
  | ask =>
    have := take_sum_le (h.map (fun x => -x)) (List.pairwise_map.mpr hs) n (by simpa using hn)
    rw [← List.map_take, ← List.map_take, sum_map_neg, sum_map_neg] at this
    exact this

theorem lots_cons (o : Offer) (L : List Offer) : lotsOf (o :: L) = List.replicate o.order.quantity.toNat o.price ++ lotsOf L := rfl

theorem mem_lots {L : List Offer} {p : Int} (h : p ∈ lotsOf L) : ∃ o ∈ L, o.price = p := by
  unfold lotsOf at h
  obtain ⟨o, ho, hp⟩ := List.mem_flatMap.mp h
  exact ⟨o, ho, (List.mem_replicate.mp hp).2.symm⟩

theorem lots_sorted {s : Side} {L : List Offer} (h : L.Pairwise (OfferBefore s.invert)) :
    (lotsOf L).Pairwise (fun a b => dear s a ≤ dear s b) := by
  induction L with
  | nil => exact List.Pairwise.nil
  | cons o L ih =>
    have h2 := List.pairwise_cons.mp h
    rw [lots_cons, List.pairwise_append]
    refine ⟨?_, ih h2.2, ?_⟩
    · rw [List.pairwise_replicate]; exact .inr (Int.le_refl _)
    · intro a ha b hb
      obtain ⟨o', ho', rfl⟩ := mem_lots hb
      rw [(List.mem_replicate.mp ha).2]
      exact dear_le (h2.1 _ ho')

theorem sum_replicate_int (n : Nat) (p : Int) : (List.replicate n p).sum = n * p := by
  induction n with
  | zero => simp
  | succ n ih => rw [List.replicate_succ, List.sum_cons, ih]; push_cast; linarith [Int.add_mul (n : Int) 1 p]

theorem openTo_no {env : Env} {o : Offer} {L : List Offer} (hs : (o :: L).Pairwise (OfferBefore env.order.side.invert))
    (h : ¬ acceptable env.order.side (limitOf env.order env.oracle) o.price) : openTo env (o :: L) = [] := by
  have := accepted_no (s := env.order.side.invert) (lim := limitOf env.order env.oracle) hs (by rwa [invert_invert])
  unfold accepted at this
  rw [List.filter_eq_nil_iff, invert_invert] at this
  unfold openTo
  rw [List.filter_eq_nil_iff]
  intro a ha hx
  exact this a ha (decide_eq_true (of_decide_eq_true hx).1)

theorem greedy_stop {env : Env} {n : Nat} {b q : Int} {L : List Offer} (h : b = 0 ∨ ∀ o ∈ L, q < o.price) : greedy env n b q L = [] := by
  cases L with
  | nil => rw [greedy]
  | cons o L =>
    rw [greedy, if_pos]
    rcases h with h | h
    · exact .inl h
    · exact .inr (.inr (.inr (h o (by simp))))

theorem bid_ahead {env : Env} (hb : env.order.side = .bid) {o : Offer} {L : List Offer} (hs : (o :: L).Pairwise (OfferBefore env.order.side.invert)) :
    ∀ x ∈ L, o.price ≤ x.price := by
  intro x hx
  have := dear_le ((List.pairwise_cons.mp hs).1 x hx)
  rw [hb] at this
  exact this

/-- The greedy match takes the cheapest lots.  It stops only when it has enough, when there are no more, when the next lot is not
affordable, or when it may not fill another order. -/
theorem greedy_lots {env : Env} (L : List Offer) (hs : L.Pairwise (OfferBefore env.order.side.invert))
    (hq : ∀ o ∈ L, 1 ≤ o.order.quantity ∧ 1 ≤ o.price) (n : Nat) (b q : Int) (hb : 0 ≤ b) (hq0 : 0 ≤ q)
    (hroom : env.order.side = .bid ∨ ∀ o ∈ L, b * o.price ≤ q) :
    ∃ k : Nat, sizeSum (greedy env n b q L) = k ∧ (k : Int) ≤ b ∧ k ≤ (lotsOf (openTo env L)).length ∧
      costSum (greedy env n b q L) = ((lotsOf (openTo env L)).take k).sum ∧ costSum (greedy env n b q L) ≤ q ∧
      ((greedy env n b q L).length < n → (k : Int) = b ∨ k = (lotsOf (openTo env L)).length ∨
        (env.order.side = .bid ∧ q < ((lotsOf (openTo env L)).take (k + 1)).sum)) := by
  induction L generalizing n b q with
  | nil =>
    rw [greedy]
    exact ⟨0, rfl, hb, Nat.zero_le _, rfl, hq0, fun _ => .inr (.inl rfl)⟩
  | cons o L ih =>
    have ho := hq o (by simp)
    have hq2 : ∀ o ∈ L, 1 ≤ o.order.quantity ∧ 1 ≤ o.price := fun x hx => hq x (List.mem_cons_of_mem _ hx)
    have hs2 := List.pairwise_cons.mp hs
    rw [greedy]
    by_cases hstop : b = 0 ∨ ¬ acceptable env.order.side (limitOf env.order env.oracle) o.price ∨ n = 0 ∨ q < o.price
    · rw [if_pos hstop]
      refine ⟨0, rfl, hb, Nat.zero_le _, by simp [costSum], by simpa [costSum] using hq0, fun hn => ?_⟩
      rcases hstop with h | h | h | h
      · exact .inl h.symm
      · rw [openTo_no hs h]; exact .inr (.inl rfl)
      · rw [h] at hn; exact absurd hn (by simp)
      · cases hU : lotsOf (openTo env (o :: L)) with
        | nil => exact .inr (.inl rfl)
        | cons p U =>
          rcases hroom with hbid | hroom
          · refine .inr (.inr ⟨hbid, ?_⟩)
            obtain ⟨x, hx, rfl⟩ := mem_lots (L := openTo env (o :: L)) (p := p) (by rw [hU]; simp)
            have hx := List.mem_of_mem_filter hx
            have : o.price ≤ x.price := by
              rcases List.mem_cons.mp hx with rfl | hx
              · exact Int.le_refl _
              · exact bid_ahead hbid hs x hx
            simp only [List.take_succ_cons, List.take_zero, List.sum_cons, List.sum_nil]
            omega
          · by_cases hb0 : b = 0
            · exact .inl hb0.symm
            · have h1 := hroom o (by simp)
              have : 1 * o.price ≤ b * o.price := Int.mul_le_mul_of_nonneg_right (by omega) (by omega)
              omega
    · rw [if_neg hstop]
      simp only [not_or, not_not, Int.not_lt] at hstop
      obtain ⟨hb0, hacc, hn0, hqp⟩ := hstop
      by_cases hown : cancelsOwn env o.order
      · rw [if_pos hown]
        have hU : openTo env (o :: L) = openTo env L := by
          unfold openTo
          rw [List.filter_cons, if_neg (by simp [hown])]
        rw [hU]
        exact ih hs2.2 hq2 n b q hb hq0 (hroom.imp_right (fun h x hx => h x (List.mem_cons_of_mem _ hx)))
      · rw [if_neg hown]
        have hU : openTo env (o :: L) = o :: openTo env L := by
          unfold openTo
          rw [List.filter_cons, if_pos (by simp [hown, hacc])]
        rw [hU, lots_cons]
        generalize hx : min (min b o.order.quantity) (q / o.price) = x
        have hdiv1 : 1 ≤ q / o.price := (Int.le_ediv_iff_mul_le (by omega)).mpr (by omega)
        have hx1 : 1 ≤ x := by omega
        have hxq : x * o.price ≤ q := (Int.le_ediv_iff_mul_le (by omega)).mp (by omega)
        simp only []
        obtain ⟨m, hm⟩ : ∃ m : Nat, x = m := ⟨x.toNat, by omega⟩
        obtain ⟨Q, hQ⟩ : ∃ Q : Nat, o.order.quantity = Q := ⟨o.order.quantity.toNat, by omega⟩
        rw [hQ, Int.toNat_natCast]
        have hmQ : m ≤ Q := by omega
        have hsz : ∀ ys : List (Offer × Int), sizeSum ((o, x) :: ys) = x + sizeSum ys := fun ys => by
          unfold sizeSum; rw [List.map_cons, List.sum_cons]
        have hcs : ∀ ys : List (Offer × Int), costSum ((o, x) :: ys) = x * o.price + costSum ys := fun ys => by
          unfold costSum; rw [List.map_cons, List.sum_cons]
        rw [hsz, hcs, List.length_cons]
        by_cases hfull : m = Q
        · have hroom2 : env.order.side = .bid ∨ ∀ y ∈ L, (b - x) * y.price ≤ q - x * o.price := by
            rcases hroom with h | h
            · exact .inl h
            · by_cases hbid : env.order.side = .bid
              · exact .inl hbid
              refine .inr (fun y hy => ?_)
              have hd := dear_le (hs2.1 y hy)
              have hle : y.price ≤ o.price := by
                unfold dear at hd
                cases hside : env.order.side with
                | bid => exact absurd hside hbid
                | ask => rw [hside] at hd; simp only at hd; omega
              have h1 := h o (by simp)
              have h2 : (b - x) * y.price ≤ (b - x) * o.price := Int.mul_le_mul_of_nonneg_left hle (by omega)
              have h3 : (b - x) * o.price = b * o.price - x * o.price := Int.sub_mul _ _ _
              omega
          obtain ⟨k, e1, e2, e3, e4, e5, e6⟩ := ih hs2.2 hq2 (n - 1) (b - x) (q - x * o.price) (by omega) (by omega) hroom2
          have ht : ∀ j, (List.replicate Q o.price ++ lotsOf (openTo env L)).take (m + j) =
              List.replicate Q o.price ++ (lotsOf (openTo env L)).take j := by
            intro j
            rw [List.take_append, List.length_replicate, hfull, List.take_of_length_le (by simp), Nat.add_sub_cancel_left]
          refine ⟨m + k, by rw [e1, hm]; push_cast; rfl, by push_cast; omega, by simp; omega, ?_, by omega, fun hl => ?_⟩
          · rw [ht, List.sum_append, sum_replicate_int, e4, hm, hfull]
          · rcases e6 (by omega) with h | h | ⟨h, h'⟩
            · left; push_cast; omega
            · right; left; simp; omega
            · right; right
              refine ⟨h, ?_⟩
              rw [Nat.add_assoc, ht, List.sum_append, sum_replicate_int]
              rw [hm, hfull] at h'
              omega
        · -- the offer is not used up, so nothing follows
          have hnil : greedy env (n - 1) (b - x) (q - x * o.price) L = [] := by
            apply greedy_stop
            by_cases hxb : x = b
            · left; omega
            · have hxd : x = q / o.price := by omega
              rcases hroom with hbid | hroom
              · right
                intro y hy
                have h1 := bid_ahead hbid hs y hy
                have h2 := Int.emod_lt_of_pos q (show 0 < o.price by omega)
                have h3 := Int.emod_add_mul_ediv q o.price
                rw [hxd, Int.mul_comm]
                omega
              · exfalso
                have h1 := hroom o (by simp)
                have h2 : b ≤ q / o.price := (Int.le_ediv_iff_mul_le (by omega)).mpr h1
                omega
          rw [hnil]
          have ht : ∀ j, j ≤ Q → ((List.replicate Q o.price ++ lotsOf (openTo env L)).take j).sum = j * o.price := by
            intro j hj
            rw [List.take_append_of_le_length (by simpa using hj), List.take_replicate, Nat.min_eq_left hj, sum_replicate_int]
          refine ⟨m, by simp [sizeSum, hm], by omega, by simp; omega, ?_, by simpa [costSum] using hxq, fun _ => ?_⟩
          · rw [ht m hmQ, hm]; simp [costSum]
          · by_cases hxb : x = b
            · left; omega
            · right; right
              have hxd : x = q / o.price := by omega
              have hbid : env.order.side = .bid := by
                rcases hroom with h | h
                · exact h
                · exfalso
                  have h1 := h o (by simp)
                  have h2 : b ≤ q / o.price := (Int.le_ediv_iff_mul_le (by omega)).mpr h1
                  omega
              refine ⟨hbid, ?_⟩
              rw [ht (m + 1) (by omega)]
              have h2 := Int.emod_lt_of_pos q (show 0 < o.price by omega)
              have h3 := Int.emod_add_mul_ediv q o.price
              have h4 : ((m + 1 : Nat) : Int) * o.price = o.price * (q / o.price) + o.price := by
                rw [← hxd, hm]; push_cast; rw [Int.add_mul, Int.mul_comm o.price]; omega
              omega

theorem fillsAre_cost {env : Env} {book : Book} {xs : List (Offer × Int)} {fs : List FillEvent} (h : FillsAre env book xs fs) :
    sumQuote fs = costSum xs := by
  unfold FillsAre at h
  unfold sumQuote costSum
  induction h with
  | nil => rfl
  | cons hx _ ih => rw [List.map_cons, List.sum_cons, List.map_cons, List.sum_cons, ih, hx.2.2, hx.2.1]

/-- The ladder of a book is part of the ladder of a book that offers more. -/
theorem ladder_sublist {book book1 : Book} {s : Side} {now : Nat} {oracle : Option Int} {L L1 : List Offer}
    (h : Ladder book s now oracle L) (h1 : Ladder book1 s now oracle L1) (hm : OffersMore s book book1) : L.Sublist L1 := by
  classical
  have : L = L1.filter (fun o => decide (o ∈ L)) := by
    refine sorted_unique (s := s) h.sorted (h1.sorted.filter _) (fun o => ?_)
    rw [List.mem_filter, decide_eq_true_eq]
    constructor
    · intro ho
      have := (h.mem o).mp ho
      exact ⟨(h1.mem o).mpr ⟨hm _ _ this.1, this.2⟩, ho⟩
    · exact fun ho => ho.2
  rw [this]
  exact List.filter_sublist

/-- Two greedy matches, the second over more offers. -/
theorem greedy_more {env : Env} {L L1 : List Offer} (hsub : L.Sublist L1) (hs1 : L1.Pairwise (OfferBefore env.order.side.invert))
    (hq1 : ∀ o ∈ L1, 1 ≤ o.order.quantity ∧ 1 ≤ o.price) {n : Nat} {b q : Int} (hb : 0 ≤ b) (hq0 : 0 ≤ q)
    (hroom : env.order.side = .bid ∨ ∀ o ∈ L1, b * o.price ≤ q) (hn : (greedy env n b q L1).length < n) :
    sizeSum (greedy env n b q L) ≤ sizeSum (greedy env n b q L1) ∧
    (sizeSum (greedy env n b q L1) = sizeSum (greedy env n b q L) →
      dear env.order.side (costSum (greedy env n b q L1)) ≤ dear env.order.side (costSum (greedy env n b q L))) ∧
    (∀ p, (∀ o ∈ L1, acceptable env.order.side (limitOf env.order env.oracle) o.price → dear env.order.side o.price ≤ dear env.order.side p) →
      dear env.order.side (costSum (greedy env n b q L1)) ≤ dear env.order.side (costSum (greedy env n b q L)) +
        (sizeSum (greedy env n b q L1) - sizeSum (greedy env n b q L)) * dear env.order.side p) := by
  obtain ⟨k, e1, e2, e3, e4, e5, _⟩ := greedy_lots L (hs1.sublist hsub) (fun o ho => hq1 o (hsub.subset ho)) n b q hb hq0
    (hroom.imp_right (fun h o ho => h o (hsub.subset ho)))
  obtain ⟨k1, f1, f2, f3, f4, f5, f6⟩ := greedy_lots L1 hs1 hq1 n b q hb hq0 hroom
  have hU : (lotsOf (openTo env L)).Sublist (lotsOf (openTo env L1)) := (hsub.filter _).flatMap _
  have hsU : (lotsOf (openTo env L1)).Pairwise (fun a b => dear env.order.side a ≤ dear env.order.side b) :=
    lots_sorted (hs1.filter _)
  have hlen := hU.length_le
  have hpos : ∀ p ∈ lotsOf (openTo env L), 0 ≤ p := by
    intro p hp
    obtain ⟨o, ho, rfl⟩ := mem_lots hp
    have := hq1 o (hsub.subset (List.mem_of_mem_filter ho))
    omega
  have hkk : k ≤ k1 := by
    by_contra hlt
    rcases f6 hn with h | h | ⟨hbid, h⟩
    · omega
    · omega
    · have h1 := take_sum_dear hU hsU (k1 + 1) (by omega)
      rw [hbid] at h1
      simp only [dear] at h1
      have h2 : ((lotsOf (openTo env L)).take (k1 + 1)).sum ≤ ((lotsOf (openTo env L)).take k).sum := by
        exact take_sum_mono hpos (by omega)
      omega
  have hmain := take_sum_dear hU hsU k e3
  rw [e1, f1, e4, f4]
  refine ⟨by omega, fun h => ?_, fun p hp => ?_⟩
  · have : k1 = k := by omega
    rw [this]; exact hmain
  · have hsplit : (lotsOf (openTo env L1)).take k1 = (lotsOf (openTo env L1)).take k ++ ((lotsOf (openTo env L1)).drop k).take (k1 - k) := by
      have := List.take_add (l := lotsOf (openTo env L1)) (i := k) (j := k1 - k)
      rwa [Nat.add_sub_cancel' hkk] at this
    rw [hsplit, List.sum_append]
    have hrest : ∀ V : List Int, (∀ x ∈ V, dear env.order.side x ≤ dear env.order.side p) →
        dear env.order.side V.sum ≤ V.length * dear env.order.side p := by
      intro V hV
      induction V with
      | nil => simp [dear]; split <;> omega
      | cons a V ih =>
        have h1 := ih (fun x hx => hV x (List.mem_cons_of_mem _ hx))
        have h2 := hV a (by simp)
        have h3 : dear env.order.side (a + V.sum) = dear env.order.side a + dear env.order.side V.sum := by
          unfold dear; split <;> omega
        rw [List.sum_cons, h3, List.length_cons]
        push_cast
        rw [Int.add_mul]
        omega
    have h1 := hrest (((lotsOf (openTo env L1)).drop k).take (k1 - k)) (fun x hx => by
      obtain ⟨o, ho, rfl⟩ := mem_lots (List.mem_of_mem_drop (List.mem_of_mem_take hx))
      have := List.mem_filter.mp ho
      exact hp o this.1 (of_decide_eq_true this.2).1)
    have hl : (((lotsOf (openTo env L1)).drop k).take (k1 - k)).length = k1 - k := by
      rw [List.length_take, List.length_drop]; omega
    rw [hl] at h1
    have h3 : ∀ a c : Int, dear env.order.side (a + c) = dear env.order.side a + dear env.order.side c := by
      intro a c; unfold dear; split <;> omega
    rw [h3]
    have h4 : ((k1 - k : Nat) : Int) = (k1 : Int) - k := by omega
    rw [h4] at h1
    omega

theorem sizeSum_cons (o : Offer) (x : Int) (ys : List (Offer × Int)) : sizeSum ((o, x) :: ys) = x + sizeSum ys := by
  unfold sizeSum; rw [List.map_cons, List.sum_cons]

theorem greedy_nonneg {env : Env} (L : List Offer) (hq : ∀ o ∈ L, 1 ≤ o.order.quantity ∧ 1 ≤ o.price) (n : Nat) (b q : Int) (hb : 0 ≤ b) :
    0 ≤ sizeSum (greedy env n b q L) := by
  induction L generalizing n b q with
  | nil => rw [greedy]; exact Int.le_refl _
  | cons o L ih =>
    have ho := hq o (by simp)
    have ih := fun n b q hb => ih (fun x hx => hq x (List.mem_cons_of_mem _ hx)) n b q hb
    rw [greedy]
    split
    · exact Int.le_refl _
    · rename_i hstop
      simp only [not_or, Int.not_lt] at hstop
      split
      · exact ih n b q hb
      · have hdiv : 0 ≤ q / o.price := Int.ediv_nonneg (by omega) (by omega)
        simp only []
        rw [sizeSum_cons]
        have := ih (n - 1) (b - min (min b o.order.quantity) (q / o.price)) (q - min (min b o.order.quantity) (q / o.price) * o.price) (by omega)
        omega

/-- What is left after taking an offer of the best price still suffices for all that is wanted. -/
theorem room_after {env : Env} {o : Offer} {L : List Offer} (hs : (o :: L).Pairwise (OfferBefore env.order.side.invert))
    (hbid : env.order.side ≠ .bid) {b q x : Int} (h : b * o.price ≤ q) (hx : x ≤ b) : ∀ y ∈ L, (b - x) * y.price ≤ q - x * o.price := by
  intro y hy
  have hd := dear_le ((List.pairwise_cons.mp hs).1 y hy)
  have hle : y.price ≤ o.price := by
    unfold dear at hd
    cases hside : env.order.side with
    | bid => exact absurd hside hbid
    | ask => rw [hside] at hd; simp only at hd; omega
  have h2 : (b - x) * y.price ≤ (b - x) * o.price := Int.mul_le_mul_of_nonneg_left hle (by omega)
  have h3 : (b - x) * o.price = b * o.price - x * o.price := Int.sub_mul _ _ _
  omega

/-- An order that asks for more trades at least as much. -/
theorem greedy_larger {env env1 : Env} (h : AsksMore env env1) (L : List Offer) (hs : L.Pairwise (OfferBefore env.order.side.invert))
    (hq : ∀ o ∈ L, 1 ≤ o.order.quantity ∧ 1 ≤ o.price) (n n1 : Nat) (b b1 q q1 : Int) (hn : n ≤ n1) (hb0 : 0 ≤ b) (hb : b ≤ b1)
    (hqq : q ≤ q1) (hroom : env.order.side = .bid ∨ ∀ o ∈ L, b * o.price ≤ q ∧ b1 * o.price ≤ q1) :
    sizeSum (greedy env n b q L) ≤ sizeSum (greedy env1 n1 b1 q1 L) := by
  induction L generalizing n n1 b b1 q q1 with
  | nil => rw [greedy, greedy]
  | cons o L ih =>
    have ho := hq o (by simp)
    have hq2 : ∀ o ∈ L, 1 ≤ o.order.quantity ∧ 1 ≤ o.price := fun x hx => hq x (List.mem_cons_of_mem _ hx)
    have hs2 := List.pairwise_cons.mp hs
    by_cases hstop : b = 0 ∨ ¬ acceptable env.order.side (limitOf env.order env.oracle) o.price ∨ n = 0 ∨ q < o.price
    · rw [greedy, if_pos hstop]
      exact greedy_nonneg (o :: L) hq n1 b1 q1 (by omega)
    · rw [greedy, if_neg hstop]
      simp only [not_or, not_not, Int.not_lt] at hstop
      obtain ⟨hb1, hacc, hn0, hqp⟩ := hstop
      have hstop1 : ¬ (b1 = 0 ∨ ¬ acceptable env1.order.side (limitOf env1.order env1.oracle) o.price ∨ n1 = 0 ∨ q1 < o.price) := by
        rintro (h1 | h1 | h1 | h1)
        · omega
        · rw [h.side] at h1; exact h1 (h.accepts _ hacc)
        · omega
        · omega
      rw [greedy, if_neg hstop1]
      have hown : cancelsOwn env1 o.order ↔ cancelsOwn env o.order := by
        unfold cancelsOwn; rw [h.owner.1, h.owner.2, h.self]
      by_cases hc : cancelsOwn env o.order
      · rw [if_pos hc, if_pos (hown.mpr hc)]
        exact ih hs2.2 hq2 n n1 b b1 q q1 hn hb0 hb hqq (hroom.imp_right (fun h x hx => h x (List.mem_cons_of_mem _ hx)))
      · rw [if_neg hc, if_neg (fun h => hc (hown.mp h))]
        have hdd : q / o.price ≤ q1 / o.price := Int.ediv_le_ediv (by omega) hqq
        have hdiv1 : 1 ≤ q / o.price := (Int.le_ediv_iff_mul_le (by omega)).mpr (by omega)
        simp only []
        generalize hx : min (min b o.order.quantity) (q / o.price) = x
        generalize hx1 : min (min b1 o.order.quantity) (q1 / o.price) = x1
        have hxx : x ≤ x1 := by omega
        rw [sizeSum_cons, sizeSum_cons]
        by_cases hfull : x = o.order.quantity
        · have hx1' : x1 = x := by omega
          rw [hx1']
          have := ih hs2.2 hq2 (n - 1) (n1 - 1) (b - x) (b1 - x) (q - x * o.price) (q1 - x * o.price) (by omega) (by omega) (by omega) (by omega) (by
            by_cases hbid : env.order.side = .bid
            · exact .inl hbid
            · rcases hroom with hr | hr
              · exact .inl hr
              · have h0 := hr o (by simp)
                exact .inr (fun y hy => ⟨room_after hs hbid h0.1 (by omega) y hy, room_after hs hbid h0.2 (by omega) y hy⟩))
          omega
        · have hnil : greedy env (n - 1) (b - x) (q - x * o.price) L = [] := by
            apply greedy_stop
            by_cases hxb : x = b
            · left; omega
            · have hxd : x = q / o.price := by omega
              rcases hroom with hbid | hroom
              · right
                intro y hy
                have h1 := bid_ahead hbid hs y hy
                have h2 := Int.emod_lt_of_pos q (show 0 < o.price by omega)
                have h3 := Int.emod_add_mul_ediv q o.price
                rw [hxd, Int.mul_comm]
                omega
              · exfalso
                have h1 := (hroom o (by simp)).1
                have h2 : b ≤ q / o.price := (Int.le_ediv_iff_mul_le (by omega)).mpr h1
                omega
          have h1 := greedy_nonneg (env := env1) L hq2 (n1 - 1) (b1 - x1) (q1 - x1 * o.price) (by omega)
          rw [hnil]
          simp only [sizeSum, List.map_nil, List.sum_nil] at *
          omega

end OB
