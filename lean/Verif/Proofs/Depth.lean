import Verif.Model.Depth
import Verif.Spec.Depth
import Verif.Proofs.Named
import Verif.Proofs.Posted
import Verif.Proofs.Greedy
/-! Proofs about what a book side tells about itself. -/
namespace OB
open Spec

/-! ### the loops -/

/-- `quantity_at_price` over a list of offers. -/
def depthR (s : Side) (lim : Int) : List Offer → Int → R Int
  | [], sum => .ok sum
  | o :: L, sum => if s.isPriceBetter lim o.price then .ok sum else do
    let sum' ← ckI64 (sum + o.order.quantity)
    depthR s lim L sum'

/-- `impact_price` over a list of offers. -/
def impactR (q : Int) : List Offer → Int → R (Option Int)
  | [], _ => .ok none
  | o :: L, sum => do
    let sum' ← ckI64 (sum + o.order.quantity)
    if sum' ≥ q then return some o.price else impactR q L sum'

theorem quantityLoop_eq {t : Nodes} {now : Nat} {oracle : Option Int} {lim : Int} (n : Nat) {it : SideIter} {F P : HL} (sum : Int)
    (h : SIterAt t it F P) (hF : ∀ f ∈ F, FixedOk f.2) (hl : P.length ≤ 1024) (hn : F.length + P.length + 1 ≤ n) :
    BookSide.quantityLoop t now oracle lim n it sum = depthR t.side lim (validOffers (items t.side now oracle F P)) sum := by
  induction n generalizing it F P sum with
  | zero => omega
  | succ n ih =>
    rw [BookSide.quantityLoop, items_eq]
    rcases sideIter_next now oracle h hF hl with ⟨h1, h2⟩ | ⟨item, it', F', P', h1, h2, h3⟩
    · rw [h1, h2]; rfl
    · rw [h1, h2]
      simp only [ok_bind]
      have hlen := nextL_length h1
      obtain ⟨s1, s2⟩ := nextL_subset h1
      have ih' := fun a => ih (it := it') a h3 (fun f hf => hF f (s1.subset hf)) (by have := s2.length_le; omega) (by omega)
      by_cases hv : item.state = .valid
      · rw [if_neg (by simpa using hv), validOffers_valid hv, depthR]
        simp only [ih']
        rfl
      · rw [if_pos hv, validOffers_invalid hv]
        exact ih' _

theorem impactLoop_eq {t : Nodes} {now : Nat} {oracle : Option Int} {q : Int} (n : Nat) {it : SideIter} {F P : HL} (sum : Int)
    (h : SIterAt t it F P) (hF : ∀ f ∈ F, FixedOk f.2) (hl : P.length ≤ 1024) (hn : F.length + P.length + 1 ≤ n) :
    BookSide.impactLoop t now oracle q n it sum = impactR q (validOffers (items t.side now oracle F P)) sum := by
  induction n generalizing it F P sum with
  | zero => omega
  | succ n ih =>
    rw [BookSide.impactLoop, items_eq]
    rcases sideIter_next now oracle h hF hl with ⟨h1, h2⟩ | ⟨item, it', F', P', h1, h2, h3⟩
    · rw [h1, h2]; rfl
    · rw [h1, h2]
      simp only [ok_bind]
      have hlen := nextL_length h1
      obtain ⟨s1, s2⟩ := nextL_subset h1
      have ih' := fun a => ih (it := it') a h3 (fun f hf => hF f (s1.subset hf)) (by have := s2.length_le; omega) (by omega)
      by_cases hv : item.state = .valid
      · rw [if_neg (by simpa using hv), validOffers_valid hv, impactR]
        simp only [ih']
        rfl
      · rw [if_pos hv, validOffers_invalid hv]
        exact ih' _

/-! ### the offers of a side -/

theorem core_offers_sorted {env : Env} {book : Book} {g : Ledger} {dB dQ : Int} {ot : Comp → Option T} (hc : Core g book dB dQ)
    (h : EngineState book g) (hb : (book.side env.order.side.invert).side = env.order.side.invert)
    (ho : BSOk (book.side env.order.side.invert) ot) :
    (validOffers (callItems env ot)).Pairwise (OfferBefore env.order.side.invert) := by
  unfold validOffers
  rw [List.pairwise_map]
  refine List.Pairwise.filter _ ?_
  refine ((items_priority hc hb ho).and (items_distinct ho)).imp_of_mem ?_
  intro i j hi hj hx
  have si := item_spec hc ho hi
  have sj := item_spec hc ho hj
  refine offer_strict h si.mem sj.mem hx.2 ?_
  exact ekey_before (by have := si.pos; omega) (by have := sj.pos; omega) hx.1

theorem core_offers_eq {env : Env} {book : Book} {g : Ledger} {dB dQ : Int} {ot : Comp → Option T} (hc : Core g book dB dQ)
    (h : EngineState book g) (hb : (book.side env.order.side.invert).side = env.order.side.invert)
    (ho : BSOk (book.side env.order.side.invert) ot) (hns : NoSkipped book env.order.side.invert env.oracle)
    {L : List Offer} (hL : Ladder book env.order.side.invert env.nowTs env.oracle L) : validOffers (callItems env ot) = L := by
  refine sorted_unique (s := env.order.side.invert) (core_offers_sorted hc h hb ho) hL.sorted ?_
  intro o
  rw [hL.mem]
  constructor
  · intro h'
    obtain ⟨i, hi, rfl⟩ := List.mem_map.mp h'
    obtain ⟨hi, hv⟩ := List.mem_filter.mp hi
    have si := item_spec hc ho hi
    exact ⟨si.mem, si.valid (by simpa using hv)⟩
  · rintro ⟨h1, h2⟩
    obtain ⟨i, hi, e1, e2, e3, hv⟩ := item_complete hc ho h1 h2 (.inr hns)
    refine List.mem_map.mpr ⟨i, List.mem_filter.mpr ⟨hi, by simpa using hv⟩, ?_⟩
    unfold IterItem.offer
    rw [e1, e2, e3]

/-- Everything a side tells is read off its offers. -/
theorem side_reads {book : Book} {g : Ledger} (h : EngineState book g) {s : Side} {oracle : Option Int} {now : Nat}
    (hns : NoSkipped book s oracle) {L : List Offer} (hL : Ladder book s now oracle L) :
    (book.side s).bestPrice now oracle = .ok (L.head?.map (·.price)) ∧
      ∀ o, oracle = some o → (∀ lim, (book.side s).quantityAtPrice lim now o = depthR s lim L 0) ∧
        ∀ q, (book.side s).impactPrice q now o = impactR q L 0 := by
  obtain ⟨dB, dQ, hc⟩ := h.core
  let env : Env := { order := { side := s.invert, maxBaseLots := 0, maxQuoteLotsIncludingFees := 0, clientOrderId := 0, timeInForce := 0,
                                selfTradeBehavior := .decrementTake, params := .market },
                     oracle, hasOO := false, owner := 0, nowTs := now, limit := 0, rem := [] }
  have hs : env.order.side.invert = s := invert_invert s
  obtain ⟨ot, ho⟩ := hc.bookOk.ok s
  have hb := hc.bookOk.side s
  rw [← hs] at ho hb hL hns
  have he := core_offers_eq (env := env) hc h hb ho hns hL
  obtain ⟨it, hit, hi1, hi2⟩ := bs_iter ho
  have hlen := ho.lengths
  have lF := (OT.ord_perm env.order.side.invert (ot .fixed)).length_eq
  have lP := (OT.ord_perm env.order.side.invert (ot .pegged)).length_eq
  have hbp := bestPrice_eq (env := env) hc hb ho
  rw [hb] at hi1 hi2
  have hside : (book.side env.order.side.invert).nodes.side = env.order.side.invert := hb
  have hF := Client.call_fixed (env := env) hc ho
  rw [← hs]
  refine ⟨?_, ?_⟩
  · refine Eq.trans hbp ?_
    rw [← he]
    unfold validOffers
    congr 1
    rw [List.head?_map, List.head?_filter, Option.map_map]
    rfl
  · rintro o rfl
    constructor
    · intro lim
      have hloop := quantityLoop_eq (now := now) (oracle := some o) (lim := lim) (2 * Nodes.fuel) 0 ⟨hi1, hi2⟩ hF (by omega)
        (by unfold Nodes.fuel; omega)
      rw [hside] at hloop
      unfold BookSide.quantityAtPrice
      simp only [hit, ok_bind]
      rw [hloop, ← he]
      rfl
    · intro q
      have hloop := impactLoop_eq (now := now) (oracle := some o) (q := q) (2 * Nodes.fuel) 0 ⟨hi1, hi2⟩ hF (by omega)
        (by unfold Nodes.fuel; omega)
      rw [hside] at hloop
      unfold BookSide.impactPrice
      simp only [hit, ok_bind]
      rw [hloop, ← he]
      rfl

/-! ### sums -/

theorem offered_nonneg {L : List Offer} (h : ∀ o ∈ L, 1 ≤ o.order.quantity) : 0 ≤ offered L := by
  induction L with
  | nil => simp [offered]
  | cons o L ih =>
    have := ih (fun x hx => h x (List.mem_cons_of_mem _ hx))
    have := h o (by simp)
    unfold offered at *
    rw [List.map_cons, List.sum_cons]
    omega

theorem costOf_nonneg {L : List Offer} (h : ∀ o ∈ L, 1 ≤ o.order.quantity ∧ 1 ≤ o.price) : 0 ≤ costOf L := by
  induction L with
  | nil => simp [costOf]
  | cons o L ih =>
    have := ih (fun x hx => h x (List.mem_cons_of_mem _ hx))
    have h1 := h o (by simp)
    have : 0 ≤ o.order.quantity * o.price := Int.mul_nonneg (by omega) (by omega)
    unfold costOf at *
    rw [List.map_cons, List.sum_cons]
    omega

theorem offered_cons (o : Offer) (L : List Offer) : offered (o :: L) = o.order.quantity + offered L := by
  unfold offered; rw [List.map_cons, List.sum_cons]
theorem costOf_cons (o : Offer) (L : List Offer) : costOf (o :: L) = o.order.quantity * o.price + costOf L := by
  unfold costOf; rw [List.map_cons, List.sum_cons]

theorem offered_append (A B : List Offer) : offered (A ++ B) = offered A + offered B := by
  unfold offered; rw [List.map_append, List.sum_append]

theorem acceptable_some {s : Side} {lim p : Int} : acceptable s (some lim) p ↔ within s p lim :=
  ⟨fun h => h lim rfl, fun h x hx => by cases hx; exact h⟩

theorem noAccept_iff {s : Side} {lim p : Int} : s.isPriceBetter lim p = true ↔ ¬ acceptable s.invert (some lim) p := by
  rw [acceptable_some]
  cases s <;> simp [Side.isPriceBetter, Side.invert, within]

theorem accepted_yes {s : Side} {lim : Option Int} {o : Offer} {L : List Offer} (h : acceptable s.invert lim o.price) :
    accepted s lim (o :: L) = o :: accepted s lim L := by
  unfold accepted; rw [List.filter_cons, if_pos (by simpa using h)]

/-- Behind an offer that is not accepted none is. -/
theorem accepted_no {s : Side} {lim : Option Int} {o : Offer} {L : List Offer} (hs : (o :: L).Pairwise (OfferBefore s))
    (h : ¬ acceptable s.invert lim o.price) : accepted s lim (o :: L) = [] := by
  unfold accepted
  rw [List.filter_eq_nil_iff]
  intro a ha
  rw [decide_eq_true_eq]
  rcases List.mem_cons.mp ha with rfl | ha
  · exact h
  · intro hacc
    refine h ?_
    have hb := (List.pairwise_cons.mp hs).1 a ha
    intro x hx
    have := hacc x hx
    unfold OfferBefore Before betterPrice at hb
    unfold within at *
    cases s <;> simp only [Side.invert] at * <;> omega

theorem depthR_eq {s : Side} {lim : Int} {L : List Offer} (hs : L.Pairwise (OfferBefore s)) (hq : ∀ o ∈ L, 1 ≤ o.order.quantity) {sum : Int}
    (h0 : 0 ≤ sum) (h1 : sum ≤ i64Max) : depthR s lim L sum = ckI64 (sum + offered (accepted s (some lim) L)) := by
  have hself : ∀ x : Int, 0 ≤ x → x ≤ i64Max → ckI64 x = .ok x := fun x a b => ckI64_eq (by unfold i64Min; omega) b
  induction L generalizing sum with
  | nil =>
    rw [depthR, show accepted s (some lim) [] = [] from rfl, show offered [] = 0 from rfl, Int.add_zero, hself _ h0 h1]
  | cons o L ih =>
    rw [depthR]
    by_cases ha : acceptable s.invert (some lim) o.price
    · rw [if_neg (by rw [noAccept_iff]; exact fun h => h ha), accepted_yes ha, offered_cons]
      have hq1 := hq o (by simp)
      have hq2 : ∀ o ∈ L, 1 ≤ o.order.quantity := fun x hx => hq x (List.mem_cons_of_mem _ hx)
      have hn : 0 ≤ offered (accepted s (some lim) L) := offered_nonneg (fun x hx => hq2 x (List.mem_of_mem_filter hx))
      by_cases hov : sum + o.order.quantity ≤ i64Max
      · rw [hself _ (by omega) hov, ok_bind, ih (List.pairwise_cons.mp hs).2 hq2 (by omega) hov]
        congr 1; omega
      · have e1 : ckI64 (sum + o.order.quantity) = .error .panic := by unfold ckI64; rw [if_neg (by omega)]
        have e2 : ckI64 (sum + (o.order.quantity + offered (accepted s (some lim) L))) = .error .panic := by
          unfold ckI64; rw [if_neg (by omega)]
        rw [e1, e2]; rfl
    · rw [if_pos (noAccept_iff.mpr ha), accepted_no hs ha, show offered [] = 0 from rfl, Int.add_zero, hself _ h0 h1]

theorem impactR_some {q : Int} {L : List Offer} {sum : Int} {p : Int} (h : impactR q L sum = .ok (some p)) :
    ∃ A o B, L = A ++ o :: B ∧ o.price = p ∧ (A = [] ∨ sum + offered A < q) ∧ q ≤ sum + offered A + o.order.quantity := by
  induction L generalizing sum with
  | nil => rw [impactR] at h; cases h
  | cons o L ih =>
    rw [impactR] at h
    simp only [bind_ok, ckI64_ok] at h
    obtain ⟨s', ⟨_, _, rfl⟩, h⟩ := h
    split at h
    · rename_i hge
      cases h
      exact ⟨[], o, L, rfl, rfl, .inl rfl, by simp only [offered, List.map_nil, List.sum_nil]; omega⟩
    · rename_i hlt
      obtain ⟨A, o', B, rfl, e, h1, h2⟩ := ih h
      refine ⟨o :: A, o', B, rfl, e, .inr ?_, by rw [offered_cons]; omega⟩
      rw [offered_cons]
      rcases h1 with rfl | h1
      · simp only [offered, List.map_nil, List.sum_nil]; omega
      · omega

theorem impactR_none {q : Int} {L : List Offer} {sum : Int} (h : impactR q L sum = .ok none) : L = [] ∨ sum + offered L < q := by
  induction L generalizing sum with
  | nil => exact .inl rfl
  | cons o L ih =>
    rw [impactR] at h
    simp only [bind_ok, ckI64_ok] at h
    obtain ⟨s', ⟨_, _, rfl⟩, h⟩ := h
    split at h
    · cases h
    · rename_i hlt
      right
      rw [offered_cons]
      rcases ih h with rfl | h1
      · simp only [offered, List.map_nil, List.sum_nil]; omega
      · omega

theorem impactR_ok {q : Int} {L : List Offer} (hq : ∀ o ∈ L, 1 ≤ o.order.quantity) {sum : Int} (h0 : 0 ≤ sum)
    (h : sum + offered L ≤ i64Max) : ∃ x, impactR q L sum = .ok x := by
  induction L generalizing sum with
  | nil => exact ⟨_, rfl⟩
  | cons o L ih =>
    rw [offered_cons] at h
    have hq1 := hq o (by simp)
    have hq2 : ∀ o ∈ L, 1 ≤ o.order.quantity := fun x hx => hq x (List.mem_cons_of_mem _ hx)
    have hn := offered_nonneg hq2
    rw [impactR, ckI64_eq (by unfold i64Min; omega) (by omega), ok_bind]
    split
    · exact ⟨_, rfl⟩
    · exact ih hq2 (by omega) (by omega)

/-- The limits at which `q` lots are to be had are those at which the price at depth `q` is accepted. -/
theorem impact_iff {s : Side} {q : Int} {L : List Offer} (hs : L.Pairwise (OfferBefore s)) (hq : ∀ o ∈ L, 1 ≤ o.order.quantity) (h1 : 1 ≤ q)
    {p : Int} (h : impactR q L 0 = .ok (some p)) (lim : Option Int) :
    q ≤ offered (accepted s lim L) ↔ acceptable s.invert lim p := by
  obtain ⟨A, o, B, rfl, rfl, h2, h3⟩ := impactR_some h
  have hA : offered A < q := by
    rcases h2 with rfl | h2
    · simp only [offered, List.map_nil, List.sum_nil]; omega
    · omega
  have hsA := List.pairwise_append.mp hs
  have haccA : ∀ x, acceptable s.invert lim o.price → x ∈ A → acceptable s.invert lim x.price := by
    intro x hacc hx y hy
    have hb := hsA.2.2 x hx o (by simp)
    have := hacc y hy
    unfold OfferBefore Before betterPrice at hb
    unfold within at *
    cases s <;> simp only [Side.invert] at * <;> omega
  have hnn : ∀ M : List Offer, (∀ x ∈ M, x ∈ A ++ o :: B) → 0 ≤ offered M := fun M hM => offered_nonneg (fun x hx => hq x (hM x hx))
  constructor
  · intro hle
    refine Decidable.byContradiction fun hno => ?_
    have e : accepted s lim (A ++ o :: B) = accepted s lim A := by
      unfold accepted
      rw [List.filter_append]
      have := accepted_no hsA.2.1 hno
      unfold accepted at this
      rw [this, List.append_nil]
    rw [e] at hle
    have hsub : offered (accepted s lim A) ≤ offered A := by
      have : ∀ M : List Offer, (∀ x ∈ M, 1 ≤ x.order.quantity) → offered (accepted s lim M) ≤ offered M := by
        intro M hM
        induction M with
        | nil => exact Int.le_refl _
        | cons x M ih =>
          have := ih (fun y hy => hM y (List.mem_cons_of_mem _ hy))
          have := hM x (by simp)
          by_cases hx : acceptable s.invert lim x.price
          · rw [accepted_yes hx, offered_cons, offered_cons]; omega
          · have e : accepted s lim (x :: M) = accepted s lim M := by
              unfold accepted; rw [List.filter_cons, if_neg (by simpa using hx)]
            rw [e, offered_cons]; omega
      exact this A (fun x hx => hq x (by simp [hx]))
    omega
  · intro hacc
    have e : accepted s lim (A ++ o :: B) = A ++ o :: accepted s lim B := by
      have e1 := accepted_yes (L := B) hacc
      unfold accepted at *
      rw [List.filter_append, e1, List.filter_eq_self.mpr (fun x hx => by simpa using haccA x hacc hx)]
    have := hnn (accepted s lim B) (fun x hx => by simp [List.mem_of_mem_filter hx])
    rw [e, offered_append, offered_cons]
    omega

/-- With enough quote and room, as much is taken as is wanted and accepted. -/
theorem greedy_all {env : Env} (L : List Offer) (hs : L.Pairwise (OfferBefore env.order.side.invert))
    (hq : ∀ o ∈ L, 1 ≤ o.order.quantity ∧ 1 ≤ o.price) (hown : ∀ o ∈ L, ¬ cancelsOwn env o.order) (n : Nat) (b q : Int) (hb : 0 ≤ b)
    (hn : (accepted env.order.side.invert (limitOf env.order env.oracle) L).length ≤ n)
    (hc : costOf (accepted env.order.side.invert (limitOf env.order env.oracle) L) ≤ q) :
    ((greedy env n b q L).map (·.2)).sum = min b (offered (accepted env.order.side.invert (limitOf env.order env.oracle) L)) := by
  induction L generalizing n b q with
  | nil =>
    rw [greedy, show accepted env.order.side.invert (limitOf env.order env.oracle) [] = [] from rfl]
    simp only [offered, List.map_nil, List.sum_nil]; omega
  | cons o L ih =>
    have ho := hq o (by simp)
    have hq2 : ∀ o ∈ L, 1 ≤ o.order.quantity ∧ 1 ≤ o.price := fun x hx => hq x (List.mem_cons_of_mem _ hx)
    have hnn := offered_nonneg (L := accepted env.order.side.invert (limitOf env.order env.oracle) L)
      (fun x hx => (hq2 x (List.mem_of_mem_filter hx)).1)
    have hcn := costOf_nonneg (L := accepted env.order.side.invert (limitOf env.order env.oracle) L)
      (fun x hx => hq2 x (List.mem_of_mem_filter hx))
    have hii : env.order.side.invert.invert = env.order.side := invert_invert _
    by_cases ha : acceptable env.order.side.invert.invert (limitOf env.order env.oracle) o.price
    · rw [accepted_yes ha] at hn hc ⊢
      rw [List.length_cons] at hn
      rw [costOf_cons] at hc
      rw [offered_cons]
      rw [hii] at ha
      have hpp : o.price ≤ o.order.quantity * o.price := by
        have := Int.mul_le_mul_of_nonneg_right ho.1 (show 0 ≤ o.price by omega)
        omega
      rw [greedy]
      by_cases hb0 : b = 0
      · rw [if_pos (.inl hb0)]
        simp only [List.map_nil, List.sum_nil]; omega
      · rw [if_neg (by
          rintro (h | h | h | h)
          · exact hb0 h
          · exact h ha
          · omega
          · omega), if_neg (hown o (by simp))]
        have hdiv : o.order.quantity ≤ q / o.price := (Int.le_ediv_iff_mul_le (by omega)).mpr (by omega)
        have hx : min (min b o.order.quantity) (q / o.price) = min b o.order.quantity := by omega
        simp only [hx, List.map_cons, List.sum_cons]
        have hcost : min b o.order.quantity * o.price ≤ o.order.quantity * o.price :=
          Int.mul_le_mul_of_nonneg_right (by omega) (by omega)
        rw [ih (List.pairwise_cons.mp hs).2 hq2 (fun x hx => hown x (List.mem_cons_of_mem _ hx)) (n - 1) _ _ (by omega) (by omega) (by omega)]
        omega
    · rw [accepted_no hs ha] at hn hc ⊢
      rw [hii] at ha
      rw [greedy, if_pos (.inr (.inl ha))]
      simp only [offered, List.map_nil, List.sum_nil]; omega

theorem fillsAre_sum {env : Env} {book : Book} {xs : List (Offer × Int)} {fs : List FillEvent} (h : FillsAre env book xs fs) :
    sumQty fs = (xs.map (·.2)).sum := by
  unfold FillsAre at h
  unfold sumQty
  induction h with
  | nil => rfl
  | cons hx _ ih => rw [List.map_cons, List.sum_cons, List.map_cons, List.sum_cons, ih, hx.2.2]

/-- Offers have positive size and price. -/
theorem ladder_pos {book : Book} {g : Ledger} (h : EngineState book g) {s : Side} {oracle : Option Int} {now : Nat} {L : List Offer}
    (hL : Ladder book s now oracle L) : ∀ o ∈ L, 1 ≤ o.order.quantity ∧ 1 ≤ o.price := by
  obtain ⟨dB, dQ, hc⟩ := h.core
  intro o ho
  obtain ⟨h1, h2⟩ := (hL.mem o).mp ho
  obtain ⟨oo, a, hok, _⟩ := hc.linv.restOk h1
  have hr := hok.rest _ _ _ _ rfl
  refine ⟨hok.qty, ?_⟩
  cases hcm : o.comp with
  | pegged => exact (h2.range hcm).1
  | fixed =>
    have hp := h2.price
    rw [hcm] at hp
    unfold priceOf at hp
    injection hp with hp
    have := (hr.fixed hcm).1
    unfold LeafNode.priceData at this
    have hk := hr.key
    rw [Nat.shiftRight_eq_div_pow] at this
    unfold two64 at this
    omega

end OB
