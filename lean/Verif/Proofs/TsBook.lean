import Verif.Proofs.Ts
import Verif.Proofs.Greedy
import Verif.Proofs.Volume
/-! What the TypeScript library shows of a book side. -/
namespace OB.Ts
open OB.Layout OB.Spec

theorem Loads.eq {b : Book} {sd : Side} {x : BookSide} (hf : SideFits (b.side sd)) (h : Loads b sd x) :
    x = { account := acctOf (b.side sd), side := sd, clusterTime := 0 } := by
  obtain ⟨disc, acct, hd, ha, rfl⟩ := h
  rw [decode_spec _ _ hd hf] at ha
  cases ha
  rfl

theorem Loads.exists {b : Book} {sd : Side} (hf : SideFits (b.side sd)) : ∃ x, Loads b sd x :=
  ⟨_, List.replicate 8 0, _, by simp, decode_spec _ _ (by simp) hf, rfl⟩

theorem fixedItems_spec {b : OB.BookSide} {x : BookSide} {ot : Comp → Option T} (hb : BSOk b ot) (hx : x.account = acctOf b)
    (hf : SideFits b) : x.fixedItems = .ok ((OT.ord x.side (ot .fixed)).map (fun y => shown x y.2)) := by
  have hr := hb.rep .fixed
  have hsl := hb.slabC .fixed
  unfold BookSide.fixedItems
  rw [hx]
  show (if b.rootFixed.leafCount = 0 then _ else x.loop false rounds [b.rootFixed.maybeNode]) = _
  cases ht : ot .fixed with
  | none =>
    rw [ht] at hr
    have h0 : b.rootFixed.leafCount = 0 := hr
    rw [if_pos h0]
    rfl
  | some tr =>
    rw [ht] at hr hsl
    have hg := hr.good hsl
    have hlen : tr.hs.length ≤ rounds := by
      have := hsl.length_le
      simp only [List.length_append, OT.hs] at this
      unfold maxOrderTreeNodes at this; unfold rounds; omega
    have hc : ¬ b.rootFixed.leafCount = 0 := by
      have h1 : b.rootFixed.leafCount = tr.lvs.length := hr.2.1
      have := tr.lvs_length_pos
      omega
    have h1 : b.rootFixed.maybeNode = tr.handle := hr.1
    rw [if_neg hc, h1, show rounds = tr.hs.length + (rounds - tr.hs.length) from by omega, loop_fixed hx hf.nodes tr hg]
    rw [show x.loop false (rounds - tr.hs.length) [] = .ok [] from by unfold BookSide.loop; rfl]
    simp [OT.ord, bind, Except.bind, pure, Except.pure]

theorem peggedItems_none {b : OB.BookSide} {x : BookSide} {ot : Comp → Option T} (hb : BSOk b ot) (hx : x.account = acctOf b)
    (h : b.orders .pegged = []) : x.oraclePeggedItems = .ok [] := by
  have hr := hb.rep .pegged
  rw [hb.orders] at h
  unfold BookSide.oraclePeggedItems
  rw [hx]
  show (if b.rootPegged.leafCount = 0 then _ else _) = _
  cases ht : ot .pegged with
  | none =>
    rw [ht] at hr
    have h0 : b.rootPegged.leafCount = 0 := hr
    rw [if_pos h0]
  | some tr =>
    rw [ht] at h
    have := tr.lvs_length_pos
    simp only [OT.lvs] at h
    rw [h] at this
    simp at this

theorem peggedItems_some {b : OB.BookSide} {x : BookSide} {ot : Comp → Option T} (hb : BSOk b ot) (hx : x.account = acctOf b)
    (hf : SideFits b) (h : b.orders .pegged ≠ []) : x.oraclePeggedItems = .error .notImplemented := by
  have hr := hb.rep .pegged
  have hsl := hb.slabC .pegged
  rw [hb.orders] at h
  unfold BookSide.oraclePeggedItems
  rw [hx]
  show (if b.rootPegged.leafCount = 0 then _ else x.loop true rounds [b.rootPegged.maybeNode]) = _
  cases ht : ot .pegged with
  | none => rw [ht] at h; exact absurd rfl h
  | some tr =>
    rw [ht] at hr hsl
    have hg := hr.good hsl
    have hlen : tr.hs.length ≤ rounds := by
      have := hsl.length_le
      simp only [List.length_append, OT.hs] at this
      unfold maxOrderTreeNodes at this; unfold rounds; omega
    have hc : ¬ b.rootPegged.leafCount = 0 := by
      have h1 : b.rootPegged.leafCount = tr.lvs.length := hr.2.1
      have := tr.lvs_length_pos
      omega
    have h1 : b.rootPegged.maybeNode = tr.handle := hr.1
    rw [if_neg hc, h1, show rounds = tr.hs.length + (rounds - tr.hs.length) from by omega, loop_pegged hx hf.nodes tr hg]

theorem merge_nil (s : Side) (L : List Order) : mergeOrders s L [] = L := by cases L <;> simp [mergeOrders]

theorem items_spec {b : OB.BookSide} {x : BookSide} {ot : Comp → Option T} (hb : BSOk b ot) (hx : x.account = acctOf b)
    (hf : SideFits b) (h : b.orders .pegged = []) : x.items = .ok ((OT.ord x.side (ot .fixed)).map (fun y => shown x y.2)) := by
  unfold BookSide.items
  rw [fixedItems_spec hb hx hf, peggedItems_none hb hx h]
  simp [bind, Except.bind, pure, Except.pure, merge_nil]

theorem items_pegged {b : OB.BookSide} {x : BookSide} {ot : Comp → Option T} (hb : BSOk b ot) (hx : x.account = acctOf b)
    (hf : SideFits b) (h : b.orders .pegged ≠ []) : x.items = .error .notImplemented := by
  unfold BookSide.items
  rw [fixedItems_spec hb hx hf, peggedItems_some hb hx hf h]
  rfl

/-- Priority of shown orders. -/
def ordBefore (s : Side) (o o' : Order) : Prop := Before s o.priceLots o.leaf o'.priceLots o'.leaf

theorem before_of_key {s : Side} {a c : LeafNode} (h : betterKey s a.key c.key = true) :
    Before s ((a.key / 2 ^ 64 : Nat) : Int) a ((c.key / 2 ^ 64 : Nat) : Int) c := by
  have ha := Nat.div_add_mod a.key (2 ^ 64)
  have hc := Nat.div_add_mod c.key (2 ^ 64)
  have ma : a.key % 2 ^ 64 < 2 ^ 64 := Nat.mod_lt _ (by decide)
  have mc : c.key % 2 ^ 64 < 2 ^ 64 := Nat.mod_lt _ (by decide)
  unfold Before betterPrice seqNo
  cases s with
  | bid =>
    simp [betterKey] at h ⊢
    omega
  | ask =>
    simp [betterKey] at h ⊢
    omega

theorem shown_sorted {nd : Nat → AnyNode} {r : Root} {ot : Option T} (x : BookSide) (h : RootRep nd r ot) :
    ((OT.ord x.side ot).map (fun y => shown x y.2)).Pairwise (ordBefore x.side) := by
  have := ord_sorted h x.side
  unfold SortedSide at this
  rw [List.pairwise_map]
  exact this.imp (fun {a c} hh => before_of_key hh)

theorem mem_shown {b : OB.BookSide} {ot : Comp → Option T} (hb : BSOk b ot) (x : BookSide) (o : Order) :
    o ∈ (OT.ord x.side (ot .fixed)).map (fun y => shown x y.2) ↔ ∃ l ∈ b.orders .fixed, o = shown x l := by
  rw [hb.orders, OT.lvs_eq]
  simp only [List.mem_map, (OT.ord_perm x.side (ot .fixed)).mem_iff]
  constructor
  · rintro ⟨y, hy, rfl⟩; exact ⟨y.2, ⟨y, hy, rfl⟩, rfl⟩
  · rintro ⟨l, ⟨y, hy, rfl⟩, rfl⟩; exact ⟨y, hy, rfl⟩

theorem leaves_shown (b : OB.BookSide) {ot : Comp → Option T} (hb : BSOk b ot) (x : BookSide) :
    (((OT.ord x.side (ot .fixed)).map (fun y => shown x y.2)).map (·.leaf)).Perm (b.orders .fixed) := by
  rw [hb.orders, OT.lvs_eq, List.map_map]
  exact (OT.ord_perm x.side (ot .fixed)).map _

/-! ### levels -/

/-- Levels by recursion from the end. -/
def group : List Order → List (Int × Int)
  | [] => []
  | o :: os =>
    match group os with
    | [] => [(o.priceLots, o.leaf.quantity)]
    | (p, q) :: r => if p = o.priceLots then (p, o.leaf.quantity + q) :: r else (o.priceLots, o.leaf.quantity) :: (p, q) :: r

/-- A level in front of others. -/
def joinLevel (p q : Int) : List (Int × Int) → List (Int × Int)
  | [] => [(p, q)]
  | (p', q') :: r => if p' = p then (p, q + q') :: r else (p, q) :: (p', q') :: r

theorem group_cons (o : Order) (os : List Order) : group (o :: os) = joinLevel o.priceLots o.leaf.quantity (group os) := by
  rw [group]
  unfold joinLevel
  split
  · rfl
  · split
    · next h => rw [h]
    · rfl

theorem levelsLoop_spec (depth : Nat) (os : List Order) (p q : Int) (lv : List (Int × Int)) (h : lv.length + 1 ≤ depth) :
    levelsLoop depth os ((p, q) :: lv) = (lv.reverse ++ joinLevel p q (group os)).take depth := by
  induction os generalizing p q lv with
  | nil =>
    simp only [levelsLoop, group, joinLevel, List.reverse_cons]
    rw [List.take_of_length_le (by simp; omega)]
  | cons o os ih =>
    rw [levelsLoop, group_cons]
    by_cases hp : p = o.priceLots
    · rw [if_pos hp, ih _ _ _ h, ← hp]
      congr 2
      generalize group os = G
      unfold joinLevel
      cases G with
      | nil => simp
      | cons y r =>
        obtain ⟨p', q'⟩ := y
        simp only
        by_cases h2 : p' = p
        · simp [h2, Int.add_assoc]
        · simp [h2]
    · rw [if_neg hp]
      have hj : joinLevel p q (joinLevel o.priceLots o.leaf.quantity (group os)) =
          (p, q) :: joinLevel o.priceLots o.leaf.quantity (group os) := by
        generalize group os = G
        have hp' : ¬ o.priceLots = p := fun e => hp e.symm
        cases G with
        | nil => simp [joinLevel, hp']
        | cons y r =>
          obtain ⟨p', q'⟩ := y
          unfold joinLevel
          by_cases h2 : p' = o.priceLots
          · simp [h2, hp']
          · simp [h2, hp']
      by_cases hd : lv.length + 1 = depth
      · rw [if_pos hd, hj, List.reverse_cons]
        rw [show lv.reverse ++ (p, q) :: joinLevel o.priceLots o.leaf.quantity (group os) =
          (lv.reverse ++ [(p, q)]) ++ joinLevel o.priceLots o.leaf.quantity (group os) from by simp]
        rw [List.take_append_of_le_length (by simp; omega), List.take_of_length_le (by simp; omega)]
      · rw [if_neg hd, ih _ _ _ (by simp only [List.length_cons]; omega), hj]
        simp

theorem levels_spec (depth : Nat) (os : List Order) : levelsLoop depth os [] = (group os).take depth := by
  cases os with
  | nil => simp [levelsLoop, group]
  | cons o os =>
    rw [levelsLoop]
    by_cases hd : 0 = depth
    · rw [if_pos hd, ← hd]; simp
    · rw [if_neg hd, levelsLoop_spec _ _ _ _ _ (by simp; omega), group_cons]; simp

/-- Size at a price. -/
def sizeIn (L : List Order) (p : Int) : Int := (L.map (fun o => if o.priceLots = p then o.leaf.quantity else 0)).sum

theorem group_mem (L : List Order) (p : Int) : p ∈ (group L).map (·.1) ↔ ∃ o ∈ L, o.priceLots = p := by
  induction L with
  | nil => simp [group]
  | cons o os ih =>
    rw [group_cons]
    have : p ∈ (joinLevel o.priceLots o.leaf.quantity (group os)).map (·.1) ↔ p = o.priceLots ∨ p ∈ (group os).map (·.1) := by
      generalize group os = G
      cases G with
      | nil => simp [joinLevel]
      | cons y r =>
        obtain ⟨p', q'⟩ := y
        unfold joinLevel
        by_cases h2 : p' = o.priceLots
        · simp [h2]
        · simp [h2]
    rw [this, ih]
    simp only [List.mem_cons, exists_eq_or_imp]
    constructor
    · rintro (h | h); exacts [.inl h.symm, .inr h]
    · rintro (h | h); exacts [.inl h.symm, .inr h]

theorem group_sorted (s : Side) (L : List Order) (h : L.Pairwise (ordBefore s)) :
    (group L).Pairwise (fun x y => betterPrice s x.1 y.1) ∧ ∀ x ∈ group L, x.2 = sizeIn L x.1 := by
  induction L with
  | nil => simp [group]
  | cons o os ih =>
    obtain ⟨ho, hos⟩ := List.pairwise_cons.mp h
    obtain ⟨i1, i2⟩ := ih hos
    have hle : ∀ x ∈ group os, x.1 = o.priceLots ∨ betterPrice s o.priceLots x.1 := by
      intro x hx
      obtain ⟨o', ho', he⟩ := (group_mem os x.1).mp (List.mem_map_of_mem hx)
      have := ho o' ho'
      unfold ordBefore Before at this
      rw [← he]
      rcases this with h1 | h1
      · exact .inr h1
      · exact .inl h1.1.symm
    have hno : (∀ x ∈ group os, x.1 ≠ o.priceLots) → sizeIn os o.priceLots = 0 := by
      intro hh
      unfold sizeIn
      have : os.map (fun o' => if o'.priceLots = o.priceLots then o'.leaf.quantity else 0) = os.map (fun _ => 0) := by
        apply List.map_congr_left
        intro o' ho'
        rw [if_neg]
        intro he
        obtain ⟨y, hy, hye⟩ := List.mem_map.mp ((group_mem os o.priceLots).mpr ⟨o', ho', he⟩)
        exact hh y hy hye
      rw [this]
      simp
    have hcons : ∀ p, sizeIn (o :: os) p = (if o.priceLots = p then o.leaf.quantity else 0) + sizeIn os p := fun p => by simp [sizeIn]
    rw [group_cons]
    cases hG : group os with
    | nil =>
      rw [hG] at hno
      refine ⟨by simp [joinLevel], fun x hx => ?_⟩
      simp only [joinLevel, List.mem_singleton] at hx
      subst hx
      rw [hcons]
      simp [hno (by simp)]
    | cons y r =>
      obtain ⟨p', q'⟩ := y
      rw [hG] at i1 i2 hle hno
      obtain ⟨j1, j2⟩ := List.pairwise_cons.mp i1
      have hy := i2 _ (List.mem_cons_self ..)
      simp only at hy j1
      unfold joinLevel
      by_cases h2 : p' = o.priceLots
      · simp only [h2, if_true]
        rw [h2] at j1 hy
        refine ⟨List.pairwise_cons.mpr ⟨fun a ha => j1 a ha, j2⟩, fun x hx => ?_⟩
        rcases List.mem_cons.mp hx with rfl | hx
        · rw [hcons]; simp [hy]
        · have hb := j1 x hx
          have hne : ¬ o.priceLots = x.1 := by
            intro e; rw [e] at hb; unfold betterPrice at hb; cases s <;> (simp only at hb; omega)
          rw [hcons, if_neg hne, Int.zero_add]
          exact i2 x (List.mem_cons_of_mem _ hx)
      · simp only [h2, if_false]
        have hbp : betterPrice s o.priceLots p' := by
          rcases hle _ (List.mem_cons_self ..) with h3 | h3
          · exact absurd h3 h2
          · exact h3
        have hall : ∀ a ∈ (p', q') :: r, betterPrice s o.priceLots a.1 := by
          intro a ha
          rcases List.mem_cons.mp ha with rfl | ha
          · exact hbp
          · have := j1 a ha
            unfold betterPrice at *
            cases s <;> (simp only at *; omega)
        have hne : ∀ a ∈ (p', q') :: r, a.1 ≠ o.priceLots := by
          intro a ha e
          have hb := hall a ha
          rw [e] at hb; unfold betterPrice at hb; cases s <;> (simp only at hb; omega)
        refine ⟨List.pairwise_cons.mpr ⟨hall, i1⟩, fun x hx => ?_⟩
        rcases List.mem_cons.mp hx with rfl | hx
        · rw [hcons]; simp [hno hne]
        · rw [hcons, if_neg (fun e => hne x hx e.symm), Int.zero_add]
          exact i2 x hx

theorem sum_zero {α : Type} (L : List α) (f : α → Int) (h : ∀ a ∈ L, f a = 0) : (L.map f).sum = 0 := by
  induction L with
  | nil => rfl
  | cons a L ih =>
    rw [List.map_cons, List.sum_cons, h a (List.mem_cons_self ..), ih (fun b hb => h b (List.mem_cons_of_mem _ hb))]; rfl

theorem sizeAt_eq (b : Book) (sd : Side) (p : Int) :
    sizeAt b sd p = (((b.side sd).orders .fixed).map (fun l => if ((l.key / 2 ^ 64 : Nat) : Int) = p then l.quantity else 0)).sum := by
  unfold sizeAt
  rw [Book.resting]
  simp only [List.map_append, List.sum_append, List.map_map]
  cases sd with
  | bid =>
    rw [sum_zero (b.bids.orders .pegged) _ (by intro a _; simp), sum_zero (b.asks.orders .fixed) _ (by intro a _; simp),
      sum_zero (b.asks.orders .pegged) _ (by intro a _; simp)]
    simp [Book.side, Function.comp_def, priceOf]
  | ask =>
    rw [sum_zero (b.bids.orders .fixed) _ (by intro a _; simp), sum_zero (b.bids.orders .pegged) _ (by intro a _; simp),
      sum_zero (b.asks.orders .pegged) _ (by intro a _; simp)]
    simp [Book.side, Function.comp_def, priceOf]

theorem group_levels {b : Book} {ot : Comp → Option T} {x : BookSide} (hb : BSOk (b.side x.side) ot) :
    Levels b x.side (group ((OT.ord x.side (ot .fixed)).map (fun y => shown x y.2))) := by
  obtain ⟨h1, h2⟩ := group_sorted x.side _ (shown_sorted x (hb.rep .fixed))
  refine ⟨fun p => ?_, h1, fun y hy => ?_⟩
  · rw [group_mem]
    constructor
    · rintro ⟨o, ho, rfl⟩
      obtain ⟨l, hl, rfl⟩ := (mem_shown hb x o).mp ho
      exact ⟨l, mem_resting.mpr hl, rfl⟩
    · rintro ⟨l, hl, hp⟩
      refine ⟨shown x l, (mem_shown hb x _).mpr ⟨l, mem_resting.mp hl, rfl⟩, ?_⟩
      simpa [priceOf, shown] using hp
  · rw [h2 y hy, sizeAt_eq, hb.orders, OT.lvs_eq]
    unfold sizeIn
    rw [List.map_map, List.map_map]
    refine sum_of_perm ?_
    exact (OT.ord_perm x.side (ot .fixed)).map _

theorem sortedPrice_unique {s : Side} {L L' : List (Int × Int)} (h : L.Pairwise (fun x y => betterPrice s x.1 y.1))
    (h' : L'.Pairwise (fun x y => betterPrice s x.1 y.1)) (hm : ∀ o, o ∈ L ↔ o ∈ L') : L = L' := by
  haveI : Std.Irrefl (fun x y : Int × Int => betterPrice s x.1 y.1) := ⟨fun a ha => by unfold betterPrice at ha; cases s <;> (simp only at ha; omega)⟩
  haveI : Std.Antisymm (fun x y : Int × Int => betterPrice s x.1 y.1) :=
    ⟨fun a b h1 h2 => by unfold betterPrice at h1 h2; cases s <;> (simp only at h1 h2; omega)⟩
  exact h.eq_of_mem_iff h' hm

theorem Levels.unique {b : Book} {sd : Side} {L L' : List (Int × Int)} (h : Levels b sd L) (h' : Levels b sd L') : L = L' := by
  have key : ∀ {A B : List (Int × Int)}, Levels b sd A → Levels b sd B → ∀ o ∈ A, o ∈ B := by
    intro A B hA hB o ho
    have h1 := (hB.mem o.1).mpr ((hA.mem o.1).mp (List.mem_map_of_mem ho))
    obtain ⟨y, hy, he⟩ := List.mem_map.mp h1
    have h2 := hA.size o ho
    have h3 := hB.size y hy
    rw [he] at h3
    have : y = o := Prod.ext he (h3.trans h2.symm)
    exact this ▸ hy
  exact sortedPrice_unique h.sorted h'.sorted (fun o => ⟨key h h' o, key h' h o⟩)

end OB.Ts
