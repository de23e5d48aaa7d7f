import Verif.Proofs.Engine
/-! One call of the matching engine, in the vocabulary of the specification. -/
namespace OB
open Spec

theorem mem_sideRests {s s' : Side} {L : Comp → List LeafNode} {c : Comp} {l : LeafNode} :
    (s', c, l) ∈ sideRests s L ↔ s' = s ∧ l ∈ L c := by
  unfold sideRests
  simp only [List.mem_append, List.mem_map, Prod.mk.injEq]
  constructor
  · rintro (⟨x, hx, rfl, rfl, rfl⟩ | ⟨x, hx, rfl, rfl, rfl⟩) <;> exact ⟨rfl, hx⟩
  · rintro ⟨rfl, hl⟩
    cases c with
    | fixed => exact .inl ⟨l, hl, rfl, rfl, rfl⟩
    | pegged => exact .inr ⟨l, hl, rfl, rfl, rfl⟩

theorem mem_resting {b : Book} {s : Side} {c : Comp} {l : LeafNode} : (s, c, l) ∈ b.resting ↔ l ∈ (b.side s).orders c := by
  rw [b.resting_eq, List.mem_append]
  unfold Book.sideRest
  rw [mem_sideRests, mem_sideRests]
  cases s <;> simp [Book.side]

theorem mem_oppL {b : BookSide} {ot : Comp → Option T} (h : BSOk b ot) {c : Comp} {l : LeafNode} :
    l ∈ b.orders c ↔ ∃ x ∈ oppL ot c, x.2 = l := by
  rw [h.orders, OT.lvs_eq, List.mem_map]; rfl

/-! ### quantity changes -/

theorem setQL_cases {L : HL} {h : Nat} {q : Int} {x' : Nat × LeafNode} (hx : x' ∈ setQL h q L) :
    (x' ∈ L ∧ x'.1 ≠ h) ∨ ∃ l, (h, l) ∈ L ∧ x' = (h, l.withQty q) := by
  unfold setQL at hx
  obtain ⟨x, hm, he⟩ := List.mem_map.mp hx
  split at he
  · rename_i hh
    right
    refine ⟨x.2, ?_, ?_⟩
    · rw [← hh]; exact hm
    · rw [← hh]; exact he.symm
  · rename_i hh; subst he; exact .inl ⟨hm, hh⟩

/-- Entries after changes to distinct handles. -/
theorem setQs_cases {C : List (Nat × Int)} {L : HL} (hC : (C.map (·.1)).Nodup) {x' : Nat × LeafNode} (hx : x' ∈ setQs C L) :
    (x' ∈ L ∧ x'.1 ∉ C.map (·.1)) ∨ ∃ q l, (x'.1, q) ∈ C ∧ (x'.1, l) ∈ L ∧ x'.2 = l.withQty q := by
  induction C generalizing L with
  | nil => exact .inl ⟨hx, by simp⟩
  | cons y C ih =>
    rw [List.map_cons, List.nodup_cons] at hC
    rcases ih hC.2 (L := setQL y.1 y.2 L) hx with ⟨h1, h2⟩ | ⟨q, l, h1, h2, h3⟩
    · rcases setQL_cases h1 with ⟨h4, h5⟩ | ⟨l, h4, h5⟩
      · left; refine ⟨h4, ?_⟩; rw [List.map_cons, List.mem_cons, not_or]; exact ⟨h5, h2⟩
      · right; refine ⟨y.2, l, ?_, ?_, ?_⟩
        · rw [h5]; simp
        · rw [h5]; exact h4
        · rw [h5]
    · rcases setQL_cases h2 with ⟨h4, h5⟩ | ⟨l', h4, h5⟩
      · exact .inr ⟨q, l, by simp [h1], h4, h3⟩
      · injection h5 with h5 h6
        exfalso
        apply hC.1
        rw [← h5]
        exact List.mem_map.mpr ⟨_, h1, rfl⟩

theorem setQs_some {C : List (Nat × Int)} {L : HL} {x : Nat × LeafNode} (hx : x ∈ L) :
    ∃ x' ∈ setQs C L, x'.1 = x.1 ∧ x'.2.key = x.2.key := by
  induction C generalizing L x with
  | nil => exact ⟨x, hx, rfl, rfl⟩
  | cons y C ih =>
    have : ∃ x1 ∈ setQL y.1 y.2 L, x1.1 = x.1 ∧ x1.2.key = x.2.key := by
      unfold setQL
      refine ⟨_, List.mem_map_of_mem hx, ?_, ?_⟩ <;> split <;> rfl
    obtain ⟨x1, h1, h2, h3⟩ := this
    obtain ⟨x2, h4, h5, h6⟩ := ih h1
    exact ⟨x2, h4, h5.trans h2, h6.trans h3⟩

/-! ### the items -/

section
variable {env : Env} {book book' : Book} {g g' : Ledger} {r : OrderResult} {dB dQ : Int}
  {R : NewOrderRun env book g r book' g'} {ot : Comp → Option T}

/-- The orders offered to the taker, in the order they are visited. -/
def callItems (env : Env) (ot : Comp → Option T) : List IterItem :=
  items env.order.side.invert env.nowTs env.oracle (OT.ord env.order.side.invert (ot .fixed)) (OT.ord env.order.side.invert (ot .pegged))

theorem mem_ord {s : Side} {ot : Comp → Option T} {c : Comp} {x : Nat × LeafNode} : x ∈ OT.ord s (ot c) ↔ x ∈ oppL ot c :=
  (OT.ord_perm _ _).mem_iff

theorem resting_ok (hc : Core g book dB dQ) {s : Side} {c : Comp} {l : LeafNode} (h : (s, c, l) ∈ book.resting) :
    ∃ oo, RestOk s c l oo ∧ 1 ≤ l.quantity ∧ seqOf s l.key ≤ g.market.seqNum := by
  obtain ⟨oo, a, hok, _, _, hs⟩ := hc.linv.restOk h
  exact ⟨oo, hok.rest _ _ _ _ rfl, hok.qty, hs⟩

/-- An item as a resting order. -/
structure ItemSpec (env : Env) (book : Book) (i : IterItem) : Prop where
  mem : (env.order.side.invert, i.comp, i.leaf) ∈ book.resting
  price : priceOf env.oracle i.comp i.leaf = some i.priceLots
  range : i.comp = .pegged → 1 ≤ i.priceLots ∧ i.priceLots < i64Max
  valid : i.state = .valid → TradableAt env.nowTs env.oracle env.order.side.invert i.comp i.leaf i.priceLots
  invalid : i.state ≠ .valid → expired env.nowTs i.leaf ∨ (i.comp = .pegged ∧ beyondPeg env.order.side.invert i.priceLots i.leaf)
  pos : 1 ≤ i.priceLots
  key : i.leaf.key < 2 ^ 128
  qty : 1 ≤ i.leaf.quantity

theorem item_spec (hc : Core g book dB dQ) (ho : BSOk (book.side env.order.side.invert) ot) {i : IterItem}
    (hi : i ∈ callItems env ot) : ItemSpec env book i := by
  obtain ⟨h1, h2⟩ := items_ok _ _ i hi
  have hmem : i.ref ∈ oppL ot i.comp := by
    rcases h2 with ⟨hc, hm⟩ | ⟨hc, hm⟩ <;> rw [hc] <;> exact mem_ord.mp hm
  have hm : (env.order.side.invert, i.comp, i.leaf) ∈ book.resting := by
    rw [mem_resting, mem_oppL ho]; exact ⟨_, hmem, rfl⟩
  obtain ⟨oo, hok, hq, _⟩ := resting_ok hc hm
  have hpd := priceData_eq i.leaf hok.key
  have hlt : i.leaf.priceData < two64 := Nat.mod_lt _ (by decide)
  have hprice : priceOf env.oracle i.comp i.leaf = some i.priceLots := by
    cases hcc : i.comp with
    | fixed => rw [h1.fixed hcc, hpd]; rfl
    | pegged =>
      obtain ⟨o, e1, e2, _⟩ := h1.pegged hcc
      rw [e1, e2, offset_eq _ hlt, hpd]
      unfold priceOf
      simp only [Option.map_some, Option.some.injEq]
      omega
  refine ⟨hm, hprice, ?_, ?_, ?_, ?_, hok.key, hq⟩
  · intro hcc; obtain ⟨o, _, _, e3, e4, _⟩ := h1.pegged hcc; exact ⟨e3, e4⟩
  · intro hv
    refine ⟨hprice, ?_, ?_, ?_⟩
    · rw [← expired_iff, h1.valid hv]; simp
    · intro hcc hb
      obtain ⟨o, _, _, _, _, e5⟩ := h1.pegged hcc
      rw [← better_iff] at hb
      rcases e5 hv with e | e
      · exact hb.1 e
      · rw [e] at hb; exact absurd hb.2 (by simp)
    · intro hcc; obtain ⟨o, _, _, e3, e4, _⟩ := h1.pegged hcc; exact ⟨e3, e4⟩
  · intro hv
    rcases h1.invalid hv with e | ⟨e1, e2, e3⟩
    · exact .inl ((expired_iff _ _).mp e)
    · exact .inr ⟨e1, (better_iff _ _ _).mp ⟨e2, e3⟩⟩
  · cases hcc : i.comp with
    | fixed => rw [h1.fixed hcc]; have := (hok.fixed hcc).1; omega
    | pegged => obtain ⟨o, _, _, e3, _⟩ := h1.pegged hcc; exact e3

/-- Every tradable order is offered, unless orders are lost behind a skipped pegged order. -/
theorem item_complete (hc : Core g book dB dQ) (ho : BSOk (book.side env.order.side.invert) ot) {c : Comp} {l : LeafNode} {p : Int}
    (hm : (env.order.side.invert, c, l) ∈ book.resting) (ht : TradableAt env.nowTs env.oracle env.order.side.invert c l p)
    (hs : c = .fixed ∨ NoSkipped book env.order.side.invert env.oracle) :
    ∃ i ∈ callItems env ot, i.comp = c ∧ i.leaf = l ∧ i.priceLots = p ∧ i.state = .valid := by
  have key : ∃ i ∈ callItems env ot, i.comp = c ∧ i.leaf = l := by
    have hm0 := hm
    rw [mem_resting, mem_oppL ho] at hm
    obtain ⟨x, hx, rfl⟩ := hm
    cases c with
    | fixed =>
      have hx' : x ∈ OT.ord env.order.side.invert (ot .fixed) := mem_ord.mpr hx
      have hf := items_fixed (s := env.order.side.invert) (now := env.nowTs) (oracle := env.oracle)
        (OT.ord env.order.side.invert (ot .fixed)) (OT.ord env.order.side.invert (ot .pegged))
      rw [← hf] at hx'
      obtain ⟨i, hi, he⟩ := List.mem_map.mp hx'
      rw [List.mem_filter] at hi
      exact ⟨i, hi.1, by simpa using hi.2, by rw [← he]; rfl⟩
    | pegged =>
      have hx' : x ∈ OT.ord env.order.side.invert (ot .pegged) := mem_ord.mpr hx
      rcases hs with hs | hs
      · cases hs
      · have hpr := ht.price
        cases hor : env.oracle with
        | none => rw [hor] at hpr; cases hpr
        | some o =>
          have hall : ∀ p ∈ OT.ord env.order.side.invert (ot .pegged), isSkipped o env.order.side.invert p = false := by
            intro y hy
            have hym : (env.order.side.invert, Comp.pegged, y.2) ∈ book.resting := by
              rw [mem_resting, mem_oppL ho]; exact ⟨y, mem_ord.mp hy, rfl⟩
            obtain ⟨oo, hok, _⟩ := resting_ok hc hym
            have hpd := priceData_eq y.2 hok.key
            have hlt : y.2.priceData < two64 := Nat.mod_lt _ (by decide)
            have hrg := hs y.2 (o + ((y.2.key / 2 ^ 64 : Nat) : Int) - 2 ^ 63) hym (by rw [hor]; rfl)
            unfold isSkipped oraclePeggedPrice
            simp only [decide_eq_false_iff_not]
            have hsat : satAddI64 o (oraclePeggedPriceOffset y.2.priceData) = o + ((y.2.key / 2 ^ 64 : Nat) : Int) - 2 ^ 63 := by
              rw [offset_eq _ hlt, hpd]
              unfold satAddI64 i64Max i64Min at *
              omega
            rw [hsat, if_pos hrg]
            split <;> simp
          have hf := items_pegged_all (s := env.order.side.invert) (now := env.nowTs) (o := o)
            (OT.ord env.order.side.invert (ot .fixed)) (OT.ord env.order.side.invert (ot .pegged)) hall
          rw [← hf] at hx'
          obtain ⟨i, hi, he⟩ := List.mem_map.mp hx'
          rw [List.mem_filter] at hi
          refine ⟨i, ?_, by simpa using hi.2, by rw [← he]; rfl⟩
          unfold callItems; rw [hor]; exact hi.1
  obtain ⟨i, hi, rfl, rfl⟩ := key
  have hsp := item_spec hc ho hi
  have hp : i.priceLots = p := by
    have := hsp.price; rw [ht.price] at this; injection this with this; exact this.symm
  refine ⟨i, hi, rfl, rfl, hp, ?_⟩
  by_cases hv : i.state = .valid
  · exact hv
  · rcases hsp.invalid hv with e | ⟨e1, e2⟩
    · exact absurd e ht.live
    · rw [hp] at e2; exact absurd e2 (ht.peg e1)

/-- No order is offered twice. -/
theorem items_distinct (ho : BSOk (book.side env.order.side.invert) ot) :
    (callItems env ot).Pairwise (fun i j => (i.comp, i.leaf.key) ≠ (j.comp, j.leaf.key)) := by
  have hn : ((callItems env ot).map (·.handle)).Nodup := by
    refine items_handles _ _ ?_
    refine List.Perm.nodup ?_ ho.handles
    exact ((OT.ord_perm _ _).map _).symm.append ((OT.ord_perm _ _).map _).symm
  have hn' : (callItems env ot).Pairwise (fun i j => i.handle ≠ j.handle) := List.pairwise_map.mp hn
  refine hn'.imp_of_mem ?_
  intro i j hi hj hne he
  injection he with e1 e2
  have hmem : ∀ i ∈ callItems env ot, i.ref ∈ oppL ot i.comp := by
    intro i hi
    rcases (items_ok _ _ i hi).2 with ⟨hc, hm⟩ | ⟨hc, hm⟩ <;> rw [hc] <;> exact mem_ord.mp hm
  have m1 := hmem i hi
  have m2 := hmem j hj
  rw [← e1] at m2
  have := nodup_map_inj (ho.entries.keys i.comp) m1 m2 e2
  exact hne (congrArg Prod.fst this)

/-- Price-time priority of the items. -/
theorem items_priority (hc : Core g book dB dQ) (hb : (book.side env.order.side.invert).side = env.order.side.invert)
    (ho : BSOk (book.side env.order.side.invert) ot) :
    (callItems env ot).Pairwise (fun i j => geKey env.order.side.invert i.ekey j.ekey) := by
  have hk : ∀ c, ∀ x ∈ OT.ord env.order.side.invert (ot c), ∃ oo, RestOk env.order.side.invert c x.2 oo := by
    intro c x hx
    have hm : (env.order.side.invert, c, x.2) ∈ book.resting := by
      rw [mem_resting, mem_oppL ho]; exact ⟨x, mem_ord.mp hx, rfl⟩
    obtain ⟨oo, hok, _⟩ := resting_ok hc hm
    exact ⟨oo, hok⟩
  refine items_sorted _ _ ?_ ?_ ?_ ?_
  · intro f hf
    obtain ⟨oo, hok⟩ := hk _ f hf
    obtain ⟨h1, h2, _⟩ := hok.fixed rfl
    exact ⟨hok.key, h1, h2⟩
  · intro f hf
    obtain ⟨oo, hok⟩ := hk _ f hf
    exact hok.key
  · exact ord_sorted (ho.rep _) _
  · exact ord_sorted (ho.rep _) _

end
end OB
