import Verif.Proofs.TsBook
import Verif.Proofs.Chain
import Verif.Props.Scenario
/-!
C75  The TypeScript library shows the book that the program keeps.

The library (Model/Ts) works on the bytes of a book side account, which the program has written (Model/Layout).  `SideFits` says that
every number fits its field.  The library throws as soon as one oracle pegged order rests on the side, and it takes every order for
live whatever its expiry (C75_pegged_throws, C75_stale), so that what it shows is what can be traded only without both
(C75_ladder_partial).
-/
namespace OB
open Spec

/-- Loading a book side succeeds and has only one result. -/
theorem C75_loads {b : Book} {sd : Side} (hf : SideFits (b.side sd)) : ∃ x, Loads b sd x ∧ ∀ y, Loads b sd y → y = x := by
  obtain ⟨x, hx⟩ := Ts.Loads.exists (b := b) (sd := sd) hf
  exact ⟨x, hx, fun y hy => (Ts.Loads.eq hf hy).trans (Ts.Loads.eq hf hx).symm⟩

/-- Without oracle pegged orders `items` yields every resting order of the side once, exactly as the program stored it, with its price
and its sequence number, in price-time priority. -/
theorem C75_items {s : State} {sd : Side} {x : Ts.BookSide} (hr : Reachable s) (hf : SideFits (s.book.side sd)) (hx : Loads s.book sd x)
    (hp : ∀ l, (sd, Comp.pegged, l) ∉ s.book.resting) :
    ∃ L, x.items = .ok L ∧ (∀ l, l ∈ L.map (·.leaf) ↔ (sd, Comp.fixed, l) ∈ s.book.resting) ∧
      L.Pairwise (fun o o' => Before sd o.priceLots o.leaf o'.priceLots o'.leaf) ∧
      ∀ o ∈ L, priceOf none .fixed o.leaf = some o.priceLots ∧ o.seqNum = seqNo sd o.leaf := by
  obtain ⟨ot, hb⟩ := (reachable_Inv hr).core.bookOk.ok sd
  have he := Ts.Loads.eq hf hx
  have hpe : (s.book.side sd).orders .pegged = [] := List.eq_nil_iff_forall_not_mem.mpr (fun l hl => hp l (mem_resting.mpr hl))
  have hs : x.side = sd := by rw [he]
  have hi := Ts.items_spec (x := x) hb (by rw [he]) hf hpe
  refine ⟨_, hi, fun l => ?_, ?_, fun o ho => ?_⟩
  · rw [(Ts.leaves_shown _ hb x).mem_iff, mem_resting]
  · have := Ts.shown_sorted x (hb.rep .fixed)
    rw [hs] at this ⊢
    exact this
  · obtain ⟨l, _, rfl⟩ := (Ts.mem_shown hb x o).mp ho
    exact ⟨rfl, by rw [← hs]; rfl⟩

/-- `best` is the order which comes before all others; it is undefined only if there is none. -/
theorem C75_best {s : State} {sd : Side} {x : Ts.BookSide} (hr : Reachable s) (hf : SideFits (s.book.side sd)) (hx : Loads s.book sd x)
    (hp : ∀ l, (sd, Comp.pegged, l) ∉ s.book.resting) :
    ∃ r, x.best = .ok r ∧ (r = none → ∀ c l, (sd, c, l) ∉ s.book.resting) ∧
      ∀ o, r = some o → (sd, Comp.fixed, o.leaf) ∈ s.book.resting ∧ priceOf none .fixed o.leaf = some o.priceLots ∧
        ∀ l p, (sd, Comp.fixed, l) ∈ s.book.resting → priceOf none .fixed l = some p → l ≠ o.leaf →
          Before sd o.priceLots o.leaf p l := by
  obtain ⟨L, h1, h2, h3, h4⟩ := C75_items hr hf hx hp
  refine ⟨L.head?, by unfold Ts.BookSide.best; rw [h1]; rfl, fun hn c l hl => ?_, fun o ho => ?_⟩
  · have : L = [] := List.head?_eq_none_iff.mp hn
    subst this
    cases c with
    | pegged => exact hp l hl
    | fixed => have := (h2 l).mpr hl; simp at this
  · cases L with
    | nil => cases ho
    | cons o' L =>
      cases ho
      refine ⟨(h2 _).mp (by simp), (h4 o (List.mem_cons_self ..)).1, fun l p hl hpr hne => ?_⟩
      obtain ⟨y, hy, rfl⟩ := List.mem_map.mp ((h2 l).mpr hl)
      rcases List.mem_cons.mp hy with rfl | hy
      · exact absurd rfl hne
      · have hb := (List.pairwise_cons.mp h3).1 y hy
        have h5 := (h4 y (List.mem_cons_of_mem _ hy)).1
        rw [hpr] at h5
        cases h5
        exact hb

/-- `getL2(depth)` is the first `depth` price levels of the side, best first, each with the total size of the orders at its price;
and the levels of a side are unique. -/
theorem C75_l2 {s : State} {sd : Side} {x : Ts.BookSide} (hr : Reachable s) (hf : SideFits (s.book.side sd)) (hx : Loads s.book sd x)
    (hp : ∀ l, (sd, Comp.pegged, l) ∉ s.book.resting) :
    ∃ full, Levels s.book sd full ∧ (∀ L, Levels s.book sd L → L = full) ∧ ∀ depth, x.getL2 depth = .ok (full.take depth) := by
  obtain ⟨ot, hb⟩ := (reachable_Inv hr).core.bookOk.ok sd
  have he := Ts.Loads.eq hf hx
  have hpe : (s.book.side sd).orders .pegged = [] := List.eq_nil_iff_forall_not_mem.mpr (fun l hl => hp l (mem_resting.mpr hl))
  have hs : x.side = sd := by rw [he]
  have hi := Ts.items_spec (x := x) hb (by rw [he]) hf hpe
  subst hs
  have hl := Ts.group_levels (x := x) hb
  refine ⟨_, hl, fun L h => Ts.Levels.unique h hl, fun depth => ?_⟩
  unfold Ts.BookSide.getL2
  rw [hi, ← Ts.levels_spec]
  rfl

/-- With one oracle pegged order on a side nothing of the side can be read, not even its fixed orders. -/
theorem C75_pegged_throws {s : State} {sd : Side} {x : Ts.BookSide} {l : LeafNode} (hr : Reachable s) (hf : SideFits (s.book.side sd))
    (hx : Loads s.book sd x) (hp : (sd, Comp.pegged, l) ∈ s.book.resting) :
    x.items = .error .notImplemented ∧ x.best = .error .notImplemented ∧ ∀ depth, x.getL2 depth = .error .notImplemented := by
  obtain ⟨ot, hb⟩ := (reachable_Inv hr).core.bookOk.ok sd
  have he := Ts.Loads.eq hf hx
  have hne : (s.book.side sd).orders .pegged ≠ [] := List.ne_nil_of_mem (mem_resting.mp hp)
  have hi := Ts.items_pegged (x := x) hb (by rw [he]) hf hne
  exact ⟨hi, by unfold Ts.BookSide.best; rw [hi]; rfl, fun d => by unfold Ts.BookSide.getL2; rw [hi]; rfl⟩

/-- No order is ever marked as expired: `clusterTime` is 0 and nothing in the library sets it. -/
theorem C75_never_expired {s : State} {sd : Side} {x : Ts.BookSide} {L : List Ts.Order} (hr : Reachable s) (hf : SideFits (s.book.side sd))
    (hx : Loads s.book sd x) (hL : x.items = .ok L) : ∀ o ∈ L, o.isExpired = false := by
  obtain ⟨ot, hb⟩ := (reachable_Inv hr).core.bookOk.ok sd
  have he := Ts.Loads.eq hf hx
  by_cases hpe : (s.book.side sd).orders .pegged = []
  · have hi := Ts.items_spec (x := x) hb (by rw [he]) hf hpe
    rw [hL] at hi
    cases hi
    intro o ho
    obtain ⟨l, _, rfl⟩ := (Ts.mem_shown hb x o).mp ho
    unfold Ts.shown Ts.BookSide.expired
    rw [he]
    simp only [decide_eq_false_iff_not]
    unfold u64Max
    split <;> omega
  · rw [Ts.items_pegged (x := x) hb (by rw [he]) hf hpe] at hL
    cases hL

/-- The full claim would be: what `items` yields, leaving out what it marks as expired, is what a taker finds (`Ladder`).  It holds if no oracle pegged order rests on the
side and no order on it is expired. -/
theorem C75_ladder_partial {s : State} {sd : Side} {x : Ts.BookSide} {now : Nat} {oracle : Option Int} (hr : Reachable s)
    (hf : SideFits (s.book.side sd)) (hx : Loads s.book sd x) (hp : ∀ l, (sd, Comp.pegged, l) ∉ s.book.resting)
    (he : ∀ c l, (sd, c, l) ∈ s.book.resting → ¬ expired now l) :
    ∃ L, x.items = .ok L ∧ (∀ o ∈ L, o.isExpired = false) ∧
      Ladder s.book sd now oracle (L.map (fun o => ⟨.fixed, o.leaf, o.priceLots⟩)) := by
  obtain ⟨L, h1, h2, h3, h4⟩ := C75_items hr hf hx hp
  refine ⟨L, h1, C75_never_expired hr hf hx h1, ⟨fun o => ?_, by rw [List.pairwise_map]; exact h3⟩⟩
  obtain ⟨c, l, p⟩ := o
  simp only [List.mem_map, Offer.mk.injEq]
  constructor
  · rintro ⟨y, hy, rfl, rfl, rfl⟩
    have hm := (h2 y.leaf).mp (List.mem_map_of_mem hy)
    exact ⟨hm, ⟨(h4 y hy).1, he _ _ hm, fun h => (by cases h), fun h => (by cases h)⟩⟩
  · rintro ⟨hm, ht⟩
    cases c with
    | pegged => exact absurd hm (hp l)
    | fixed =>
      obtain ⟨y, hy, rfl⟩ := List.mem_map.mp ((h2 l).mpr hm)
      have h5 := (h4 y hy).1
      have h6 := ht.price
      have h7 : priceOf none .fixed y.leaf = some p := h6
      rw [h5] at h7
      cases h7
      exact ⟨y, hy, rfl, rfl, rfl⟩

/-! ### cases -/

namespace TsCase
open Scenario

instance (b : BookSide) : Decidable (SideFits b) :=
  decidable_of_iff ((b.rootFixed.maybeNode < 2 ^ 32 ∧ b.rootFixed.leafCount < 2 ^ 32) ∧
    (b.rootPegged.maybeNode < 2 ^ 32 ∧ b.rootPegged.leafCount < 2 ^ 32) ∧ b.nodes.bumpIndex < 2 ^ 32 ∧ b.nodes.freeListLen < 2 ^ 32 ∧
    b.nodes.freeListHead < 2 ^ 32 ∧ ∀ i < maxOrderTreeNodes, nodeFits (b.nodes.nodes i))
    ⟨fun h => ⟨h.1, h.2.1, h.2.2.1, h.2.2.2.1, h.2.2.2.2.1, h.2.2.2.2.2⟩, fun h => ⟨h.1, h.2, h.3, h.4, h.5, h.6⟩⟩

/-- An ask with a time in force of 50 seconds. -/
def shortAsk : Op :=
  .placeOrder (ctx 0 .ask []) { limitOrder .ask 1005 5 1 with expiry := 1050 }

def setup : List Op :=
  [.createOO 41 31 0, .createOO 42 32 0, .createOO 43 33 0, .deposit 31 41 51 61 1000 5000 500000]

/-- Asks: 5 lots at 1005 until time 1050, then 5 and 3 lots at 1010, and 2 lots at 1020. -/
def asks : List Op := setup ++ [shortAsk, place 1 .ask 1010 5 2, place 2 .ask 1010 3 3, place 0 .ask 1020 2 4]

end TsCase
open TsCase

/-- Asks in four places, none of them pegged or expired at time 1049: the hypotheses of `C75_ladder_partial`.  Two levels are shown with their
sizes. -/
example : ∃ s, Reachable s ∧ (SideFits (s.book.side .ask) ∧ (∀ y ∈ s.book.resting, y.2.1 ≠ .pegged ∧ ¬ expired 1049 y.2.2)) ∧
    s.book.resting.length = 4 ∧ sizeAt s.book .ask 1010 = 8 := by
  obtain ⟨s, h1, h2⟩ := Scenario.exec_spec (a := Scenario.args) (ops := TsCase.asks)
    (p := fun s => decide ((SideFits (s.book.side .ask) ∧ (∀ y ∈ s.book.resting, y.2.1 ≠ .pegged ∧ ¬ expired 1049 y.2.2)) ∧
      s.book.resting.length = 4 ∧ sizeAt s.book .ask 1010 = 8)) (by decide +kernel)
  exact ⟨s, h1, of_decide_eq_true h2⟩

/-- What the library returns in this case. -/
example : Scenario.okAnd (Scenario.exec Scenario.args TsCase.asks) (fun s =>
    match (Ts.BookSide.new (Ts.acctOf s.book.asks) .ask).fixedItems with
    | .ok L => decide (L.map (fun o => (o.priceLots, o.leaf.quantity)) = [(1005, 5), (1010, 5), (1010, 3), (1020, 2)] ∧
        Ts.levelsLoop 2 L [] = [(1005, 5), (1010, 8)])
    | .error _ => false) = true := by decide +kernel

/-- The library shows as the best ask, and as live, an order which is expired and which no taker can trade with. -/
theorem C75_stale : ∃ (s : State) (x : Ts.BookSide) (o : Ts.Order), Reachable s ∧ SideFits (s.book.side .ask) ∧ Loads s.book .ask x ∧
    x.best = .ok (some o) ∧ o.isExpired = false ∧ expired 1050 o.leaf ∧ (∃ L, Ladder s.book .ask 1050 none L ∧ L ≠ [] ∧ ∀ y ∈ L, y.order ≠ o.leaf) := by
  obtain ⟨s, h1, h2⟩ := Scenario.exec_spec (a := Scenario.args) (ops := TsCase.asks)
    (p := fun s => decide ((SideFits (s.book.side .ask) ∧ (∀ y ∈ s.book.resting, y.2.1 ≠ .pegged)) ∧
      (∃ y ∈ s.book.resting, ¬ expired 1050 y.2.2 ∧ y.1 = .ask ∧ y.2.1 = .fixed) ∧
      (∀ y ∈ s.book.resting, y.1 = .ask → expired 1050 y.2.2 ∨ ∃ z ∈ s.book.resting, z.1 = .ask ∧ z.2.1 = .fixed ∧
        z.2.2.key / 2 ^ 64 < y.2.2.key / 2 ^ 64))) (by decide +kernel)
  obtain ⟨⟨hf, hp⟩, ⟨y, hy, hy1, hy2, hy3⟩, hall⟩ := of_decide_eq_true h2
  have hp' : ∀ l, (Side.ask, Comp.pegged, l) ∉ s.book.resting := fun l hl => hp _ hl rfl
  obtain ⟨x, hx, _⟩ := C75_loads (b := s.book) (sd := .ask) hf
  obtain ⟨L, h3, h4, h5, h6⟩ := C75_items h1 hf hx hp'
  obtain ⟨sd', c', l'⟩ := y
  simp only at hy1 hy2 hy3
  subst hy2; subst hy3
  cases L with
  | nil => have := (h4 l').mpr hy; simp at this
  | cons o L =>
    have hm : (Side.ask, Comp.fixed, o.leaf) ∈ s.book.resting := (h4 _).mp (by simp)
    have hexp : expired 1050 o.leaf := by
      rcases hall _ hm rfl with h | ⟨z, hz, hz1, hz2, hz3⟩
      · exact h
      · obtain ⟨zs, zc, zl⟩ := z
        simp only at hz1 hz2 hz3
        subst hz1; subst hz2
        obtain ⟨w, hw, rfl⟩ := List.mem_map.mp ((h4 zl).mpr hz)
        have p0 := (h6 o (List.mem_cons_self ..)).1
        have p1 := (h6 w hw).1
        unfold priceOf at p0 p1
        simp only [Option.some.injEq] at p0 p1
        rcases List.mem_cons.mp hw with rfl | hw'
        · omega
        · have hb := (List.pairwise_cons.mp h5).1 w hw'
          unfold Before betterPrice at hb
          simp only at hb
          omega
    refine ⟨s, x, o, h1, hf, hx, ?_, C75_never_expired h1 hf hx h3 o (List.mem_cons_self ..), hexp, ?_⟩
    · unfold Ts.BookSide.best; rw [h3]; rfl
    · have hst : EngineState s.book s.g := .reachable s h1
      refine ⟨_, ladder_sort hst _ _ _, ?_, ?_⟩
      · intro hn
        have hl := ladder_sort hst .ask 1050 none
        rw [hn] at hl
        have := (hl.mem ⟨.fixed, l', ((l'.key / 2 ^ 64 : Nat) : Int)⟩).mpr ⟨hy, ⟨rfl, hy1, fun h => (by cases h), fun h => (by cases h)⟩⟩
        simp at this
      · intro z hz he
        have := ((ladder_sort hst .ask 1050 none).mem z).mp hz
        exact this.2.live (he ▸ hexp)

/-- A pegged ask beside fixed ones: the hypotheses of `C75_pegged_throws`. -/
example : ∃ s, Reachable s ∧ SideFits (s.book.side .ask) ∧ (∃ y ∈ s.book.resting, y.1 = .ask ∧ y.2.1 = .pegged) ∧
    ∃ y ∈ s.book.resting, y.1 = .ask ∧ y.2.1 = .fixed := by
  obtain ⟨s, h1, h2⟩ := Scenario.exec_spec (a := Scenario.args) (ops := Scenario.ops0)
    (p := fun s => decide (SideFits (s.book.side .ask) ∧ (∃ y ∈ s.book.resting, y.1 = .ask ∧ y.2.1 = .pegged) ∧
      ∃ y ∈ s.book.resting, y.1 = .ask ∧ y.2.1 = .fixed)) (by decide +kernel)
  exact ⟨s, h1, of_decide_eq_true h2⟩

end OB
