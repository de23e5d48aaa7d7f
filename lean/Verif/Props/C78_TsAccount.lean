import Verif.Proofs.TsAccount
import Verif.Proofs.Chain
import Verif.Spec.Exit
import Verif.Props.C75_TsBook
/-!
C78  The TypeScript library lists the resting orders of an account.

`OpenOrders.items` walks over the slots of the account and searches each order in the book.  It stops with an exception at a slot of a
pegged order on a side where a pegged order rests (of anybody), because the library does not know these (C78_throws, C78_fails).
Otherwise it yields exactly the resting orders of the account (C78_orders_partial); the two cases exclude each other and there is no third.
-/
namespace OB
open Spec

/-- The account has a slot of a pegged order on a side where some pegged order rests. -/
def peggedSlot (s : State) (a : OOA) : Prop :=
  ∃ oo ∈ a.openOrders, oo.isFree = false ∧ oo.comp = .pegged ∧ ∃ l, (oo.side, Comp.pegged, l) ∈ s.book.resting

/-- Without such a slot the library lists every resting order of the account, once, by slot, as it is stored in the book, with its price;
and no other: not the orders of other accounts, nor those that are filled and whose event still waits. -/
theorem C78_orders_partial {s : State} {x y : Ts.BookSide} {k : Pubkey} {a : OOA} (hr : Reachable s)
    (hfb : SideFits (s.book.side .bid)) (hfa : SideFits (s.book.side .ask)) (hx : Loads s.book .bid x) (hy : Loads s.book .ask y)
    (hk : s.g.accts.get? k = some a) (hp : ¬ peggedSlot s a) :
    ∃ L, Ts.accountItems x y a.openOrders = .ok L ∧ (∀ l, l ∈ L.map (·.leaf) ↔ ∃ sd c, (sd, c, l) ∈ ordersOf s k) ∧
      L.Pairwise (fun o o' => o.leaf.ownerSlot < o'.leaf.ownerSlot) ∧ ∀ o ∈ L, priceOf none .fixed o.leaf = some o.priceLots := by
  obtain ⟨L, h1, h2, h3, h4⟩ := Ts.accountItems_spec (reachable_Inv hr) hfb hfa hx hy hk
    (fun oo hm hu hc l hl => hp ⟨oo, hm, hu, hc, l, hl⟩) a.openOrders 0 rfl
  refine ⟨L, h1, fun l => (h2 l).trans ?_, h3, h4⟩
  unfold ordersOf
  constructor
  · rintro ⟨⟨sd, c, hl⟩, ho, _⟩
    exact ⟨sd, c, List.mem_filter.mpr ⟨hl, decide_eq_true ho⟩⟩
  · rintro ⟨sd, c, hl⟩
    obtain ⟨h5, h6⟩ := List.mem_filter.mp hl
    exact ⟨⟨sd, c, h5⟩, of_decide_eq_true h6, Nat.zero_le _⟩

/-- With such a slot the list ends in an exception. -/
theorem C78_throws {s : State} {x y : Ts.BookSide} {a : OOA} (hr : Reachable s)
    (hfb : SideFits (s.book.side .bid)) (hfa : SideFits (s.book.side .ask)) (hx : Loads s.book .bid x) (hy : Loads s.book .ask y)
    (hp : peggedSlot s a) : Ts.accountItems x y a.openOrders = .error .notImplemented :=
  Ts.accountItems_pegged (reachable_Inv hr) hfb hfa hx hy _ hp

/-- So the owner of a resting pegged order cannot list the orders of the account, not even the fixed ones. -/
theorem C78_fails {s : State} {x y : Ts.BookSide} {k : Pubkey} {a : OOA} {sd : Side} {l : LeafNode} (hr : Reachable s)
    (hfb : SideFits (s.book.side .bid)) (hfa : SideFits (s.book.side .ask)) (hx : Loads s.book .bid x) (hy : Loads s.book .ask y)
    (hk : s.g.accts.get? k = some a) (hl : (sd, Comp.pegged, l) ∈ ordersOf s k) :
    Ts.accountItems x y a.openOrders = .error .notImplemented := by
  unfold ordersOf at hl
  obtain ⟨h1, h2⟩ := List.mem_filter.mp hl
  obtain ⟨oo, k1, k2, k3, k4, k5⟩ := Ts.slot_of_rest (reachable_Inv hr) hk h1 (of_decide_eq_true h2)
  exact C78_throws hr hfb hfa hx hy ⟨oo, List.mem_of_getElem? k1, k2, k4, l, k3 ▸ h1⟩

/-- The hypotheses of `C78_orders_partial` with an account that has two asks in the book. -/
example : ∃ (s : State) (k : Pubkey) (a : OOA), Reachable s ∧ SideFits (s.book.side .bid) ∧ SideFits (s.book.side .ask) ∧
    s.g.accts.get? k = some a ∧ ¬ peggedSlot s a ∧ 2 ≤ (ordersOf s k).length := by
  obtain ⟨s, h1, h2⟩ := Scenario.exec_spec (a := Scenario.args) (ops := TsCase.asks)
    (p := fun s => decide ((SideFits (s.book.side .bid) ∧ SideFits (s.book.side .ask)) ∧ (∀ z ∈ s.book.resting, z.2.1 ≠ .pegged) ∧
      ∃ z ∈ s.book.resting, (s.g.accts.get? z.2.2.owner).isSome = true ∧ 2 ≤ (ordersOf s z.2.2.owner).length)) (by decide +kernel)
  obtain ⟨⟨hb, ha⟩, hp, z, _, hs, h2⟩ := of_decide_eq_true h2
  obtain ⟨a, ha'⟩ := Option.isSome_iff_exists.mp hs
  refine ⟨s, _, a, h1, hb, ha, ha', ?_, h2⟩
  rintro ⟨oo, _, _, _, l, hl⟩
  exact hp _ hl rfl

/-- An account with a fixed and a pegged order: the library cannot list them. -/
example : ∃ (s : State) (k : Pubkey) (a : OOA), Reachable s ∧ SideFits (s.book.side .bid) ∧ SideFits (s.book.side .ask) ∧
    s.g.accts.get? k = some a ∧ (∃ z ∈ ordersOf s k, z.2.1 = .pegged) ∧ ∃ z ∈ ordersOf s k, z.2.1 = .fixed := by
  obtain ⟨s, h1, h2⟩ := Scenario.exec_spec (a := Scenario.args) (ops := Scenario.ops0)
    (p := fun s => decide ((SideFits (s.book.side .bid) ∧ SideFits (s.book.side .ask)) ∧
      ∃ z ∈ s.book.resting, (s.g.accts.get? z.2.2.owner).isSome = true ∧ (∃ w ∈ ordersOf s z.2.2.owner, w.2.1 = .pegged) ∧
        ∃ w ∈ ordersOf s z.2.2.owner, w.2.1 = .fixed)) (by decide +kernel)
  obtain ⟨⟨hb, ha⟩, z, _, hs, h2⟩ := of_decide_eq_true h2
  obtain ⟨a, ha'⟩ := Option.isSome_iff_exists.mp hs
  exact ⟨s, _, a, h1, hb, ha, ha', h2⟩

end OB
