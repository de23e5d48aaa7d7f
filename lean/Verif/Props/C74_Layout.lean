import Verif.Proofs.SimView
import Verif.Spec.Others
import Verif.Props.Scenario
/-!
C74: what an instruction does is determined by the orders in the book, not by where the book stores them.
-/
namespace OB
open OB.Spec

/-- **C74**: In two reachable states which look the same, every instruction does the same: it fails with the same error, or it succeeds and
the states look the same again. -/
theorem C74_step {s t : State} (hs : Reachable s) (ht : Reachable t) (h : SameView s t) (op : Op) :
    Agree SameView (step s op) (step t op) := by
  obtain ⟨e, hb⟩ := SameView.sim hs ht h
  rw [e]
  exact (step_sim hb op).agree fun _ _ => StateSim.view

/-- Hence all histories: what can be done from one of the states can be done from the other and ends in the same view. -/
theorem C74_runs {s s' t : State} {ops : List Op} (hs : Reachable s) (ht : Reachable t) (h : SameView s t) (hr : Runs s ops s') :
    ∃ t', Runs t ops t' ∧ SameView s' t' := by
  suffices ∃ t', Runs t ops t' ∧ SameView s' t' ∧ Reachable s' ∧ Reachable t' by
    obtain ⟨t', h1, h2, _⟩ := this; exact ⟨t', h1, h2⟩
  induction hr with
  | nil => exact ⟨t, .nil, h, hs, ht⟩
  | @snoc s1 s2 ops op _ h2 ih =>
    obtain ⟨t1, r1, v1, hs1, ht1⟩ := ih
    rcases C74_step hs1 ht1 v1 op with ⟨a, b, ha, hb, hv⟩ | ⟨e, ha, _⟩
    · rw [h2] at ha
      injection ha with ha
      subst ha
      exact ⟨b, .snoc op r1 hb, hv, .step _ _ op hs1 h2, .step _ _ op ht1 hb⟩
    · rw [h2] at ha; cases ha

/-- The results returned to the caller are the same too: place and edit instructions. -/
theorem C74_place {s t : State} (hs : Reachable s) (ht : Reachable t) (h : SameView s t) (c : PlaceCtx) (a : PlaceOrderArgs)
    (p : PlaceOrderPeggedArgs) (client : Nat) (expected : Int) :
    Agree (fun x y => y.1 = x.1 ∧ SameView x.2 y.2) (placeOrderIx s c a) (placeOrderIx t c a) ∧
    Agree (fun x y => y.1 = x.1 ∧ SameView x.2 y.2) (placeOrderPeggedIx s c p) (placeOrderPeggedIx t c p) ∧
    Agree (fun x y => y.1 = x.1 ∧ SameView x.2 y.2) (editOrderIx s c client expected a) (editOrderIx t c client expected a) ∧
    Agree (fun x y => y.1 = x.1 ∧ SameView x.2 y.2) (editOrderPeggedIx s c client expected p)
      (editOrderPeggedIx t c client expected p) := by
  obtain ⟨e, hb⟩ := SameView.sim hs ht h
  rw [e]
  exact ⟨(placeOrderIx_sim hb c a).agree fun _ _ h => ⟨h.1, h.2.view⟩, (placeOrderPeggedIx_sim hb c p).agree fun _ _ h => ⟨h.1, h.2.view⟩,
    (editOrderIx_sim hb c client expected a).agree fun _ _ h => ⟨h.1, h.2.view⟩,
    (editOrderPeggedIx_sim hb c client expected p).agree fun _ _ h => ⟨h.1, h.2.view⟩⟩

/-- Batches, immediate orders, and the cancellation which reports a quantity. -/
theorem C74_others {s t : State} (hs : Reachable s) (ht : Reachable t) (h : SameView s t) (c : MultiCtx) (d : TakeCtx) (cancel : Bool)
    (ty : PlaceOrderType) (bids asks : List MultiArgs) (limit : Nat) (a : PlaceOrderArgs) (signer ooKey : Pubkey) (client : Nat) :
    Agree (fun x y => y.1 = x.1 ∧ SameView x.2 y.2) (placeOrdersIx s c cancel ty bids asks limit)
      (placeOrdersIx t c cancel ty bids asks limit) ∧
    Agree (fun x y => y.1 = x.1 ∧ SameView x.2 y.2) (placeTakeOrderIx s d a) (placeTakeOrderIx t d a) ∧
    Agree (fun x y => y.1 = x.1 ∧ SameView x.2 y.2) (cancelByClientId s signer ooKey client) (cancelByClientId t signer ooKey client) := by
  obtain ⟨e, hb⟩ := SameView.sim hs ht h
  rw [e]
  exact ⟨(placeOrdersIx_sim hb c cancel ty bids asks limit).agree fun _ _ h => ⟨h.1, h.2.view⟩,
    (placeTakeOrderIx_sim hb d a).agree fun _ _ h => ⟨h.1, h.2.view⟩,
    (cancelByClientId_sim hb signer ooKey client).agree fun _ _ h => ⟨h.1, h.2.view⟩⟩

namespace LayoutCase
open Scenario

/-- Two orders of different traders are cancelled. -/
def first : Op := .cancelByClientId 31 41 1
def second : Op := .cancelByClientId 33 43 7

def check (s t : State) : Bool :=
  decide (t.g.accts = s.g.accts ∧ t.book.resting = s.book.resting ∧ t.book.bids.nodes.bumpIndex = s.book.bids.nodes.bumpIndex ∧
    t.book.asks.nodes.bumpIndex = s.book.asks.nodes.bumpIndex ∧ t.book.asks.nodes.freeListHead ≠ s.book.asks.nodes.freeListHead ∧
    s.book.resting.length = 4)

theorem cancel_rest {s s' : State} {sg k : Pubkey} {cl : Nat} (h : step s (.cancelByClientId sg k cl) = .ok s') :
    s'.g.market = s.g.market ∧ s'.g.heap = s.g.heap ∧ s'.tokens = s.tokens ∧ s'.lamports = s.lamports ∧ s'.marketKey = s.marketKey ∧
      s'.closed = s.closed := by
  simp only [step] at h
  unfold cancelByClientId cancelAllFor at h
  simp only [bind_ok, pure_ok] at h
  obtain ⟨⟨q, x⟩, ⟨_, _, _, _, ⟨_, _, _⟩, _, e⟩, h⟩ := h
  cases e
  cases h
  exact ⟨rfl, rfl, rfl, rfl, rfl, rfl⟩

/-- The free nodes are listed in another order: the next orders go to different nodes. -/
theorem views : ∃ s t : State, Reachable s ∧ Reachable t ∧ SameView s t ∧
    t.book.asks.nodes.freeListHead ≠ s.book.asks.nodes.freeListHead ∧ s.book.resting.length = 4 := by
  obtain ⟨s0, h0, h⟩ := exec_spec (a := args) (ops := ops0 ++ [place 2 .ask 1030 2 7]) (p := fun s => okAnd (step s first) fun s1 => okAnd (step s1 second) fun s2 =>
    okAnd (step s second) fun t1 => okAnd (step t1 first) fun t2 => check s2 t2) (by decide +kernel)
  obtain ⟨s1, h1, h⟩ := okAnd_spec h
  obtain ⟨s2, h2, h⟩ := okAnd_spec h
  obtain ⟨t1, k1, h⟩ := okAnd_spec h
  obtain ⟨t2, k2, h⟩ := okAnd_spec h
  unfold check at h
  rw [decide_eq_true_eq] at h
  obtain ⟨c1, c2, c3, c4, c5, c6⟩ := h
  obtain ⟨a1, a2, a3, a4, a5, a6⟩ := cancel_rest h1
  obtain ⟨b1, b2, b3, b4, b5, b6⟩ := cancel_rest h2
  obtain ⟨d1, d2, d3, d4, d5, d6⟩ := cancel_rest k1
  obtain ⟨e1, e2, e3, e4, e5, e6⟩ := cancel_rest k2
  refine ⟨s2, t2, .step _ _ _ (.step _ _ _ h0 h1) h2, .step _ _ _ (.step _ _ _ h0 k1) k2, ⟨?_, ?_, ?_, ?_, ?_, ?_, ?_⟩, c5, c6⟩
  · have m : t2.g.market = s2.g.market := by rw [e1, d1, b1, a1]
    have n : t2.g.heap = s2.g.heap := by rw [e2, d2, b2, a2]
    revert m n c1
    cases t2.g; cases s2.g
    intro c1 m n
    simp only at c1 m n
    rw [c1, m, n]
  · rw [e3, d3, b3, a3]
  · rw [e4, d4, b4, a4]
  · rw [e5, d5, b5, a5]
  · rw [e6, d6, b6, a6]
  · intro x; rw [c2]
  · intro sd; cases sd
    · exact c3
    · exact c4

end LayoutCase

/-- Non-vacuity: states which look the same but store their orders differently, and instructions which succeed on both. -/
example : ∃ s t : State, Reachable s ∧ Reachable t ∧ SameView s t ∧
    t.book.asks.nodes.freeListHead ≠ s.book.asks.nodes.freeListHead ∧ s.book.resting.length = 4 := LayoutCase.views

end OB
