import Verif.Proofs.Crank
import Verif.Props.Scenario
/-!
C62  The order of cranking does not matter.
-/
namespace OB
open Spec

/-- A run of consuming instructions, in whatever order, from whatever slots and in whatever portions, delivers some of the queued
events, each once, and leaves the others queued in their order. -/
theorem C62_cranks_deliver (s s' : State) (hr : Reachable s) (ops : List Op) (hc : ∀ op ∈ ops, IsCrank op) (h : Runs s ops s') :
    ∃ es, s.g.heap.events.Perm (es ++ s'.g.heap.events) ∧ s'.g.heap.events.Sublist s.g.heap.events ∧ Delivered s s' es :=
  crank_run hr hc h

/-- Two runs of consuming instructions that leave the same events queued end with the same balances, open orders, counters and fees. -/
theorem C62_order_is_irrelevant (s s1 s2 : State) (hr : Reachable s) (ops1 ops2 : List Op) (hc1 : ∀ op ∈ ops1, IsCrank op)
    (hc2 : ∀ op ∈ ops2, IsCrank op) (h1 : Runs s ops1 s1) (h2 : Runs s ops2 s2) (hq : s1.g.heap.events.Perm s2.g.heap.events) :
    SameBeside s1 s2 := by
  obtain ⟨xs, a1, _, a3⟩ := crank_run hr hc1 h1
  obtain ⟨ys, b1, _, b3⟩ := crank_run hr hc2 h2
  refine a3.unique (reachable_Inv hr) b3 ?_
  have := (a1.symm.trans b1).trans (hq.symm.append_left ys)
  exact (List.perm_append_right_iff _).mp this

theorem total_bound {es : List Event} {f : Event → Int} (h : ∀ e ∈ es, 0 ≤ f e ∧ f e ≤ i64Max) : total es f ≤ es.length * i64Max := by
  induction es with
  | nil => simp [total_nil]
  | cons e es ih =>
    have h1 := (h e (by simp)).2
    have h2 := ih (fun x hx => h x (by simp [hx]))
    rw [total_cons, List.length_cons, succ_mul_i64]
    omega

/-- However the cranking has begun, it can be completed, and it ends in one and the same state. -/
theorem C62_one_outcome (s : State) (hr : Reachable s) (hf : CountersFresh s) :
    ∃ s', (∃ ops, (∀ op ∈ ops, IsCrank op) ∧ Runs s ops s') ∧ s'.g.heap.events = [] ∧
      ∀ ops1 s1, (∀ op ∈ ops1, IsCrank op) → Runs s ops1 s1 →
        ∃ ops2 s2, (∀ op ∈ ops2, IsCrank op) ∧ Runs s1 ops2 s2 ∧ s2.g.heap.events = [] ∧ SameBeside s' s2 := by
  have hcr : ∀ (es : List Event) (k : Pubkey) (op : Op), op ∈ es.map (fun e => Op.consumeEvents k 1 [eventAccount e]) → IsCrank op := by
    intro es k op hop
    obtain ⟨e, _, rfl⟩ := List.mem_map.mp hop
    trivial
  obtain ⟨s', r1, r2, r3⟩ := consume_all hr hf
  have hcr' : ∀ op ∈ consumeOps s, IsCrank op := hcr _ _
  refine ⟨s', ⟨_, hcr', r1⟩, r2, ?_⟩
  intro ops1 s1 hc1 h1
  obtain ⟨es, p1, p2, d⟩ := crank_run hr hc1 h1
  have hi := reachable_Inv hr
  have hb2 : (2 : Int) ^ 126 + 600 * i64Max + 600 * i64Max ≤ 2 ^ 127 := by decide
  have h126 : (2 : Int) ^ 126 < 2 ^ 127 := by decide
  have hlen : es.length + s1.g.heap.events.length ≤ 600 := by
    have := events_length hi
    have h2 := p1.length_eq
    rw [List.length_append] at h2; omega
  have bnd := fun e (he : e ∈ es) => queued_bounds hi (reachable_Extra hr) (fun k a ha => by have := hf.accts k a ha; omega)
    (by have := hf.volume; omega) (by have := hf.fees; omega) (e := e) (p1.mem_iff.mpr (List.mem_append_left _ he))
  have hn : (s1.g.heap.events.length : Int) * i64Max ≤ 600 * i64Max := Int.mul_le_mul_of_nonneg_right (by omega) (by decide)
  have hm : (es.length : Int) * i64Max ≤ 600 * i64Max := Int.mul_le_mul_of_nonneg_right (by omega) (by decide)
  have t1 := total_bound (fun e he => (bnd e he).1)
  have t2 := total_bound (fun e he => (bnd e he).2)
  have hv : ∀ k a, s1.g.accts.get? k = some a → a.position.makerVolume + s1.g.heap.events.length * i64Max < 2 ^ 127 := by
    intro k a' ha'
    cases ha : s.g.accts.get? k with
    | none =>
      have : (s1.g.accts.get? k).isSome := by rw [ha']; rfl
      rw [Accts.isSome_get?, d.keys, ← Accts.isSome_get?, ha] at this; cases this
    | some a =>
      obtain ⟨a2, ha2, cr⟩ := d.accts k a ha
      rw [ha'] at ha2; injection ha2 with ha2; subst ha2
      have t3 := total_bound (es := es.filter (fun e => eventAccount e = k)) (fun e he => (bnd e (List.mem_filter.mp he).1).1)
      have l3 : ((es.filter (fun e => eventAccount e = k)).length : Int) ≤ es.length := by
        have := List.length_filter_le (fun e => decide (eventAccount e = k)) es; omega
      have l4 := Int.mul_le_mul_of_nonneg_right l3 (show 0 ≤ i64Max by decide)
      have := hf.accts k a ha
      rw [cr.makerVolume]; omega
  obtain ⟨s2, q1, q2, q3⟩ := deliver_all (h1.reachable hr) rfl hv (by have := hf.volume; rw [d.market]; simp only; omega)
    (by have := hf.fees; rw [d.market]; simp only; omega)
  refine ⟨_, s2, hcr _ _, q1, q2, ?_⟩
  exact C62_order_is_irrelevant s s' s2 hr _ _ hcr' (fun op hop => (List.mem_append.mp hop).elim (hc1 op) (hcr _ _ op)) r1 (h1.append q1)
    (by rw [r2, q2])

/-- Two fills are queued, for the accounts 42 and 41.  Consuming the second one before the first, or both at once, both succeed. -/
example : ∃ (s s1 s2 t : State), Reachable s ∧ CountersFresh s ∧ s.g.heap.events.map eventAccount = [42, 41] ∧
    Runs s [.consumeEvents 0 8 [41], .consumeGivenEvents 0 [0] [42]] s2 ∧ step s (.consumeEvents 0 8 [41]) = .ok s1 ∧
    s1.g.heap.events.map eventAccount = [42] ∧ Runs s [.consumeEvents 0 2 [41, 42]] t ∧ s2.g.heap.events = [] ∧ t.g.heap.events = [] ∧
    freeQuote s 41 < freeQuote t 41 ∧ freeQuote s 42 < freeQuote t 42 := by
  obtain ⟨s, h1, h2⟩ := Scenario.exec_spec (a := Scenario.args) (ops := Scenario.ops1) (p := fun s =>
    decide (s.g.market.makerVolume < 2 ^ 126 ∧ s.g.market.feesAccrued < 2 ^ 126 ∧ (∀ x ∈ s.g.accts, x.2.position.makerVolume < 2 ^ 126) ∧
      s.g.heap.events.map eventAccount = [42, 41]) &&
    Scenario.okAnd (step s (.consumeEvents 0 8 [41])) (fun s1 => decide (s1.g.heap.events.map eventAccount = [42]) &&
      Scenario.okAnd (step s1 (.consumeGivenEvents 0 [0] [42])) (fun s2 => decide (s2.g.heap.events = []) &&
      Scenario.okAnd (step s (.consumeEvents 0 2 [41, 42])) (fun t => decide (t.g.heap.events = [] ∧ freeQuote s 41 < freeQuote t 41 ∧
        freeQuote s 42 < freeQuote t 42))))) (by decide +kernel)
  rw [Bool.and_eq_true] at h2
  obtain ⟨a1, a2, a3, a4⟩ := of_decide_eq_true h2.1
  obtain ⟨s1, b1, b2⟩ := Scenario.okAnd_spec h2.2
  rw [Bool.and_eq_true] at b2
  obtain ⟨s2, c1, c2⟩ := Scenario.okAnd_spec b2.2
  rw [Bool.and_eq_true] at c2
  obtain ⟨t, d1, d2⟩ := Scenario.okAnd_spec c2.2
  obtain ⟨e1, e2, e3⟩ := of_decide_eq_true d2
  exact ⟨s, s1, s2, t, h1, ⟨a1, a2, fun k a ha => a3 (k, a) (by obtain ⟨_, _, h, _⟩ := Accts.split ha; rw [h]; simp)⟩, a4,
    .cons b1 (.one c1), b1, of_decide_eq_true b2.1, .one d1, of_decide_eq_true c2.1, e1, e2, e3⟩

end OB
