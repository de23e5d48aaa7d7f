import Verif.Proofs.Chain
import Verif.Props.C09_Types
/-!
C44 — A resting order changes only through explained events (all instructions).
`Explained` (Spec/Fate) lists what can become of a resting order.
-/
namespace OB
open Spec

/-- In every instruction, every resting order stays as it is, is cancelled by the owner or delegate of its account, is pruned from an
expired market, or meets the orders placed by the instruction: it is then unchanged, smaller by the quantities of its fills, or gone
because it was completely filled, cancelled by the self-trade rule, expired, beyond its peg limit, or evicted from a full side. -/
theorem C44_explained {s s' : State} {op : Op} (hr : Reachable s) (h : step s op = .ok s') {side : Side} {c : Comp} {l : LeafNode}
    (hm : (side, c, l) ∈ s.book.resting) : Explained s s' op side c l := by
  have hi := reachable_Inv hr
  cases hp : placer op with
  | none =>
    have hn := step_other hr h hp
    rcases hn.book with e | ⟨k, ls, hc, hw⟩
    · exact .same (by rw [e]; exact hm)
    · rcases hc.gone hi hm with hx | ⟨ho, _, hg⟩
      · exact .same hx
      · simp only at ho
        rcases hw with ⟨signer, h1, h2⟩ | ⟨now, limit, h1, h2, h3⟩
        · exact .cancelled signer h1 (by rw [ho]; exact h2) hg
        · exact .pruned now limit (by rw [ho]; exact h1) h2 h3 hg
  | some p =>
    obtain ⟨s1, cs, g1, P⟩ := placement_full hr h hp
    have met : (side, c, l) ∈ s1.book.resting → Explained s s' op side c l := by
      intro hx
      obtain ⟨o, ho, hx⟩ := calls_through P.calls hx
      exact .met p hp s1 cs g1 P o ho hx
    rcases P.first hr with e | ⟨ho, hr1, ha, ls, hc⟩
    · exact met (by rw [e]; exact hm)
    · rcases hc.gone hi hm with hx | ⟨hk, _, hg⟩
      · exact met hx
      · simp only at hk
        refine .cancelled p.signer (placer_signer hp) (by rw [hk]; exact ha) ?_
        intro l' hl' he
        rcases (calls_origin P.calls).2 side c l' hl' with ⟨l1, k1, k2, _⟩ | ⟨_, k2, _⟩
        · exact hg l1 k1 (by rw [← he, k2])
        · obtain ⟨_, _, _, hsq⟩ := resting_ok hi.core hm
          rw [hc.market, he] at k2
          omega

/-- What an instruction leaves in the book was there before, at least as large and otherwise the same, or it is an order placed by
the instruction: owned by the account of the instruction, which the signer controls; with the id returned by the matching engine; and
that id did not occur in the book. -/
theorem C44_added {s s' : State} {op : Op} (hr : Reachable s) (h : step s op = .ok s') {side : Side} {c : Comp} {l' : LeafNode}
    (hm : (side, c, l') ∈ s'.book.resting) :
    (∃ l, (side, c, l) ∈ s.book.resting ∧ l' = { l with quantity := l'.quantity } ∧ 1 ≤ l'.quantity ∧ l'.quantity ≤ l.quantity) ∨
    ∃ p, placer op = some p ∧ p.hasOO = true ∧ l'.owner = p.owner ∧ Controls s p.signer p.owner ∧
      (∀ c' l, (side, c', l) ∈ s.book.resting → l.key ≠ l'.key) ∧
      ∃ s1 cs g1 env r, Placement s s1 s' p cs g1 ∧ (env, r) ∈ cs ∧ env.order.side = side ∧ r.orderId = some l'.key := by
  have hi := reachable_Inv hr
  have hi' := reachable_Inv (.step _ _ _ hr h)
  obtain ⟨_, _, hq, _⟩ := resting_ok hi'.core hm
  cases hp : placer op with
  | none =>
    left
    have hn := step_other hr h hp
    rcases hn.book with e | ⟨k, ls, hc, hw⟩
    · exact ⟨l', by rw [← e]; exact hm, rfl, hq, Int.le_refl _⟩
    · exact ⟨l', hc.sub hm, rfl, hq, Int.le_refl _⟩
  | some p =>
    obtain ⟨s1, cs, g1, P⟩ := placement_full hr h hp
    have old : ∀ x ∈ s1.book.resting, x ∈ s.book.resting := by
      intro x hx
      rcases P.first hr with e | ⟨_, _, _, ls, hc⟩
      · rw [← e]; exact hx
      · exact hc.sub hx
    have hsq : s1.g.market.seqNum = s.g.market.seqNum := by
      rcases P.first hr with e | ⟨_, _, _, ls, hc⟩
      · rw [e]
      · rw [hc.market]
    rcases (calls_origin P.calls).2 side c l' hm with ⟨l, k1, k2, k3⟩ | ⟨⟨x, hx, k1, k2, k3⟩, k4, _⟩
    · exact .inl ⟨l, old _ k1, k2, hq, k3⟩
    · right
      obtain ⟨c1, c2, _⟩ := P.ctx x hx
      have hoo : x.1.hasOO = true := calls_hasOO P.calls hx k2
      have hpo : p.hasOO = true := by rw [← c2]; exact hoo
      refine ⟨p, rfl, hpo, by rw [k3, c1], P.auth hpo, ?_, s1, cs, g1, x.1, x.2, P, hx, k1.symm, k2⟩
      intro c' l hl he
      obtain ⟨_, _, _, hle⟩ := resting_ok hi.core hl
      rw [← he] at k4
      omega

/-! A bid that fills part of a resting ask and is posted: the asks explained by the first theorem, the new bid by the second. -/
open Scenario in
example : ∃ (s s' : State), Reachable s ∧ step s (place 2 .bid 1010 4 6) = .ok s' ∧
    decide (s.book.resting.length = 5 ∧ s'.book.resting.length = 4 ∧ s'.g.heap.events.length = 2) = true :=
  step_spec (a := args) (ops := ops0)
    (p := fun s s' => decide (s.book.resting.length = 5 ∧ s'.book.resting.length = 4 ∧ s'.g.heap.events.length = 2)) (by decide +kernel)

end OB
