import Verif.Proofs.Life
import Verif.Props.Scenario
/-!
C101  The life of an order: it trades at most its size, piece by piece, and what it does not trade is taken off the book for a stated reason, once.
-/
namespace OB
open Spec

variable {s s' : State} {sd : Side} {c : Comp} {l : LeafNode}

/-- An order that rests in `s`, at any later time.  `F` are all trades since, `fs` those of the order.  Either it still rests, smaller by what it
traded and otherwise the same; or it is gone, and its size is what it traded plus a rest; if there is a rest, then at one moment in between one
instruction took it off the book, because the owner or the delegate cancelled it, the market expired, or for one of the reasons of the matching
engine: self-trade, time in force, peg limit, or a better order on a full side. -/
theorem C101_life (hr : Reachable s) (hl : (sd, c, l) ∈ s.book.resting) (hs : Since s s') :
    ∃ F, RunFills s s' F ∧ ∃ fs, fs.Sublist F ∧ (∀ f ∈ fs, FillOfOrder sd c l f) ∧
      ((∃ l', (sd, c, l') ∈ s'.book.resting ∧ LeftOf l l' ∧ l.quantity = l'.quantity + lotsOf fs) ∨
       (Gone s'.book sd c l ∧ ∃ rest, 0 ≤ rest ∧ l.quantity = rest + lotsOf fs ∧
          (rest = 0 ∨ ∃ s1 s2 op, Since s s1 ∧ step s1 op = .ok s2 ∧ Since s2 s' ∧ TakenOff s1 s2 op sd c l rest))) := by
  induction hs with
  | now =>
    obtain ⟨_, _, hq, _⟩ := resting_ok (reachable_Inv hr).core hl
    exact ⟨[], .now, [], List.nil_sublist _, fun f hf => (by cases hf), .inl ⟨l, hl, leftOf_refl hq, by unfold lotsOf; simp⟩⟩
  | step s1 s2 op hs1 h ih =>
    have hr1 := hs1.reachable hr
    obtain ⟨F, hF, fs, h1, h2, h3⟩ := ih
    rcases h3 with ⟨l1, a1, a2, a3⟩ | ⟨a1, rest, a2, a3, a4⟩
    · obtain ⟨F1, b1, fs1, b2, b3, b4⟩ := step_life hr1 h a1
      refine ⟨F ++ F1, b1 _ _ hF, fs ++ fs1, h1.append b2, ?_, ?_⟩
      · intro f hf
        rcases List.mem_append.mp hf with hf | hf
        · exact h2 f hf
        · exact (b3 f hf).of_left a2
      · rcases b4 with ⟨l', c1, c2, c3⟩ | ⟨c1, rest, c2, c3, c4⟩
        · exact .inl ⟨l', c1, leftOf_trans a2 c2, by rw [lotsOf_append]; omega⟩
        · refine .inr ⟨?_, rest, c2, by rw [lotsOf_append]; omega, ?_⟩
          · intro l' hl' he
            exact c1 l' hl' (by rw [he, a2.1])
          · rcases c4 with c4 | c4
            · exact .inl c4
            · exact .inr ⟨s1, s2, op, hs1, h, .now, c4.of_left a2⟩
    · obtain ⟨F1, hF1⟩ : ∃ F1, RunFills s s2 (F ++ F1) := by
        cases hp : placer op with
        | none => exact ⟨[], by rw [List.append_nil]; exact .other s1 s2 op F hF h hp⟩
        | some p =>
          obtain ⟨sx, cs, g1, P⟩ := placement_full hr1 h hp
          exact ⟨tradesOf cs, .placing s1 s2 op F hF h p hp sx cs g1 P⟩
      refine ⟨F ++ F1, hF1, fs, h1.trans (List.sublist_append_left _ _), h2, .inr ⟨?_, rest, a2, a3, ?_⟩⟩
      · intro l' hl' he
        obtain ⟨ids, hids⟩ := reachable_ids hr
        have hmem := C19_resting s ids hids sd c l hl
        obtain ⟨i1, e1, e2⟩ := since_ids hids hs1
        refine C19_never_reused s1 s2 op hr1 h sd l.key ⟨i1, e1, e2 _ hmem⟩ ?_ c l' hl' he
        intro c1 l1 hl1 he1
        obtain ⟨rfl, _⟩ := since_left hr hs1 hl hl1 he1
        exact a1 l1 hl1 he1
      · rcases a4 with a4 | ⟨t1, t2, op', b1, b2, b3, b4⟩
        · exact .inl a4
        · exact .inr ⟨t1, t2, op', b1, b2, .step _ _ op b3 h, b4⟩

/-- In particular it never trades more than its size, however often it is filled. -/
theorem C101_at_most (hr : Reachable s) (hl : (sd, c, l) ∈ s.book.resting) (hs : Since s s') :
    ∃ F, RunFills s s' F ∧ ∃ fs, fs.Sublist F ∧ (∀ f ∈ fs, FillOfOrder sd c l f) ∧ 0 ≤ lotsOf fs ∧ lotsOf fs ≤ l.quantity := by
  obtain ⟨F, h1, fs, h2, h3, h4⟩ := C101_life hr hl hs
  refine ⟨F, h1, fs, h2, h3, ?_, ?_⟩
  · clear h2 h4 h1
    induction fs with
    | nil => exact Int.le_refl 0
    | cons f fs ih =>
      obtain ⟨_, _, _, _, _, _, _, _, _, _, _, h⟩ := h3 f (by simp)
      have h5 := h.quantity.1
      have h6 := ih (fun x hx => h3 x (by simp [hx]))
      have : lotsOf (f :: fs) = f.quantity + lotsOf fs := rfl
      omega
  · rcases h4 with ⟨l', _, a, b⟩ | ⟨_, rest, a, b, _⟩
    · have := a.2.1; omega
    · omega

/-- Every piece is traded in the name of the order, at its price if that is fixed and within its limit if it is pegged, and before its time in
force is over. -/
theorem C101_price {f : FillEvent} (h : FillOfOrder sd c l f) :
    f.maker = l.owner ∧ f.makerClientOrderId = l.clientOrderId ∧ f.takerSide = sd.invert ∧ 1 ≤ f.quantity ∧
      (c = .fixed → f.price = (l.key / 2 ^ 64 : Nat)) ∧
      (c = .pegged → l.pegLimit ≠ -1 → (sd = .bid → f.price ≤ l.pegLimit) ∧ (sd = .ask → l.pegLimit ≤ f.price)) ∧
      (l.timeInForce ≠ 0 → f.timestamp < l.timestamp + l.timeInForce) := by
  obtain ⟨env, r, b, b1, g, g1, l1, _, _, rfl, ⟨hl, _⟩, hf⟩ := h
  obtain ⟨m1, _, m2, _⟩ := hf.maker
  obtain ⟨t1, _, _, t2⟩ := hf.taker
  have ht := hf.tradable
  have e1 : l1.owner = l.owner := by rw [hl]
  have e2 : l1.clientOrderId = l.clientOrderId := by rw [hl]
  have e3 : l1.key = l.key := by rw [hl]
  have e4 : l1.pegLimit = l.pegLimit := by rw [hl]
  have e5 : l1.timeInForce = l.timeInForce := by rw [hl]
  have e6 : l1.timestamp = l.timestamp := by rw [hl]
  refine ⟨by rw [m1, e1], by rw [m2, e2], ?_, hf.quantity.1, ?_, ?_, ?_⟩
  · rw [t1]; cases env.order.side <;> rfl
  · rintro rfl
    have := ht.price
    unfold priceOf at this
    injection this with this
    rw [← this, e3]
  · intro hc hp
    have := ht.peg hc
    unfold beyondPeg at this
    rw [e4] at this
    exact ⟨fun h => by rw [h] at this; simp only at this; omega, fun h => by rw [h] at this; simp only at this; omega⟩
  · intro h0
    have := ht.live
    unfold expired at this
    rw [e5, e6] at this
    rw [t2]; omega

/-! Cases. -/
namespace LifeCase
open Scenario

def asks : List Op := ops1.take 4 ++ [place 1 .ask 1020 5 2]

/-- An order of 5 lots; 2 are bought, then 1, then the rest is cancelled. -/
example : ∃ (s s' : State) (l : LeafNode), Reachable s ∧ (Side.ask, Comp.fixed, l) ∈ s.book.resting ∧ l.quantity = 5 ∧ Since s s' ∧
    ∀ x ∈ s'.book.resting, x.2.2.key ≠ l.key := by
  obtain ⟨s, h1, h2⟩ := Scenario.exec_spec (a := Scenario.args) (ops := asks) (p := fun s =>
    okAnd (step s (place 2 .bid 1020 2 9)) (fun s1 => okAnd (step s1 (place 2 .bid 1020 1 9)) (fun s2 => decide (
      ∃ y ∈ s.book.resting, y.1 = .ask ∧ y.2.1 = .fixed ∧ y.2.2.quantity = 5 ∧ (∃ z ∈ s2.book.resting, z.2.2.key = y.2.2.key ∧ z.2.2.quantity = 2) ∧
        okAnd (step s2 (.cancelOrder 32 42 y.2.2.key)) (fun s3 => decide (∀ x ∈ s3.book.resting, x.2.2.key ≠ y.2.2.key)) = true)))) (by decide +kernel)
  obtain ⟨s1, h3, h4⟩ := okAnd_spec h2
  obtain ⟨s2, h5, h6⟩ := okAnd_spec h4
  obtain ⟨⟨_, _, l⟩, g1, rfl, rfl, g2, _, g3⟩ := of_decide_eq_true h6
  obtain ⟨s3, h7, h8⟩ := okAnd_spec g3
  exact ⟨s, s3, l, h1, g1, g2, .step _ _ _ (.step _ _ _ (.step _ _ _ .now h3) h5) h7, of_decide_eq_true h8⟩

end LifeCase
end OB
