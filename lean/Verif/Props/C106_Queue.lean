import Verif.Proofs.Life
import Verif.Proofs.SeqUniq
import Verif.Proofs.Asked
import Verif.Props.C04_Fills
/-!
C106  Nobody jumps the queue.

An order that rests keeps its place for as long as it rests, whatever else happens: all orders that come later, also in the same instruction, are
behind it unless their price is better, also if one of them is pegged and the other fixed.
-/
namespace OB
open Spec

variable {s s' : State} {sd : Side} {c c' : Comp} {l l' m : LeafNode}

section lemmas
theorem since_seq (hr : Reachable s) (hs : Since s s') : s.g.market.seqNum ≤ s'.g.market.seqNum ∧
    ∀ sd c m, (sd, c, m) ∈ s'.book.resting → (∃ l, (sd, c, l) ∈ s.book.resting ∧ l.key = m.key) ∨ s.g.market.seqNum < seqOf sd m.key := by
  induction hs with
  | now => exact ⟨Nat.le_refl _, fun sd c m hm => .inl ⟨m, hm, rfl⟩⟩
  | step s1 s2 op hs1 h ih =>
    have hr1 := hs1.reachable hr
    obtain ⟨i1, i2⟩ := ih
    cases hp : placer op with
    | none =>
      have N := step_other hr1 h hp
      refine ⟨by rw [N.seq]; exact i1, fun sd c m hm => ?_⟩
      rcases N.book with e | ⟨k, ls, hc, _⟩
      · exact i2 sd c m (by rw [← e]; exact hm)
      · exact i2 sd c m (hc.sub hm)
    | some p =>
      obtain ⟨sx, cs, g1, P⟩ := placement_full hr1 h hp
      have hx : sx.g.market.seqNum = s1.g.market.seqNum ∧ ∀ y, y ∈ sx.book.resting → y ∈ s1.book.resting := by
        rcases P.first hr1 with e | ⟨_, _, _, ls, hc⟩
        · rw [e]; exact ⟨rfl, fun _ h => h⟩
        · exact ⟨by rw [hc.market], fun y hy => hc.sub hy⟩
      obtain ⟨o1, o2⟩ := calls_origin P.calls
      refine ⟨by rw [P.seq]; omega, fun sd c m hm => ?_⟩
      rcases o2 sd c m hm with ⟨l1, k1, k2, _⟩ | ⟨_, k1, _⟩
      · have hk : l1.key = m.key := by rw [k2]
        rcases i2 sd c l1 (hx.2 _ k1) with ⟨l0, a, b⟩ | a
        · exact .inl ⟨l0, a, b.trans hk⟩
        · exact .inr (by rw [← hk]; exact a)
      · exact .inr (by omega)

/-- The same for the book that the matching engine finds in the course of an instruction. -/
theorem calls_seq (hr : Reachable s) (hs : Since s s') {sx s2 : State} {p : Placer} {cs pre : List (Env × OrderResult)} {g1 g : Ledger} {book : Book}
    (P : Placement s' sx s2 p cs g1) (hc : Calls sx.book sx.g pre book g) (hm : (sd, c, m) ∈ book.resting) :
    (∃ l, (sd, c, l) ∈ s.book.resting ∧ l.key = m.key) ∨ s.g.market.seqNum < seqOf sd m.key := by
  have hr1 := hs.reachable hr
  obtain ⟨i1, i2⟩ := since_seq hr hs
  have hx : sx.g.market.seqNum = s'.g.market.seqNum ∧ ∀ y, y ∈ sx.book.resting → y ∈ s'.book.resting := by
    rcases P.first hr1 with e | ⟨_, _, _, ls, hc⟩
    · rw [e]; exact ⟨rfl, fun _ h => h⟩
    · exact ⟨by rw [hc.market], fun y hy => hc.sub hy⟩
  rcases (calls_origin hc).2 sd c m hm with ⟨l1, k1, k2, _⟩ | ⟨_, k1, _⟩
  · have hk : l1.key = m.key := by rw [k2]
    rcases i2 sd c l1 (hx.2 _ k1) with ⟨l0, a, b⟩ | a
    · exact .inl ⟨l0, a, b.trans hk⟩
    · exact .inr (by rw [← hk]; exact a)
  · exact .inr (by omega)

theorem before_of_seq (hr : Reachable s) (hl : (sd, c, l) ∈ s.book.resting) (hk : l'.key = l.key) (hm : s.g.market.seqNum < seqOf sd m.key)
    {p q : Int} (hp : ¬ betterPrice sd q p) : Before sd p l' q m := by
  obtain ⟨_, _, _, hq⟩ := resting_ok (reachable_Inv hr).core hl
  unfold Before
  by_cases e : p = q
  · refine .inr ⟨e, ?_⟩
    rw [seqNo_seqOf, seqNo_seqOf, hk]; omega
  · left
    unfold betterPrice at hp ⊢
    cases sd <;> simp only at hp ⊢ <;> omega
end lemmas

/-- Order `l` rests now, `l'` is what is left of it later; order `m` rests later and does not rest now.  Then `l` is before `m` whenever the price of `m` is not
better, at whatever prices the two of them are. -/
theorem C106_behind (hr : Reachable s) (hl : (sd, c, l) ∈ s.book.resting) (hs : Since s s') (hk : l'.key = l.key)
    (hm : (sd, c', m) ∈ s'.book.resting) (hnew : ∀ k x, (sd, k, x) ∈ s.book.resting → x.key ≠ m.key) (p q : Int) (hp : ¬ betterPrice sd q p) :
    Before sd p l' q m := by
  rcases (since_seq hr hs).2 sd c' m hm with ⟨x, h1, h2⟩ | h1
  · exact absurd h2 (hnew _ x h1)
  · exact before_of_seq hr hl hk h1 hp

/-- Two orders that both rest now and later: which is before the other at which prices does not change. -/
theorem C106_kept {l1 l2 l1' l2' : LeafNode} (h1 : LeftOf l1 l1') (h2 : LeftOf l2 l2') (p q : Int) : Before sd p l1' q l2' ↔ Before sd p l1 q l2 := by
  have e1 : l1'.key = l1.key := by rw [h1.1]
  have e2 : l2'.key = l2.key := by rw [h2.1]
  unfold Before seqNo
  rw [e1, e2]

/-- What is left of a resting order is the same order. -/
theorem C106_same (hr : Reachable s) (hl : (sd, c, l) ∈ s.book.resting) (hs : Since s s') (hl' : (sd, c', l') ∈ s'.book.resting) (hk : l'.key = l.key) :
    c' = c ∧ LeftOf l l' := since_left hr hs hl hl' hk

/-- When the matching engine, in any later instruction, trades with an order that did not rest in `s`, at a price not better than that at which the
order `l` of `s` can be traded, then it has first used up what is left of `l`.  The exceptions are those of C06 (`BetterUsedUpFirst`): a seller whose
quote limit does not pay for one more lot at the price of `l`; an own order that is cancelled instead; and a pegged `l` if the price of another pegged order
is out of range. -/
theorem C106_filled_after (hr : Reachable s) (hl : (sd, c, l) ∈ s.book.resting) (hs : Since s s') {sx s2 : State} {pl : Placer}
    {cs : List (Env × OrderResult)} {g1 : Ledger} (P : Placement s' sx s2 pl cs g1) {env : Env} {r : OrderResult} (hx : (env, r) ∈ cs)
    (hsd : sd = env.order.side.invert) :
    ∃ book g book' g', EngineCall env book g r book' g' ∧
      ∃ xs : List (Comp × LeafNode × FillEvent), r.fills = xs.map (fun x => x.2.2) ∧ (∀ x ∈ xs, IsFillOf env book x.1 x.2.1 x.2.2) ∧
        ∀ x ∈ xs, (∀ k y, (sd, k, y) ∈ s.book.resting → y.key ≠ x.2.1.key) →
          ∀ l' p, (sd, c, l') ∈ book.resting → l'.key = l.key → TradableAt env.nowTs env.oracle sd c l' p → ¬ betterPrice sd x.2.2.price p →
            (c = .fixed ∨ NoSkipped book sd env.oracle) →
            (∃ y ∈ xs, y.1 = c ∧ y.2.1 = l' ∧ (y.2.2.makerOut = true ∨
              (env.order.side = .ask ∧ env.order.maxQuoteLotsIncludingFees - sumQuote r.fills < p))) ∨
            (l'.owner = env.owner ∧ env.order.selfTradeBehavior = .cancelProvide ∧
              ∀ y ∈ book'.resting, y.1 = sd → y.2.1 = c → y.2.2.key ≠ l'.key) := by
  obtain ⟨pre, post, book, g, book', g', _, h1, h2, _⟩ := calls_split P.calls _ hx
  obtain ⟨xs, e1, e2, e3⟩ := C06_better_used_up_first_partial h2
  refine ⟨book, g, book', g', h2, xs, e1, e2, ?_⟩
  intro x hxs hnew l' p hl' hk ht hp hns
  subst hsd
  refine e3 x hxs c l' p hl' ht ?_ hns
  rcases calls_seq hr hs P h1 (e2 x hxs).resting with ⟨y, a, b⟩ | a
  · exact absurd b (hnew _ y a)
  · exact before_of_seq hr hl hk a hp

/-! A case. -/
namespace QueueCase
open Scenario

/-- An ask of 5 lots at 1020 rests; another trader asks for the same price; 6 lots are bought at 1020. -/
example : ∃ (s s1 s2 sx : State) (l m : LeafNode) (pl : Placer) (cs : List (Env × OrderResult)) (g1 : Ledger), Reachable s ∧
    (Side.ask, Comp.fixed, l) ∈ s.book.resting ∧ Since s s1 ∧ (Side.ask, Comp.fixed, l) ∈ s1.book.resting ∧
    (Side.ask, Comp.fixed, m) ∈ s1.book.resting ∧ (∀ k x, (Side.ask, k, x) ∈ s.book.resting → x.key ≠ m.key) ∧ m.key / 2 ^ 64 = l.key / 2 ^ 64 ∧
    m.quantity = 3 ∧ Placement s1 sx s2 pl cs g1 ∧ (∀ x ∈ s2.book.resting, x.2.2.key ≠ l.key) ∧ (∃ m', (Side.ask, Comp.fixed, m') ∈ s2.book.resting ∧ m'.key = m.key ∧ m'.quantity = 2) := by
  obtain ⟨s, h1, h2⟩ := Scenario.exec_spec (a := Scenario.args) (ops := ops1.take 4 ++ [place 1 .ask 1020 5 2]) (p := fun s =>
    okAnd (step s (place 0 .ask 1020 3 7)) (fun s1 => okAnd (step s1 (place 2 .bid 1020 6 9)) (fun s2 => decide (
      ∃ y ∈ s.book.resting, y.1 = .ask ∧ y.2.1 = .fixed ∧ y ∈ s1.book.resting ∧ (∀ x ∈ s2.book.resting, x.2.2.key ≠ y.2.2.key) ∧
        ∃ z ∈ s1.book.resting, z.1 = .ask ∧ z.2.1 = .fixed ∧ (∀ x ∈ s.book.resting, x.2.2.key ≠ z.2.2.key) ∧ z.2.2.key / 2 ^ 64 = y.2.2.key / 2 ^ 64 ∧
          z.2.2.quantity = 3 ∧ ∃ w ∈ s2.book.resting, w.1 = .ask ∧ w.2.1 = .fixed ∧ w.2.2.key = z.2.2.key ∧ w.2.2.quantity = 2)))) (by decide +kernel)
  obtain ⟨s1, h3, h4⟩ := okAnd_spec h2
  obtain ⟨s2, h5, h6⟩ := okAnd_spec h4
  obtain ⟨⟨_, _, l⟩, g1, rfl, rfl, g2, g3, ⟨_, _, m⟩, k1, rfl, rfl, k2, k3, k4, ⟨_, _, w⟩, k5, rfl, rfl, k6, k7⟩ := of_decide_eq_true h6
  have hs : Since s s1 := .step _ _ _ .now h3
  obtain ⟨sx, cs, g, P⟩ := placement_full (hs.reachable h1) h5 (p := _) rfl
  exact ⟨s, s1, s2, sx, l, m, _, cs, g, h1, g1, hs, g2, k1, fun k x hx => k2 _ hx, k3, k4, P, g3, w, k5, k6, k7⟩

end QueueCase
end OB
