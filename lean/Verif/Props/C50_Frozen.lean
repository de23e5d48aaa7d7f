import Verif.Props.C35_Peg
import Verif.Props.C44_Orders
/-!
C50  Without a valid oracle price pegged orders are frozen.
-/
namespace OB
open Spec

theorem calls_price {book book' : Book} {g g' : Ledger} {cs : List (Env × OrderResult)} (h : Calls book g cs book' g') :
    ∀ x ∈ cs, x.1.order.postTarget = some .pegged → x.1.oracle ≠ none := by
  induction h with
  | nil => intro x hx; cases hx
  | cons env r cs book book1 book' g g1 g' h hs ih =>
    intro x hx ht
    rcases List.mem_cons.mp hx with rfl | hx
    · obtain ⟨C⟩ := callRun h
      have hp := C.R.price
      intro ho
      simp only at ht ho
      unfold Order.postTarget at ht
      unfold Order.priceLots at hp
      rw [ho] at hp
      split at ht <;> simp only [reduceCtorEq, Option.some.injEq] at ht
      rename_i e
      rw [e] at hp
      cases hp
    · exact ih x hx ht

theorem through_frozen {side : Side} {book : Book} {g : Ledger} {cs : List (Env × OrderResult)} {l : LeafNode} {o : Option LeafNode}
    (h : Through side .pegged book g cs l o) {now : Int} (ho : ∀ x ∈ cs, x.1.oracle = none ∧ (x.1.nowTs : Int) = now) :
    o = some l ∨ (o = none ∧ l.timeInForce ≠ 0 ∧ (l.timestamp : Int) + l.timeInForce ≤ now) := by
  induction h with
  | done => exact .inl rfl
  | leaves env r cs book book1 g g1 l h why =>
    right
    obtain ⟨hn, ht⟩ := ho (env, r) (by simp)
    simp only at hn ht
    cases why with
    | filled f hs hf fill out =>
      have := fill.tradable.price
      rw [hn] at this; cases this
    | selfTrade p hs own stb tr =>
      have := tr.price
      rw [hn] at this; cases this
    | expired h => exact ⟨rfl, h.1, by have := h.2; omega⟩
    | beyondPeg p hs hc hp h => rw [hn] at hp; cases hp
    | evicted hs E kept c' new p h =>
      obtain ⟨w, q, e, _, hq, _⟩ := h.evict (by simp)
      injection e with e _
      subst e
      rw [hn] at hq; cases hq
  | keeps env r cs book book1 g g1 l l1 o h hk rest ih =>
    obtain ⟨hn, ht⟩ := ho (env, r) (by simp)
    simp only at hn ht
    cases hk with
    | same => exact ih (fun x hx => ho x (List.mem_cons_of_mem _ hx))
    | partly f hs hf fill out =>
      have := fill.tradable.price
      rw [hn] at this; cases this

/-- An instruction that places orders while there is no valid oracle price: pegged orders are not filled, none is placed, and every
resting one stays exactly as it is, unless its owner or delegate signs the instruction, which cancels own orders first (edit and
cancel-all-and-place), or its time in force is over. -/
theorem C50_frozen {s s' : State} {op : Op} {p : Placer} (hr : Reachable s) (h : step s op = .ok s') (hp : placer op = some p)
    (ho : p.oracle = none) :
    (∀ side l f, ¬ Fills s s' op p side .pegged l f) ∧
    (∀ side l, (side, Comp.pegged, l) ∈ s'.book.resting → (side, Comp.pegged, l) ∈ s.book.resting) ∧
    (∀ side l, (side, Comp.pegged, l) ∈ s.book.resting → (side, Comp.pegged, l) ∈ s'.book.resting ∨
      (∃ signer ∈ signers op, Controls s signer l.owner) ∨ (l.timeInForce ≠ 0 ∧ (l.timestamp : Int) + l.timeInForce ≤ p.now)) := by
  have fate : ∀ side l, (side, Comp.pegged, l) ∈ s.book.resting → (side, Comp.pegged, l) ∈ s'.book.resting ∨
      (Gone s'.book side .pegged l ∧ ((∃ signer ∈ signers op, Controls s signer l.owner) ∨
        (l.timeInForce ≠ 0 ∧ (l.timestamp : Int) + l.timeInForce ≤ p.now))) := by
    intro side l hm
    cases C44_explained hr h hm with
    | same h => exact .inl h
    | cancelled signer hs auth gone => exact .inr ⟨gone, .inl ⟨signer, hs, auth⟩⟩
    | pruned now limit hop => rw [hop] at hp; cases hp
    | met p' hp' s1 cs g1 P o through after =>
      rw [hp] at hp'; injection hp' with hp'; subst hp'
      rcases through_frozen through (now := p.now) (fun x hx => by
        obtain ⟨_, _, h3, h4⟩ := P.ctx x hx
        exact ⟨h4.trans ho, h3⟩) with rfl | ⟨rfl, he⟩
      · exact .inl after
      · exact .inr ⟨after, .inr he⟩
  refine ⟨fun side l f hF => ?_, fun side l hm => ?_, fun side l hm => ?_⟩
  · obtain ⟨_, o, ho', _⟩ := C35_within_peg_limit hF
    rw [ho] at ho'; cases ho'
  · obtain ⟨s1, cs, g1, P, hs⟩ := placement_serves hr h hp
    rcases calls_posted P.calls hm with ⟨l0, h1, h2, _⟩ | ⟨x, hx, _, _, k3, _⟩
    · have h1 : (side, Comp.pegged, l0) ∈ s.book.resting := by
        rcases P.first hr with e | ⟨_, _, _, ls, hc⟩
        · rw [← e]; exact h1
        · exact hc.sub h1
      rcases fate side l0 h1 with hx | ⟨hg, _⟩
      · have := resting_unique (reachable_Inv (.step _ _ _ hr h)).core.bookOk hx hm (by rw [h2])
        rw [this]; exact h1
      · exact absurd (by rw [h2]) (hg l hm)
    · exact absurd ((P.ctx x hx).2.2.2.trans ho) (calls_price P.calls x hx k3)
  · rcases fate side l hm with hx | ⟨_, hx⟩
    · exact .inl hx
    · exact .inr hx

open Scenario in
/-- A sale at 900 while there is no oracle price. -/
def blindSale : Op := .placeOrder { ctx 2 .ask [] with oracle := none } (limitOrder .ask 900 3 9)

/-- The sale passes over the pegged bid at 995 and fills against the fixed one at 990. -/
example : ∃ (s s' : State) (p : Placer), Reachable s ∧ step s blindSale = .ok s' ∧ placer blindSale = some p ∧ p.oracle = none ∧
    (∃ side l, (side, Comp.pegged, l) ∈ s.book.resting) ∧ s'.g.heap.events.length = s.g.heap.events.length + 1 := by
  have h : Scenario.okAnd (Scenario.exec Scenario.args Scenario.ops1) (fun s => Scenario.okAnd (step s blindSale) (fun s' =>
      (s.book.resting.any (fun x => decide (x.2.1 = .pegged))) && decide (s'.g.heap.events.length = s.g.heap.events.length + 1))) = true := by
    decide +kernel
  obtain ⟨s, h1, h2⟩ := Scenario.okAnd_spec h
  obtain ⟨s', h3, h4⟩ := Scenario.okAnd_spec h2
  rw [Bool.and_eq_true, decide_eq_true_eq, List.any_eq_true] at h4
  obtain ⟨⟨⟨side, c, l⟩, hm, hc⟩, h5⟩ := h4
  have hc := of_decide_eq_true hc
  simp only at hc; subst hc
  exact ⟨s, s', _, Scenario.exec_reachable h1, h3, rfl, rfl, ⟨side, l, hm⟩, h5⟩

end OB
