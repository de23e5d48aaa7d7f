import Verif.Spec.Life
import Verif.Proofs.TsCancel
import Verif.Props.C44_Orders
/-! Lemmas for C101. -/
namespace OB
open Spec

theorem lotsOf_append (a b : List FillEvent) : lotsOf (a ++ b) = lotsOf a + lotsOf b := by
  unfold lotsOf; rw [List.map_append, List.sum_append]

theorem leftOf_refl {l : LeafNode} (h : 1 ≤ l.quantity) : LeftOf l l := ⟨rfl, h, by omega⟩

theorem Spec.FillOfOrder.of_left {sd : Side} {c : Comp} {l l1 : LeafNode} {f : FillEvent} (hl : LeftOf l l1) (h : FillOfOrder sd c l1 f) :
    FillOfOrder sd c l f := by
  obtain ⟨env, r, b, b1, g, g1, l2, h1, h2, h3, h4, h5⟩ := h
  exact ⟨env, r, b, b1, g, g1, l2, h1, h2, h3, leftOf_trans hl h4, h5⟩

/-- What is left of `l` after calls `cs` with the fills `fs` of it. -/
def Outcome (sd : Side) (c : Comp) (cs : List (Env × OrderResult)) (l : LeafNode) (fs : List FillEvent) : Option LeafNode → Prop
  | some l' => LeftOf l l' ∧ l.quantity = l'.quantity + lotsOf fs
  | none => ∃ rest, 0 ≤ rest ∧ l.quantity = rest + lotsOf fs ∧
      (rest = 0 ∨ ∃ env r, (env, r) ∈ cs ∧ ∃ book book1 g g2 l1, EngineCall env book g r book1 g2 ∧ LeftOf l l1 ∧
        Withdrawn env book r book1 g2 sd c l1 ∧ l1.quantity = rest)

theorem through_fills {sd : Side} {c : Comp} {book : Book} {g : Ledger} {cs : List (Env × OrderResult)} {l : LeafNode} {o : Option LeafNode}
    (h : Through sd c book g cs l o) (hq : 1 ≤ l.quantity) :
    ∃ fs, fs.Sublist (tradesOf cs) ∧ (∀ f ∈ fs, FillOfOrder sd c l f) ∧ Outcome sd c cs l fs o := by
  induction h with
  | done book g l => exact ⟨[], List.nil_sublist _, fun f hf => (by cases hf), leftOf_refl hq, by unfold lotsOf; simp⟩
  | leaves env r cs book book1 g g1 l hc why =>
    have off : Withdrawn env book r book1 g1 sd c l → ∃ fs : List FillEvent, fs.Sublist (tradesOf ((env, r) :: cs)) ∧ (∀ f ∈ fs, FillOfOrder sd c l f) ∧
        Outcome sd c ((env, r) :: cs) l fs none := fun hw =>
      ⟨[], List.nil_sublist _, fun f hf => (by cases hf), l.quantity, by omega, by unfold lotsOf; simp,
        .inr ⟨env, r, by simp, book, book1, g, g1, l, hc, leftOf_refl hq, hw, rfl⟩⟩
    cases why with
    | filled f hs hf fill out =>
      refine ⟨[f], ?_, ?_, 0, by omega, ?_, .inl rfl⟩
      · exact List.singleton_sublist.mpr (List.mem_flatMap.mpr ⟨(env, r), by simp, hf⟩)
      · intro f' hf'
        rw [List.mem_singleton.mp hf']
        exact ⟨env, r, book, book1, g, g1, l, hc, hf, hs, leftOf_refl hq, fill⟩
      · have := fill.out.mp out
        unfold lotsOf; simp [this]
    | selfTrade p hs own stb tr => exact off (.selfTrade p hs own stb tr)
    | expired h => exact off (.expired h)
    | beyondPeg p hs hc hp h => exact off (.beyondPeg p hs hc hp h)
    | evicted hs E kept c' new p h => exact off (.evicted hs E kept c' new p h)
  | keeps env r cs book book1 g g1 l l1 o hc hk rest ih =>
    have go : ∀ f0 : List FillEvent, f0.Sublist r.fills → (∀ f ∈ f0, FillOfOrder sd c l f) → LeftOf l l1 → l.quantity = l1.quantity + lotsOf f0 →
        ∃ fs : List FillEvent, fs.Sublist (tradesOf ((env, r) :: cs)) ∧ (∀ f ∈ fs, FillOfOrder sd c l f) ∧
        Outcome sd c ((env, r) :: cs) l fs o := by
      intro f0 h0 h1 hl hq0
      obtain ⟨fs, i1, i2, i3⟩ := ih hl.2.1
      refine ⟨f0 ++ fs, ?_, ?_, ?_⟩
      · show (f0 ++ fs).Sublist (r.fills ++ tradesOf cs)
        exact h0.append i1
      · intro f hf
        rcases List.mem_append.mp hf with hf | hf
        · exact h1 f hf
        · exact (i2 f hf).of_left hl
      · cases o with
        | some l' =>
          obtain ⟨j1, j2⟩ := i3
          exact ⟨leftOf_trans hl j1, by rw [lotsOf_append]; omega⟩
        | none =>
          obtain ⟨rest, j1, j2, j3⟩ := i3
          refine ⟨rest, j1, by rw [lotsOf_append]; omega, ?_⟩
          rcases j3 with j3 | ⟨env', r', k1, b, b1, g, g2, l2, k2, k3, k4, k5⟩
          · exact .inl j3
          · exact .inr ⟨env', r', List.mem_cons_of_mem _ k1, b, b1, g, g2, l2, k2, leftOf_trans hl k3, k4, k5⟩
    cases hk with
    | same => exact go [] (List.nil_sublist _) (fun f hf => by cases hf) (leftOf_refl hq) (by unfold lotsOf; simp)
    | partly f hs hf fill out =>
      have hne : f.quantity ≠ l.quantity := fun e => by rw [fill.out.mpr e] at out; cases out
      have := fill.quantity
      refine go [f] (List.singleton_sublist.mpr hf) ?_ ⟨rfl, by simp only; omega, by simp only; omega⟩ (by unfold lotsOf; simp)
      intro f' hf'
      rw [List.mem_singleton.mp hf']
      exact ⟨env, r, book, book1, g, g1, l, hc, hf, hs, leftOf_refl hq, fill⟩

/-- One instruction in the life of an order. -/
theorem step_life {s s' : State} {op : Op} (hr : Reachable s) (h : step s op = .ok s') {sd : Side} {c : Comp} {l : LeafNode}
    (hm : (sd, c, l) ∈ s.book.resting) :
    ∃ F, (∀ s0 F0, RunFills s0 s F0 → RunFills s0 s' (F0 ++ F)) ∧ ∃ fs, fs.Sublist F ∧ (∀ f ∈ fs, FillOfOrder sd c l f) ∧
      ((∃ l', (sd, c, l') ∈ s'.book.resting ∧ LeftOf l l' ∧ l.quantity = l'.quantity + lotsOf fs) ∨
       (Gone s'.book sd c l ∧ ∃ rest, 0 ≤ rest ∧ l.quantity = rest + lotsOf fs ∧ (rest = 0 ∨ TakenOff s s' op sd c l rest))) := by
  obtain ⟨_, _, hq, _⟩ := resting_ok (reachable_Inv hr).core hm
  have some_run : ∃ F, ∀ s0 F0, RunFills s0 s F0 → RunFills s0 s' (F0 ++ F) := by
    cases hp : placer op with
    | none => exact ⟨[], fun s0 F0 h0 => by rw [List.append_nil]; exact .other s s' op F0 h0 h hp⟩
    | some p =>
      obtain ⟨s1, cs, g1, P⟩ := placement_full hr h hp
      exact ⟨tradesOf cs, fun s0 F0 h0 => .placing s s' op F0 h0 h p hp s1 cs g1 P⟩
  cases C44_explained hr h hm with
  | same hx =>
    obtain ⟨F, hF⟩ := some_run
    exact ⟨F, hF, [], List.nil_sublist _, fun f hf => (by cases hf), .inl ⟨l, hx, leftOf_refl hq, by unfold lotsOf; simp⟩⟩
  | cancelled signer hs auth gone =>
    obtain ⟨F, hF⟩ := some_run
    exact ⟨F, hF, [], List.nil_sublist _, fun f hf => (by cases hf), .inr ⟨gone, l.quantity, by omega, by unfold lotsOf; simp,
      .inr (.cancelled l hm (leftOf_refl hq) signer hs auth rfl)⟩⟩
  | pruned now limit hop adm exp gone =>
    obtain ⟨F, hF⟩ := some_run
    exact ⟨F, hF, [], List.nil_sublist _, fun f hf => (by cases hf), .inr ⟨gone, l.quantity, by omega, by unfold lotsOf; simp,
      .inr (.pruned l hm (leftOf_refl hq) now limit hop exp rfl)⟩⟩
  | met p hp s1 cs g1 hP o through after =>
    obtain ⟨fs, i1, i2, i3⟩ := through_fills through hq
    refine ⟨tradesOf cs, fun s0 F0 h0 => .placing s s' op F0 h0 h p hp s1 cs g1 hP, fs, i1, i2, ?_⟩
    cases o with
    | some l' =>
      exact .inl ⟨l', after, i3.1, i3.2⟩
    | none =>
      obtain ⟨rest, j1, j2, j3⟩ := i3
      refine .inr ⟨after, rest, j1, j2, ?_⟩
      rcases j3 with j3 | ⟨env, r, k1, b, b1, g, g2, l2, k2, k3, k4, k5⟩
      · exact .inl j3
      · exact .inr (.engine p hp s1 cs g1 hP env r k1 b b1 g g2 l2 k2 k3 k4 k5)

theorem Spec.TakenOff.of_left {s s' : State} {op : Op} {sd : Side} {c : Comp} {l l1 : LeafNode} {rest : Int} (hl : LeftOf l l1)
    (h : TakenOff s s' op sd c l1 rest) : TakenOff s s' op sd c l rest := by
  have ho : l1.owner = l.owner := by rw [hl.1]
  cases h with
  | cancelled l2 there left signer hs auth all => exact .cancelled l2 there (leftOf_trans hl left) signer hs (by rw [← ho]; exact auth) all
  | pruned l2 there left now limit hop exp all => exact .pruned l2 there (leftOf_trans hl left) now limit (by rw [← ho]; exact hop) exp all
  | engine p hp sx cs g1 hP env r hr book book1 g g2 l2 call left why all =>
    exact .engine p hp sx cs g1 hP env r hr book book1 g g2 l2 call (leftOf_trans hl left) why all

theorem Spec.RunFills.since {s s' : State} {F : List FillEvent} (h : RunFills s s' F) : Since s s' := by
  induction h with
  | now => exact .now
  | other s1 s2 op F _ h _ ih => exact .step _ _ op ih h
  | placing s1 s2 op F _ h p hp sx cs g1 hP ih => exact .step _ _ op ih h

end OB
