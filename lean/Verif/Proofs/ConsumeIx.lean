import Verif.Proofs.Deliver
/-! The consume instructions: which slots are processed. -/
namespace OB
open Spec

theorem uniqueFrom_spec {l seen : List Nat} : (uniqueFrom seen l).Nodup ∧ ∀ x, x ∈ uniqueFrom seen l ↔ x ∈ l ∧ x ∉ seen := by
  induction l generalizing seen with
  | nil => exact ⟨List.nodup_nil, by simp [uniqueFrom]⟩
  | cons y ys ih =>
    rw [uniqueFrom]
    split
    · rename_i hy
      refine ⟨ih.1, fun x => ?_⟩
      rw [ih.2]
      constructor
      · rintro ⟨h1, h2⟩; exact ⟨List.mem_cons_of_mem _ h1, h2⟩
      · rintro ⟨h1, h2⟩
        rcases List.mem_cons.mp h1 with rfl | h1
        · exact absurd hy h2
        · exact ⟨h1, h2⟩
    · rename_i hy
      refine ⟨List.nodup_cons.mpr ⟨fun h => ((ih.2 y).mp h).2 (by simp), ih.1⟩, fun x => ?_⟩
      rw [List.mem_cons, ih.2, List.mem_cons, List.mem_cons]
      by_cases hxy : x = y
      · subst hxy; simp [hy]
      · simp [hxy]

theorem uniqueFrom_append {l r seen : List Nat} (hn : l.Nodup) (hs : ∀ x ∈ l, x ∉ seen) :
    ∃ r', uniqueFrom seen (l ++ r) = l ++ r' := by
  induction l generalizing seen with
  | nil => exact ⟨uniqueFrom seen r, rfl⟩
  | cons y ys ih =>
    rw [List.nodup_cons] at hn
    rw [List.cons_append, uniqueFrom, if_neg (hs y (by simp))]
    obtain ⟨r', hr⟩ := ih (seen := y :: seen) hn.2 (fun x hx => by
      rw [List.mem_cons]; rintro (rfl | h)
      · exact hn.1 hx
      · exact hs x (List.mem_cons_of_mem _ hx) h)
    exact ⟨r', by rw [hr]; rfl⟩

theorem uniqueFrom_nodup {l seen : List Nat} (hn : l.Nodup) (hs : ∀ x ∈ l, x ∉ seen) : uniqueFrom seen l = l := by
  induction l generalizing seen with
  | nil => rfl
  | cons y ys ih =>
    rw [List.nodup_cons] at hn
    rw [uniqueFrom, if_neg (hs y (by simp)), ih (seen := y :: seen) hn.2 (fun x hx => by
      rw [List.mem_cons]; rintro (rfl | h)
      · exact hn.1 hx
      · exact hs x (List.mem_cons_of_mem _ hx) h)]

/-- A consume instruction, with the slots it processes. -/
theorem consumeEvents_deliver {s s' : State} {admin : Pubkey} {limit : Nat} {slots : List Nat} {rem : List Pubkey} (hi : Inv s)
    (h : consumeEvents s admin limit slots rem = .ok s') :
    ∃ q todo, HeapRep s.g.heap q ∧ todo = (uniqueFrom [] (slots.filter (fun i => !(s.g.heap.nodes i).isFree) ++ q.map (·.1))).take (min limit 8) ∧
      HeapRep s'.g.heap (q.filter (fun x => !(decide (x.1 ∈ todo) && decide (x.2.target ∈ rem)))) ∧
      Delivered s s' ((todo.filterMap s.g.heap.atSlot).filter (fun e => e.target ∈ rem)) := by
  obtain ⟨hcl, _, todo, g, h3, h4, rfl⟩ := consumeEvents_inv h
  obtain ⟨O, q, hw⟩ := hi.core.linv
  unfold slotsToConsume at h3
  rw [iterSlots_spec hw.heap] at h3
  simp only [ok_bind, pure_ok] at h3
  obtain ⟨O', q', h5, h6, h7⟩ := consumeLoop_deliver hw hi.core.bls hi.core.qls (todo := todo)
    (by rw [← h3]; exact (uniqueFrom_spec (l := _) (seen := [])).1.sublist (List.take_sublist _ _)) h4
  refine ⟨q, todo, hw.heap, h3.symm, h6 ▸ h5.heap, ?_⟩
  exact ⟨h7.keys, h7.accts, h7.known, h7.market, rfl, rfl, rfl, rfl⟩

theorem filterMap_atSlot {h : EventHeap} {q : List (Nat × Event)} (hr : HeapRep h q) {A : List (Nat × Event)} (hA : ∀ x ∈ A, x ∈ q) :
    (A.map (·.1)).filterMap h.atSlot = A.map (·.2) := by
  induction A with
  | nil => rfl
  | cons x A ih =>
    rw [List.map_cons, List.map_cons, List.filterMap_cons_some ((atSlot_some hr).mpr (hA x (by simp))),
      ih (fun y hy => hA y (List.mem_cons_of_mem _ hy))]

/-- Consuming from the front. -/
theorem consumeEvents_front {s s' : State} {admin : Pubkey} {limit : Nat} {rem : List Pubkey} (hi : Inv s)
    (h : consumeEvents s admin limit [] rem = .ok s') :
    s'.g.heap.events = (s.g.heap.events.take (min limit 8)).filter (fun e => eventAccount e ∉ rem) ++ s.g.heap.events.drop (min limit 8) ∧
      Delivered s s' ((s.g.heap.events.take (min limit 8)).filter (fun e => eventAccount e ∈ rem)) := by
  obtain ⟨q, todo, h1, h2, h3, h4⟩ := consumeEvents_deliver hi h
  have htodo : todo = (q.take (min limit 8)).map (·.1) := by
    rw [h2, List.map_take]
    congr 1
    exact uniqueFrom_nodup h1.nodup (fun _ _ => by simp)
  rw [htodo] at h3 h4
  rw [filterMap_atSlot h1 (fun x hx => List.mem_of_mem_take hx), List.map_take, ← h1.events] at h4
  refine ⟨?_, ?_⟩
  · rw [h3.events, h1.events, ← List.map_take, ← List.map_drop]
    have hnd := h1.nodup
    rw [← List.take_append_drop (min limit 8) q, List.map_append] at hnd
    have hdis := (List.nodup_append.mp hnd).2.2
    conv_lhs => rw [← List.take_append_drop (min limit 8) q]
    rw [List.filter_append, List.map_append]
    congr 1
    · rw [List.filter_map]
      congr 1
      apply List.filter_congr
      intro x hx
      have : x.1 ∈ ((q.take (min limit 8) ++ q.drop (min limit 8)).take (min limit 8)).map (·.1) := by
        rw [List.take_append_drop]; exact List.mem_map.mpr ⟨x, hx, rfl⟩
      simp only [this, Function.comp, eventAccount_eq]
      simp
    · rw [List.filter_eq_self.mpr]
      intro x hx
      have : x.1 ∉ ((q.take (min limit 8) ++ q.drop (min limit 8)).take (min limit 8)).map (·.1) := by
        rw [List.take_append_drop]
        intro hm
        exact hdis x.1 hm x.1 (List.mem_map.mpr ⟨x, hx, rfl⟩) rfl
      rw [decide_eq_false this]; rfl
  · have e : (fun e : Event => decide (e.target ∈ rem)) = (fun e => decide (eventAccount e ∈ rem)) := by
      funext e; rw [eventAccount_eq]
    rw [← e]; exact h4

/-- Consuming given slots. -/
theorem consumeEvents_given {s s' : State} {admin : Pubkey} {limit : Nat} {slots : List Nat} {rem : List Pubkey} (hi : Inv s)
    (hlt : ∀ i ∈ slots, i < maxNumEvents) (h : consumeEvents s admin limit slots rem = .ok s') :
    ∃ sel : List Nat, sel.Nodup ∧ sel.length ≤ min limit 8 ∧ (∀ i ∈ sel, (s.g.heap.atSlot i).isSome) ∧
      (slots.Nodup → (∀ i ∈ slots, (s.g.heap.atSlot i).isSome) → slots.length = limit → slots.length ≤ 8 → sel = slots) ∧
      (∀ i e, s'.g.heap.atSlot i = some e ↔ s.g.heap.atSlot i = some e ∧ ¬ (i ∈ sel ∧ eventAccount e ∈ rem)) ∧
      s'.g.heap.events.Sublist s.g.heap.events ∧
      s.g.heap.events.Perm ((sel.filterMap s.g.heap.atSlot).filter (fun e => eventAccount e ∈ rem) ++ s'.g.heap.events) ∧
      Delivered s s' ((sel.filterMap s.g.heap.atSlot).filter (fun e => eventAccount e ∈ rem)) := by
  obtain ⟨q, todo, h1, h2, h3, h4⟩ := consumeEvents_deliver hi h
  have hspec := uniqueFrom_spec (l := slots.filter (fun i => !(s.g.heap.nodes i).isFree) ++ q.map (·.1)) (seen := [])
  have hn : todo.Nodup := by rw [h2]; exact hspec.1.sublist (List.take_sublist _ _)
  have e : (fun e : Event => decide (e.target ∈ rem)) = (fun e => decide (eventAccount e ∈ rem)) := by
    funext e; rw [eventAccount_eq]
  have hone : ∀ i : Nat, (s.g.heap.atSlot i).isSome ↔ i ∈ q.map (·.1) := by
    intro i
    rw [Option.isSome_iff_exists]
    constructor
    · rintro ⟨x, hx⟩; exact List.mem_map.mpr ⟨_, (atSlot_some h1).mp hx, rfl⟩
    · intro hm
      obtain ⟨x, hx, rfl⟩ := List.mem_map.mp hm
      exact ⟨x.2, (atSlot_some h1).mpr hx⟩
  have hnf : ∀ i : Nat, i < maxNumEvents → (s.g.heap.nodes i).isFree = false → i ∈ q.map (·.1) := by
    intro i hi hf
    by_contra hc
    have := (isFree_iff h1 hi).mpr hc
    rw [hf] at this; cases this
  have hocc : ∀ i ∈ todo, (s.g.heap.atSlot i).isSome := by
    intro i hi
    rw [hone]
    have hm : i ∈ slots.filter (fun i => !(s.g.heap.nodes i).isFree) ++ q.map (·.1) := by
      have : i ∈ uniqueFrom [] (slots.filter (fun i => !(s.g.heap.nodes i).isFree) ++ q.map (·.1)) := by
        rw [h2] at hi; exact List.mem_of_mem_take hi
      exact ((hspec.2 i).mp this).1
    rcases List.mem_append.mp hm with hm | hm
    · exact hnf i (hlt i (List.mem_filter.mp hm).1) (by simpa using (List.mem_filter.mp hm).2)
    · exact hm
  refine ⟨todo, hn, ?_, hocc, ?_, ?_, ?_, ?_, ?_⟩
  · rw [h2]; exact List.length_take_le _ _
  · intro a1 a2 a3 a4
    have hf : slots.filter (fun i => !(s.g.heap.nodes i).isFree) = slots := by
      rw [List.filter_eq_self]
      intro i hi
      have hm := (hone i).mp (a2 i hi)
      have hlt : i < maxNumEvents := by
        obtain ⟨fr, hfr⟩ := h1
        exact hfr.lt i (List.mem_append_left _ hm)
      have : ¬ (s.g.heap.nodes i).isFree = true := fun hc => (isFree_iff h1 hlt).mp hc hm
      simpa using this
    rw [hf] at h2
    obtain ⟨r', hr'⟩ := uniqueFrom_append (r := q.map (·.1)) (seen := []) a1 (fun _ _ => by simp)
    rw [h2, hr', List.take_left']
    omega
  · intro i x
    rw [atSlot_some h3, atSlot_some h1, List.mem_filter]
    simp only [eventAccount_eq]
    simp only [Bool.not_eq_true', Bool.and_eq_false_iff, decide_eq_false_iff_not]
    exact and_congr_right (fun _ => by rw [Classical.not_and_iff_not_or_not])
  · rw [h3.events, h1.events]
    exact List.filter_sublist.map _
  · rw [h3.events, h1.events, ← e]
    have hp : (q.filter (fun x => (decide (x.1 ∈ todo) && decide (x.2.target ∈ rem))) ++
        q.filter (fun x => !(decide (x.1 ∈ todo) && decide (x.2.target ∈ rem)))).Perm q := List.filter_append_perm _ _
    refine ((hp.map (·.2)).symm).trans ?_
    rw [List.map_append]
    refine List.Perm.append_right _ ?_
    -- the delivered events, in queue order and in slot order
    have hsel : (todo.filterMap (fun i => (s.g.heap.atSlot i).map (fun e => (i, e)))).Perm (q.filter (fun x => decide (x.1 ∈ todo))) := by
      apply (List.perm_ext_iff_of_nodup ?_ ?_).mpr
      · intro x
        rw [List.mem_filterMap, List.mem_filter]
        constructor
        · rintro ⟨i, hi, hx⟩
          obtain ⟨ev, he, rfl⟩ := Option.map_eq_some_iff.mp hx
          exact ⟨(atSlot_some h1).mp he, by simpa using hi⟩
        · rintro ⟨hx, hi⟩
          exact ⟨x.1, by simpa using hi, by rw [(atSlot_some h1).mpr hx]; rfl⟩
      · refine List.Nodup.filterMap ?_ hn
        intro i j x hx hy
        obtain ⟨_, _, rfl⟩ := Option.map_eq_some_iff.mp hx
        obtain ⟨_, _, h⟩ := Option.map_eq_some_iff.mp hy
        exact (Prod.mk.inj h).1.symm
      · exact (List.Nodup.of_map _ h1.nodup).filter _
    have e2 : q.filter (fun x => (decide (x.1 ∈ todo) && decide (x.2.target ∈ rem))) =
        (q.filter (fun x => decide (x.1 ∈ todo))).filter (fun x => decide (x.2.target ∈ rem)) := by
      rw [List.filter_filter]
      apply List.filter_congr; intro x _; rw [Bool.and_comm]
    rw [e2]
    refine (((hsel.filter _).map _).symm).trans ?_
    have e3 : todo.filterMap s.g.heap.atSlot = (todo.filterMap (fun i => (s.g.heap.atSlot i).map (fun e => (i, e)))).map (·.2) := by
      rw [List.map_filterMap]
      congr 1
      funext i
      cases s.g.heap.atSlot i <;> rfl
    rw [e3, List.filter_map]
    exact List.Perm.refl _
  · rw [← e]; exact h4

end OB
