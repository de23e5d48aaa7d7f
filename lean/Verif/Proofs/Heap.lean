import Verif.Proofs.Basic
import Verif.Model.Heap
import Mathlib.Data.List.Nodup
import Mathlib.Data.List.Perm.Subperm
import Mathlib.Data.List.Range
/-! The event heap represents a queue: representation predicate and its preservation. -/
namespace OB
open EventHeap

/-- Doubly linked path `a → l → b`. -/
def Path (nd : Nat → EventNode) : Nat → List Nat → Nat → Prop
  | a, [], b => (nd a).next = b ∧ (nd b).prev = a
  | a, x :: l, b => (nd a).next = x ∧ (nd x).prev = a ∧ Path nd x l b

theorem Path.append {nd : Nat → EventNode} {a x b : Nat} {l l' : List Nat} :
    Path nd a (l ++ x :: l') b ↔ Path nd a l x ∧ Path nd x l' b := by
  induction l generalizing a with
  | nil => simp [Path, and_assoc]
  | cons y l ih => simp [Path, ih, and_assoc]

theorem Path.congr {nd nd' : Nat → EventNode} {a b : Nat} {l : List Nat} (h : Path nd a l b)
    (hn : ∀ y ∈ a :: l, (nd' y).next = (nd y).next) (hp : ∀ y ∈ l ++ [b], (nd' y).prev = (nd y).prev) :
    Path nd' a l b := by
  induction l generalizing a with
  | nil =>
    simp only [Path] at *
    exact ⟨by rw [hn a (by simp)]; exact h.1, by rw [hp b (by simp)]; exact h.2⟩
  | cons x l ih =>
    simp only [Path] at *
    refine ⟨by rw [hn a (by simp)]; exact h.1, by rw [hp x (by simp)]; exact h.2.1, ih h.2.2 ?_ ?_⟩
    · intro y hy; exact hn y (List.mem_cons_of_mem _ hy)
    · intro y hy; exact hp y (List.mem_cons_of_mem _ hy)

theorem Path.rotate {nd : Nat → EventNode} {u s : Nat} {A B : List Nat} :
    Path nd u (A ++ s :: B) u ↔ Path nd s (B ++ u :: A) s := by
  rw [Path.append, Path.append, and_comm]

/-- Free list starting at `f`. -/
def FreeL (nd : Nat → EventNode) : Nat → List Nat → Prop
  | f, [] => f = noNode
  | f, x :: l => f = x ∧ (nd x).prev = noNode ∧ FreeL nd (nd x).next l

theorem FreeL.congr {nd nd' : Nat → EventNode} {f : Nat} {l : List Nat} (h : FreeL nd f l)
    (he : ∀ y ∈ l, (nd' y).prev = (nd y).prev ∧ (nd' y).next = (nd y).next) : FreeL nd' f l := by
  induction l generalizing f with
  | nil => exact h
  | cons x l ih =>
    obtain ⟨h1, h2, h3⟩ := h
    refine ⟨h1, by rw [(he x (by simp)).1]; exact h2, ?_⟩
    rw [(he x (by simp)).2]
    exact ih h3 (fun y hy => he y (List.mem_cons_of_mem _ hy))

/-- The used slots form a cycle from the used head. -/
def UsedL (nd : Nat → EventNode) (head : Nat) : List Nat → Prop
  | [] => head = noNode
  | u :: U => head = u ∧ Path nd u U u

/-- `h` holds the events `q` (slot and event, oldest first); `fr` are the free slots. -/
structure HeapRepF (h : EventHeap) (q : List (Nat × Event)) (fr : List Nat) : Prop where
  nodup : (q.map (·.1) ++ fr).Nodup
  lt : ∀ s ∈ q.map (·.1) ++ fr, s < maxNumEvents
  len : q.length + fr.length = maxNumEvents
  count : h.count = q.length
  used : UsedL h.nodes h.usedHead (q.map (·.1))
  free : FreeL h.nodes h.freeHead fr
  ev : ∀ x ∈ q, (h.nodes x.1).event = x.2

def HeapRep (h : EventHeap) (q : List (Nat × Event)) : Prop := ∃ fr, HeapRepF h q fr

/-! ### init -/

theorem freeL_init (n k : Nat) (h : k + n = maxNumEvents) :
    FreeL EventHeap.init.nodes (if n = 0 then noNode else k) (List.range' k n) := by
  induction n generalizing k with
  | zero => simp [FreeL]
  | succ n ih =>
    simp only [List.range'_succ, FreeL]
    refine ⟨by simp, by simp [EventHeap.init], ?_⟩
    have := ih (k + 1) (by omega)
    have he : (EventHeap.init.nodes k).next = if n = 0 then noNode else k + 1 := by
      simp only [EventHeap.init]
      have : k = maxNumEvents - 1 ↔ n = 0 := by unfold maxNumEvents at *; omega
      simp only [this]
    rw [he]; exact this

theorem heapRep_init : HeapRep EventHeap.init [] := by
  refine ⟨List.range' 0 maxNumEvents, ?_, ?_, ?_, rfl, rfl, ?_, ?_⟩
  · simp [List.nodup_range']
  · intro s hs; simp at hs; exact hs
  · simp
  · exact freeL_init maxNumEvents 0 (by simp)
  · simp

/-! ### push -/

theorem heap_get_ok {h : EventHeap} {i : Nat} (hi : i < maxNumEvents) : h.get i = .ok (h.nodes i) := by
  unfold EventHeap.get; rw [show assertR (i < maxNumEvents) = .ok () from req_true hi]; rfl

theorem append_singleton_cases (l : List Nat) : l = [] ∨ ∃ V d, l = V ++ [d] := by
  rcases List.eq_nil_or_concat l with h | ⟨V, d, h⟩
  · exact .inl h
  · exact .inr ⟨V, d, by simpa using h⟩

/-- A push on a non-full heap succeeds, appends the event in a slot not in use, and changes nothing else. -/
theorem pushBack_spec {h : EventHeap} {q : List (Nat × Event)} (hr : HeapRep h q) (e : Event)
    (hl : q.length < maxNumEvents) (hs : h.seqNum < 18446744073709551615) :
    ∃ h' s, h.pushBack e = .ok h' ∧ s < maxNumEvents ∧ s ∉ q.map (·.1) ∧ HeapRep h' (q ++ [(s, e)]) ∧
      h'.seqNum = h.seqNum + 1 := by
  obtain ⟨fr, hr⟩ := hr
  obtain ⟨nodup, lt, len, count, used, free, ev⟩ := hr
  cases fr with
  | nil => simp at len; omega
  | cons s fr =>
    obtain ⟨hfs, hsp, hfree⟩ := free
    have hslt : s < maxNumEvents := lt s (by simp)
    have hsq : s ∉ q.map (·.1) := by
      intro hmem
      have := (List.nodup_append.mp nodup).2.2 s hmem s (by simp)
      exact this rfl
    have hsfr : s ∉ fr := by
      have := (List.nodup_append.mp nodup).2.1
      exact (List.nodup_cons.mp this).1
    have hfull : h.isFull = false := by
      unfold EventHeap.isFull; rw [count]; exact decide_eq_false (by omega)
    have hcnt : h.count < 65535 := by rw [count]; unfold maxNumEvents at hl; omega
    have hnd' : ((q ++ [(s, e)]).map (·.1) ++ fr).Nodup := by
      rw [List.map_append, List.append_assoc]; exact nodup
    have hlt' : ∀ y ∈ (q ++ [(s, e)]).map (·.1) ++ fr, y < maxNumEvents := by
      rw [List.map_append, List.append_assoc]; exact lt
    have hlen' : (q ++ [(s, e)]).length + fr.length = maxNumEvents := by
      simp only [List.length_append, List.length_cons, List.length_nil] at *; omega
    unfold EventHeap.pushBack
    rw [show assertR (h.isFull = false) = .ok () from req_true hfull, hfs]
    simp only [ok_bind, heap_get_ok hslt]
    cases q with
    | nil =>
      have he : ({ h with freeHead := (h.nodes s).next } : EventHeap).isEmpty = true := by
        unfold EventHeap.isEmpty; simp [count]
      simp only [he, if_true, ok_bind]
      rw [show assertR (h.count < 65535) = .ok () from req_true hcnt,
        show assertR (h.seqNum < 18446744073709551615) = .ok () from req_true hs]
      refine ⟨_, s, rfl, hslt, hsq, ⟨fr, hnd', hlt', hlen', ?_, ?_, ?_, ?_⟩, rfl⟩
      · simp [EventHeap.set, count]
      · simp [UsedL, Path, EventHeap.set]
      · refine FreeL.congr hfree ?_
        intro y hy
        have : y ≠ s := fun h => hsfr (h ▸ hy)
        simp [EventHeap.set, this]
      · simp [EventHeap.set]
    | cons x q =>
      obtain ⟨u, eu⟩ := x
      have he : ({ h with freeHead := (h.nodes s).next } : EventHeap).isEmpty = false := by
        unfold EventHeap.isEmpty; simp [count]
      obtain ⟨hu, hpath⟩ := used
      have hult : u < maxNumEvents := lt u (by simp)
      have hus : u ≠ s := by intro h; subst h; exact hsq (by simp)
      -- the last used slot
      have hlast : ∃ d, (h.nodes u).prev = d ∧ (h.nodes d).next = u ∧ d ∈ u :: q.map (·.1) ∧
          ((q.map (·.1) = [] ∧ d = u) ∨ ∃ V, q.map (·.1) = V ++ [d] ∧ Path h.nodes u V d) := by
        rcases append_singleton_cases (q.map (·.1)) with h0 | ⟨V, d, h0⟩
        · have hp2 : Path h.nodes u (q.map (·.1)) u := hpath
          rw [h0] at hp2
          exact ⟨u, hp2.2, hp2.1, by simp, .inl ⟨h0, rfl⟩⟩
        · have hp2 : Path h.nodes u (q.map (·.1)) u := hpath
          rw [h0, Path.append] at hp2
          exact ⟨d, hp2.2.2, hp2.2.1, by simp [h0], .inr ⟨V, h0, hp2.1⟩⟩
      obtain ⟨d, hpu, hnd, hdm, hcase⟩ := hlast
      have hdlt : d < maxNumEvents := lt d (by simp at hdm ⊢; rcases hdm with h | h <;> simp [h])
      have hds : d ≠ s := by
        intro hd; rw [hd] at hdm; exact hsq hdm
      simp only [he, Bool.false_eq_true, if_false]
      simp only [hu, heap_get_ok hult, ok_bind, hpu, heap_get_ok hdlt]
      have c1 : assertR (h.count < 65535) = .ok () := req_true hcnt
      have c2 : assertR (h.seqNum < 18446744073709551615) = .ok () := req_true hs
      simp only [EventHeap.set, c1, c2, ok_bind]
      refine ⟨_, s, rfl, hslt, hsq, ⟨fr, hnd', hlt', hlen', ?_, ?_, ?_, ?_⟩, rfl⟩
      · simp only [List.length_append, List.length_cons, List.length_nil, count]
      · simp only [UsedL, List.cons_append, List.map_cons, List.map_append, List.map_nil]
        refine ⟨trivial, ?_⟩
        have hqn : (u :: q.map (·.1)).Nodup := (List.nodup_append.mp nodup).1
        rw [Path.append]
        rcases hcase with ⟨h0, h1⟩ | ⟨V, h0, hV⟩
        · rw [h0]; subst h1; simp [Path, hus]
        · rw [h0] at hqn ⊢
          rw [Path.append]
          have hud : u ≠ d := by
            intro h; rw [h] at hqn; simp at hqn
          have hdV : d ∉ V := by
            intro h
            have := (List.nodup_cons.mp hqn).2
            exact (List.nodup_append.mp this).2.2 d h d (by simp) rfl
          have hsV : s ∉ V := by
            intro h; apply hsq; simp only [List.map_cons, h0]; simp [h]
          refine ⟨⟨Path.congr hV ?_ ?_, ?_⟩, ?_⟩
          · intro y hy
            have h1 : y ≠ d := by
              intro h; subst h; simp at hy
              rcases hy with hy | hy
              · exact hud hy.symm
              · exact hdV hy
            have h2 : y ≠ s := by
              intro h; subst h; simp at hy
              rcases hy with hy | hy
              · exact hus hy.symm
              · exact hsV hy
            by_cases h3 : y = u <;> simp [h1, h2, h3, hus, hud]
          · intro y hy
            have h1 : y ≠ u := by
              intro h; subst h
              simp at hy
              have := (List.nodup_cons.mp hqn).1
              simp at this
              rcases hy with hy | hy
              · exact this.1 hy
              · exact this.2 hy
            have h2 : y ≠ s := by
              intro h; subst h; simp at hy
              rcases hy with hy | hy
              · exact hsV hy
              · exact hds hy.symm
            by_cases h3 : y = d <;> simp [h1, h2, h3, hds, hud.symm]
          · simp [Path, hds, hud.symm]
          · simp [Path, hus]
      · refine FreeL.congr hfree ?_
        intro y hy
        have h1 : y ≠ s := fun h => hsfr (h ▸ hy)
        have hdis := (List.nodup_append.mp nodup).2.2
        have h2 : y ≠ u := fun h => hdis u (by simp) y (by simp [hy]) h.symm
        have h3 : y ≠ d := fun h => hdis d (by simpa using hdm) y (by simp [hy]) h.symm
        simp [h1, h2, h3]
      · intro y hy
        have hy' : y ∈ (u, eu) :: q ∨ y = (s, e) := by simpa [or_assoc] using hy
        rcases hy' with hy' | hy'
        · have h1 : y.1 ≠ s := by
            intro h; apply hsq; rw [← h]; exact List.mem_map_of_mem hy'
          have := ev y hy'
          by_cases h2 : y.1 = u
          · by_cases h3 : u = d
            · subst h3; simp [h2, hus]; rw [← h2]; exact this
            · simp [h2, hus, h3]; rw [← h2]; exact this
          · by_cases h3 : y.1 = d
            · have hdu : d ≠ u := fun h => h2 (h3.trans h)
              simp [h3, hds, hdu]; rw [← h3]; exact this
            · simp [h1, h2, h3]; exact this
        · subst hy'; simp

/-- A push on a full heap fails. -/
theorem pushBack_full {h : EventHeap} {q : List (Nat × Event)} (hr : HeapRep h q) (e : Event)
    (hl : q.length = maxNumEvents) : h.pushBack e = .error .panic := by
  obtain ⟨fr, hr⟩ := hr
  have : h.isFull = true := by unfold EventHeap.isFull; rw [hr.count]; exact decide_eq_true hl
  unfold EventHeap.pushBack
  simp [this, req, err_bind]

/-! ### delete -/

theorem UsedL.rot {nd : Nat → EventNode} {hd s : Nat} {A B : List Nat} (h : UsedL nd hd (A ++ s :: B)) :
    Path nd s (B ++ A) s := by
  cases A with
  | nil => simpa [UsedL] using h.2
  | cons u A => exact Path.rotate.mp h.2

theorem UsedL.of_rot {nd : Nat → EventNode} {c : Nat} {A B C : List Nat} (hc : B ++ A = c :: C) (h : Path nd c C c) :
    UsedL nd ((A ++ B).headD noNode) (A ++ B) := by
  cases A with
  | nil =>
    simp only [List.append_nil] at hc
    simp only [List.nil_append, hc, UsedL, List.headD_cons]
    exact ⟨trivial, h⟩
  | cons u A =>
    cases B with
    | nil =>
      simp only [List.nil_append, List.cons.injEq] at hc
      obtain ⟨rfl, rfl⟩ := hc
      simp only [List.append_nil, UsedL, List.headD_cons]; exact ⟨trivial, h⟩
    | cons b B =>
      simp only [List.cons_append, List.cons.injEq] at hc
      obtain ⟨rfl, rfl⟩ := hc
      simp only [List.cons_append, UsedL, List.headD_cons]
      exact ⟨trivial, Path.rotate.mp h⟩

/-- Unlinking the node `s` of a cycle. -/
theorem Path.unlink {nd : Nat → EventNode} {s c : Nat} {C : List Nat} (h : Path nd s (c :: C) s)
    (hn : (s :: c :: C).Nodup) :
    (nd s).next = c ∧ ∃ d, d ∈ c :: C ∧ (nd s).prev = d ∧
      ∀ nd' : Nat → EventNode,
        (∀ y, y ≠ s → (nd' y).next = if y = d then c else (nd y).next) →
        (∀ y, y ≠ s → (nd' y).prev = if y = c then d else (nd y).prev) →
        Path nd' c C c := by
  obtain ⟨h1, h2, h3⟩ := h
  refine ⟨h1, ?_⟩
  have hsc : s ≠ c := by intro h; subst h; simp at hn
  rcases append_singleton_cases C with h0 | ⟨V, d, h0⟩
  · subst h0
    refine ⟨c, by simp, h3.2, fun nd' hx hy => ?_⟩
    have := hx c hsc.symm; have := hy c hsc.symm
    simp_all [Path]
  · subst h0
    rw [Path.append] at h3
    refine ⟨d, by simp, h3.2.2, fun nd' hx hy => ?_⟩
    rw [Path.append]
    simp only [List.nodup_cons, List.nodup_append, List.mem_cons, List.mem_append, List.not_mem_nil, or_false, not_or] at hn
    obtain ⟨⟨_, hsV, hsd⟩, ⟨hcV, hcd⟩, hV, _, hVd⟩ := hn
    refine ⟨Path.congr h3.1 ?_ ?_, ?_, ?_⟩
    · intro y hy'
      simp only [List.mem_cons] at hy'
      have hys : y ≠ s := by rintro rfl; rcases hy' with h | h; exact hsc h; exact hsV h
      have hyd : y ≠ d := by
        rintro rfl
        rcases hy' with h | h
        · exact hcd h.symm
        · exact hVd y h y (by simp) rfl
      rw [hx y hys, if_neg hyd]
    · intro y hy'
      simp only [List.mem_append, List.mem_singleton] at hy'
      have hys : y ≠ s := by rintro rfl; rcases hy' with h | h; exact hsV h; exact hsd h
      have hyc : y ≠ c := by rintro rfl; rcases hy' with h | h; exact hcV h; exact hcd h
      rw [hy y hys, if_neg hyc]
    · rw [hx d (fun h => hsd h.symm), if_pos rfl]
    · rw [hy c hsc.symm, if_pos rfl]

theorem usedL_head {nd : Nat → EventNode} {hd : Nat} {l : List Nat} (h : UsedL nd hd l) : hd = l.headD noNode := by
  cases l with
  | nil => exact h
  | cons u U => exact h.1

/-- Deleting a slot in use returns its event, removes exactly that entry and makes the slot free. -/
theorem deleteSlot_spec {h : EventHeap} {A B : List (Nat × Event)} {s : Nat} {e : Event}
    (hr : HeapRep h (A ++ (s, e) :: B)) :
    ∃ h', h.deleteSlot s = .ok (e, h') ∧ HeapRep h' (A ++ B) ∧ h'.seqNum = h.seqNum := by
  obtain ⟨fr, hr⟩ := hr
  obtain ⟨nodup, lt, len, count, used, free, ev⟩ := hr
  have hslt : s < maxNumEvents := lt s (by simp)
  have hes : (h.nodes s).event = e := ev (s, e) (by simp)
  simp only [List.map_append, List.map_cons] at nodup lt used
  have hrot := used.rot
  have hnd : (s :: (B.map (·.1) ++ A.map (·.1))).Nodup := by
    have h1 := (List.nodup_append.mp nodup).1
    have h2 : (A.map (·.1) ++ s :: B.map (·.1)).Perm (s :: (B.map (·.1) ++ A.map (·.1))) := by
      refine (List.perm_append_comm).trans ?_
      simp
    exact h2.nodup_iff.mp h1
  have hcp : h.count = A.length + B.length + 1 := by rw [count]; simp; omega
  have hne : h.isEmpty = false := by unfold EventHeap.isEmpty; exact decide_eq_false (by omega)
  have hdis := (List.nodup_append.mp nodup).2.2
  have hsfr : s ∉ fr := fun hm => hdis s (by simp) s hm rfl
  have hfrn : fr.Nodup := (List.nodup_append.mp nodup).2.1
  -- common facts on the new bookkeeping
  have hnd' : ((A ++ B).map (·.1) ++ s :: fr).Nodup := by
    have h2 : (A.map (·.1) ++ s :: B.map (·.1) ++ fr).Perm ((A ++ B).map (·.1) ++ s :: fr) := by
      rw [List.map_append, List.append_assoc, List.append_assoc, List.cons_append]
      refine List.Perm.append_left _ ?_
      exact List.perm_middle.symm
    exact h2.nodup_iff.mp nodup
  have hlt' : ∀ y ∈ (A ++ B).map (·.1) ++ s :: fr, y < maxNumEvents := by
    intro y hy
    apply lt
    simp only [List.map_append, List.mem_append, List.mem_cons] at hy ⊢
    tauto
  have hlen' : (A ++ B).length + (s :: fr).length = maxNumEvents := by
    simp only [List.length_append, List.length_cons] at *; omega
  have hfree' : ∀ nd' : Nat → EventNode, (∀ y ∈ fr, nd' y = h.nodes y) → (nd' s).next = h.freeHead →
      (nd' s).prev = noNode → FreeL nd' s (s :: fr) := by
    intro nd' h1 h2 h3
    refine ⟨rfl, h3, ?_⟩
    rw [h2]
    exact FreeL.congr free (fun y hy => by rw [h1 y hy]; simp)
  rcases hC : B.map (·.1) ++ A.map (·.1) with _ | ⟨c, C⟩
  · -- the only event
    rw [hC] at hrot
    have hA : A = [] := by
      have := (List.append_eq_nil_iff.mp hC).2
      simpa using this
    have hB : B = [] := by
      have := (List.append_eq_nil_iff.mp hC).1
      simpa using this
    subst hA hB
    obtain ⟨hn, hp⟩ := hrot
    have hc1 : h.count = 1 := by simpa using hcp
    have hfr : (h.nodes s).isFree = false := by
      unfold EventNode.isFree; rw [hp]; exact decide_eq_false (by unfold maxNumEvents at hslt; unfold noNode; omega)
    unfold EventHeap.deleteSlot
    rw [if_neg (by simp only [hne, hfr, Bool.false_eq_true, or_false]; omega)]
    simp only [hp, hn, heap_get_ok hslt, ok_bind, EventHeap.set]
    simp only [hc1, if_true]
    rw [show assertR (1 ≥ 1) = .ok () from req_true (by omega),
      show assertR (s < 65536) = .ok () from req_true (by unfold maxNumEvents at hslt; omega)]
    simp only [ok_bind, hes]
    refine ⟨_, rfl, ⟨s :: fr, hnd', hlt', hlen', ?_, ?_, ?_, ?_⟩, rfl⟩
    · simp
    · simp [UsedL]
    · refine hfree' _ ?_ ?_ ?_
      · intro y hy
        have : y ≠ s := fun h => hsfr (h ▸ hy)
        simp [this]
      · simp
      · simp
    · simp
  · rw [hC] at hrot hnd
    obtain ⟨hn, d, hdm, hp, hupd⟩ := hrot.unlink hnd
    have hmem : ∀ y ∈ c :: C, y ∈ A.map (·.1) ++ s :: B.map (·.1) ∧ y ≠ s := by
      intro y hy
      refine ⟨?_, ?_⟩
      · rw [← hC] at hy; simp only [List.mem_append, List.mem_cons] at hy ⊢; tauto
      · rintro rfl; exact (List.nodup_cons.mp hnd).1 hy
    have hclt : c < maxNumEvents := lt c (List.mem_append_left _ (hmem c (by simp)).1)
    have hdlt : d < maxNumEvents := lt d (List.mem_append_left _ (hmem d hdm).1)
    have hcs := (hmem c (by simp)).2
    have hds := (hmem d hdm).2
    have hcount : h.count ≠ 1 := by
      have h1 := congrArg List.length hC
      simp at h1; omega
    have hfr : (h.nodes s).isFree = false := by
      unfold EventNode.isFree; rw [hp]; exact decide_eq_false (by unfold maxNumEvents at hdlt; unfold noNode; omega)
    unfold EventHeap.deleteSlot
    rw [if_neg (by simp only [hne, hfr, Bool.false_eq_true, or_false]; omega)]
    simp only [hp, hn, heap_get_ok hdlt, heap_get_ok hclt, ok_bind, EventHeap.set]
    simp only [hcount, if_false]
    rw [show assertR (h.count ≥ 1) = .ok () from req_true (by omega),
      show assertR (s < 65536) = .ok () from req_true (by unfold maxNumEvents at hslt; omega)]
    simp only [ok_bind, hcs.symm, hds.symm, if_false, hes]
    refine ⟨_, rfl, ⟨s :: fr, hnd', hlt', hlen', ?_, ?_, ?_, ?_⟩, rfl⟩
    · simp only [List.length_append]; omega
    · have hP := hupd (fun k => if k = s then { next := h.freeHead, prev := noNode, event := e }
          else if k = c then { (if c = d then { h.nodes d with next := c } else h.nodes c) with prev := d }
          else if k = d then { h.nodes d with next := c } else h.nodes k) ?_ ?_
      · have hU := UsedL.of_rot hC hP
        rw [← List.map_append] at hU
        convert hU using 1
        have hhd := usedL_head used
        rw [List.map_append]
        cases A with
        | nil =>
          simp at hhd hC
          simp [hhd, hC]
        | cons a A =>
          simp at hhd
          have : a.1 ≠ s := by
            rintro h'
            have := (List.nodup_append.mp nodup).1
            simp [h'] at this
          simp [hhd, this]
      · intro y hy
        by_cases h1 : y = c
        · by_cases h2 : c = d
          · simp [h1, h2, hds]
          · simp [h1, h2, hcs]
        · by_cases h2 : y = d
          · have h4 : d ≠ c := fun h => h1 (h2.trans h)
            simp [h2, h4, hds]
          · simp [h1, h2, hy]
      · intro y hy
        by_cases h1 : y = c
        · simp [h1, hcs]
        · by_cases h2 : y = d
          · have h4 : d ≠ c := fun h => h1 (h2.trans h)
            simp [h2, h4, hds]
          · simp [h1, h2, hy]
    · refine hfree' _ ?_ ?_ ?_
      · intro y hy
        have h1 : y ≠ s := fun h => hsfr (h ▸ hy)
        have h2 : y ≠ c := by rintro rfl; exact hdis y (hmem y (by simp)).1 y hy rfl
        have h3 : y ≠ d := by rintro rfl; exact hdis y (hmem y hdm).1 y hy rfl
        simp [h1, h2, h3]
      · simp
      · simp
    · intro x hx
      have hx0 : x ∈ A ++ (s, e) :: B := by simp only [List.mem_append, List.mem_cons] at hx ⊢; tauto
      have h1 : x.1 ≠ s := by
        intro h
        have := (List.nodup_append.mp hnd').2.2 x.1 (List.mem_map_of_mem hx) s (by simp)
        exact this h
      have := ev x hx0
      by_cases h2 : x.1 = c
      · by_cases h3 : c = d
        · subst h3; simp [h2, hcs]; rw [← h2]; exact this
        · simp [h2, hcs, h3]; rw [← h2]; exact this
      · by_cases h3 : x.1 = d
        · have h4 : d ≠ c := fun h => h2 (h3.trans h)
          simp [h3, hds, h4]; rw [← h3]; exact this
        · simp [h1, h2, h3]; exact this

/-! ### observers -/

theorem nodup_complete {l : List Nat} (hn : l.Nodup) (hlt : ∀ x ∈ l, x < n) (hlen : n ≤ l.length) (hs : s < n) : s ∈ l := by
  have h1 : l ⊆ List.range n := fun x hx => by simpa using hlt x hx
  have h2 : l.Subperm (List.range n) := hn.subperm h1
  have h3 := h2.perm_of_length_le (by simpa using hlen)
  exact h3.mem_iff.mpr (by simpa using hs)

theorem FreeL.prev {nd : Nat → EventNode} {f : Nat} {l : List Nat} (h : FreeL nd f l) : ∀ y ∈ l, (nd y).prev = noNode := by
  induction l generalizing f with
  | nil => simp
  | cons x l ih =>
    intro y hy
    rcases List.mem_cons.mp hy with rfl | hy
    · exact h.2.1
    · exact ih h.2.2 y hy

theorem used_prev_lt {h : EventHeap} {q : List (Nat × Event)} {fr : List Nat} (hr : HeapRepF h q fr) {s : Nat}
    (hs : s ∈ q.map (·.1)) : (h.nodes s).prev < maxNumEvents := by
  obtain ⟨A, B, hAB⟩ := List.append_of_mem hs
  have hu := hr.used
  rw [hAB] at hu
  have hp := hu.rot
  have hlt : ∀ y ∈ A ++ s :: B, y < maxNumEvents := by
    intro y hy; exact hr.lt y (List.mem_append_left _ (hAB ▸ hy))
  rcases append_singleton_cases (B ++ A) with h0 | ⟨V, d, h0⟩
  · rw [h0] at hp; rw [hp.2]; exact hlt s (by simp)
  · rw [h0, Path.append] at hp
    rw [hp.2.2]
    apply hlt
    have : d ∈ B ++ A := by rw [h0]; simp
    simp only [List.mem_append, List.mem_cons] at this ⊢; tauto

theorem isFree_iff {h : EventHeap} {q : List (Nat × Event)} (hr : HeapRep h q) {s : Nat} (hs : s < maxNumEvents) :
    (h.nodes s).isFree = true ↔ s ∉ q.map (·.1) := by
  obtain ⟨fr, hr⟩ := hr
  constructor
  · intro hf hm
    have := used_prev_lt hr hm
    unfold EventNode.isFree at hf
    simp at hf; rw [hf] at this; unfold noNode maxNumEvents at this; omega
  · intro hm
    have hmem : s ∈ q.map (·.1) ++ fr :=
      nodup_complete hr.nodup hr.lt (by have := hr.len; simp only [List.length_append, List.length_map]; omega) hs
    rcases List.mem_append.mp hmem with h1 | h1
    · exact absurd h1 hm
    · unfold EventNode.isFree; simp [hr.free.prev s h1]

theorem atSlot_some {h : EventHeap} {q : List (Nat × Event)} (hr : HeapRep h q) {s : Nat} {e : Event} :
    h.atSlot s = some e ↔ (s, e) ∈ q := by
  have hr' := hr
  obtain ⟨fr, hr'⟩ := hr'
  unfold EventHeap.atSlot
  constructor
  · intro hx
    split at hx
    · cases hx
    · rename_i hc
      simp only [not_or, Bool.not_eq_true] at hc
      have hs : s < maxNumEvents := by omega
      have : s ∈ q.map (·.1) := by
        by_contra hm
        have := (isFree_iff hr hs).mpr hm
        rw [this] at hc; exact absurd hc.2 (by simp)
      obtain ⟨x, hxq, hxs⟩ := List.mem_map.mp this
      have := hr'.ev x hxq
      rw [hxs] at this
      simp only [Option.some.injEq] at hx
      rw [← hx, ← hxs, hr'.ev x hxq]; exact hxq
  · intro hm
    have hm' : s ∈ q.map (·.1) := List.mem_map_of_mem (f := (·.1)) hm
    have hs : s < maxNumEvents := hr'.lt s (List.mem_append_left _ hm')
    have hf : (h.nodes s).isFree = false := by
      by_contra hc
      exact (isFree_iff hr hs).mp (by simpa using hc) hm'
    rw [if_neg (by simp only [hf, Bool.false_eq_true, or_false]; omega)]
    exact congrArg some (hr'.ev _ hm)

theorem atSlot_none {h : EventHeap} {q : List (Nat × Event)} (hr : HeapRep h q) {s : Nat} :
    h.atSlot s = none ↔ s ∉ q.map (·.1) := by
  constructor
  · intro hn hm
    obtain ⟨x, hxq, hxs⟩ := List.mem_map.mp hm
    have := (atSlot_some hr (s := s) (e := x.2)).mpr (by rw [← hxs]; exact hxq)
    rw [hn] at this; cases this
  · intro hm
    cases hx : h.atSlot s with
    | none => rfl
    | some e =>
      exact absurd (List.mem_map_of_mem (f := (·.1)) ((atSlot_some hr).mp hx)) hm

theorem deleteSlot_fail {h : EventHeap} {q : List (Nat × Event)} (hr : HeapRep h q) {s : Nat} (hs : s ∉ q.map (·.1)) :
    h.deleteSlot s = .error .someError := by
  unfold EventHeap.deleteSlot
  by_cases hlt : s < maxNumEvents
  · rw [if_pos (.inr (.inr ((isFree_iff hr hlt).mpr hs)))]
  · rw [if_pos (.inl (by omega))]

theorem iterFrom_path {h : EventHeap} {a b : Nat} {l : List Nat} (hp : Path h.nodes a l b)
    (hlt : ∀ y ∈ a :: l, y < maxNumEvents) : h.iterFrom (l.length + 1) a = .ok (a :: l) := by
  induction l generalizing a with
  | nil =>
    simp only [EventHeap.iterFrom, heap_get_ok (hlt a (by simp)), ok_bind]; rfl
  | cons x l ih =>
    have := ih hp.2.2 (fun y hy => hlt y (List.mem_cons_of_mem _ hy))
    rw [List.length_cons, EventHeap.iterFrom, heap_get_ok (hlt a (by simp)), ok_bind, hp.1, this]
    rfl

theorem iterSlots_spec {h : EventHeap} {q : List (Nat × Event)} (hr : HeapRep h q) :
    h.iterSlots = .ok (q.map (·.1)) := by
  obtain ⟨fr, hr⟩ := hr
  have hu := hr.used
  unfold EventHeap.iterSlots
  rw [hr.count]
  cases q with
  | nil => rfl
  | cons x q =>
    obtain ⟨h1, h2⟩ := hu
    rw [h1]
    have := iterFrom_path h2 (fun y hy => hr.lt y (List.mem_append_left _ hy))
    simpa using this

theorem front_spec {h : EventHeap} {q : List (Nat × Event)} (hr : HeapRep h q) :
    h.front = .ok (q.head?.map (·.2)) := by
  obtain ⟨fr, hr⟩ := hr
  have hu := hr.used
  unfold EventHeap.front EventHeap.isEmpty
  rw [hr.count]
  cases q with
  | nil => rfl
  | cons x q =>
    obtain ⟨h1, h2⟩ := hu
    have hlt := hr.lt x.1 (by simp)
    simp only [List.length_cons, Nat.add_eq_zero_iff, Nat.succ_ne_self, and_false, decide_false, Bool.false_eq_true, if_false,
      h1, heap_get_ok hlt, ok_bind]
    rw [hr.ev x (by simp)]
    rfl

theorem popFront_spec {h : EventHeap} {q : List (Nat × Event)} {s : Nat} {e : Event} (hr : HeapRep h ((s, e) :: q)) :
    ∃ h', h.popFront = .ok (e, h') ∧ HeapRep h' q ∧ h'.seqNum = h.seqNum := by
  have hu : h.usedHead = s := by obtain ⟨fr, hr⟩ := hr; exact hr.used.1
  unfold EventHeap.popFront
  rw [hu]
  exact deleteSlot_spec (A := []) hr

theorem popFront_empty {h : EventHeap} (hr : HeapRep h []) : h.popFront = .error .someError :=
  deleteSlot_fail hr (by simp)

theorem HeapRep.nodup {h : EventHeap} {q : List (Nat × Event)} (hr : HeapRep h q) : (q.map (·.1)).Nodup := by
  obtain ⟨fr, hr⟩ := hr; exact (List.nodup_append.mp hr.nodup).1

theorem HeapRep.count {h : EventHeap} {q : List (Nat × Event)} (hr : HeapRep h q) : h.count = q.length := by
  obtain ⟨fr, hr⟩ := hr; exact hr.count

theorem HeapRep.length_le {h : EventHeap} {q : List (Nat × Event)} (hr : HeapRep h q) : q.length ≤ maxNumEvents := by
  obtain ⟨fr, hr⟩ := hr; have := hr.len; omega

/-- Inversion: a successful push appended the event. -/
theorem pushBack_inv {h h' : EventHeap} {q : List (Nat × Event)} (hr : HeapRep h q) {e : Event} (hp : h.pushBack e = .ok h') :
    ∃ s, s ∉ q.map (·.1) ∧ HeapRep h' (q ++ [(s, e)]) ∧ h'.seqNum = h.seqNum + 1 := by
  by_cases hl : q.length = maxNumEvents
  · rw [pushBack_full hr e hl] at hp; cases hp
  · by_cases hs : h.seqNum < 18446744073709551615
    · obtain ⟨h2, s, h3, _, h5, h6, h7⟩ := pushBack_spec hr e (by have := hr.length_le; omega) hs
      rw [h3] at hp; cases hp
      exact ⟨s, h5, h6, h7⟩
    · exfalso
      have hseq : ∀ x, h.pushBack e = .ok x → h.seqNum < 18446744073709551615 := by
        intro x hx
        unfold EventHeap.pushBack at hx
        simp only [bind_ok, req_ok, assertR] at hx
        obtain ⟨_, _, _, _, ⟨a, b, c⟩, h2, _, _, _, h4, _⟩ := hx
        split at h2
        · simp only [ok_ok, Prod.mk.injEq] at h2; obtain ⟨_, _, rfl⟩ := h2; exact h4
        · simp only [bind_ok, ok_ok, Prod.mk.injEq] at h2
          obtain ⟨_, _, _, _, _, _, _, _, rfl⟩ := h2
          exact h4
      exact hs (hseq _ hp)

end OB
