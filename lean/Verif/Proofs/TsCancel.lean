import Verif.Spec.TsCancel
import Verif.Props.C19_Ids
import Verif.Props.C44_Orders
import Verif.Props.C73_Exact
/-! Orders seen earlier, and their ids. -/
namespace OB
open Spec

theorem Spec.Since.reachable {s s' : State} (hr : Reachable s) (h : Since s s') : Reachable s' := by
  induction h with
  | now => exact hr
  | step s1 s2 op _ h ih => exact .step _ _ _ ih h

theorem ids_extend {s s' : State} {op : Op} {ids : List (Side × Nat)} (h : IdHistory s ids) (hs : step s op = .ok s') :
    ∃ ids', IdHistory s' ids' ∧ ∀ x ∈ ids, x ∈ ids' := by
  cases hp : placer op with
  | none => exact ⟨ids, .other s s' op ids h hs hp, fun _ h => h⟩
  | some p =>
    obtain ⟨s1, cs, g1, hP⟩ := placement_full h.reachable hs hp
    exact ⟨_, .placing s s' op ids h hs p hp s1 cs g1 hP, fun x hx => List.mem_append_left _ hx⟩

theorem since_ids {s s' : State} {ids : List (Side × Nat)} (h : IdHistory s ids) (hs : Since s s') :
    ∃ ids', IdHistory s' ids' ∧ ∀ x ∈ ids, x ∈ ids' := by
  induction hs with
  | now => exact ⟨ids, h, fun _ h => h⟩
  | step s1 s2 op _ h1 ih =>
    obtain ⟨i1, a1, a2⟩ := ih
    obtain ⟨i2, b1, b2⟩ := ids_extend a1 h1
    exact ⟨i2, b1, fun x hx => b2 x (a2 x hx)⟩

theorem leftOf_trans {l l' l'' : LeafNode} (h : LeftOf l l') (h' : LeftOf l' l'') : LeftOf l l'' := by
  obtain ⟨a1, a2, a3⟩ := h
  obtain ⟨b1, b2, b3⟩ := h'
  refine ⟨?_, b2, by omega⟩
  rw [b1, a1]

/-- Two orders of the same side with the same id are the same. -/
theorem resting_side_id {s : State} (hr : Reachable s) {sd : Side} {c c' : Comp} {l l' : LeafNode} (h : (sd, c, l) ∈ s.book.resting)
    (h' : (sd, c', l') ∈ s.book.resting) (hk : l'.key = l.key) : c' = c ∧ l' = l := by
  obtain ⟨O, q, hw⟩ := (reachable_Inv hr).core.linv
  obtain ⟨oo, ho⟩ := hw.mem_rest h
  obtain ⟨oo', ho'⟩ := hw.mem_rest h'
  have e1 := (hw.ginv.ok _ ho).oside rfl
  have e2 := (hw.ginv.ok _ ho').oside rfl
  have e3 := ((hw.ginv.ok _ ho).rest _ _ _ _ rfl).id
  have e4 := ((hw.ginv.ok _ ho').rest _ _ _ _ rfl).id
  have := List.inj_on_of_nodup_map hw.ginv.ids (List.mem_filter.mpr ⟨ho', rfl⟩) (List.mem_filter.mpr ⟨ho, rfl⟩)
    (Prod.ext (e2.trans e1.symm) (e4.trans (hk.trans e3.symm)))
  injection this with _ h1 h2 _
  exact ⟨h1, h2⟩

/-- An order on the book with the id of an earlier order of the same side is what is left of that order. -/
theorem since_left {s s' : State} (hr : Reachable s) (hs : Since s s') {sd : Side} {c : Comp} {l : LeafNode} (hl : (sd, c, l) ∈ s.book.resting)
    {c' : Comp} {l' : LeafNode} (hl' : (sd, c', l') ∈ s'.book.resting) (hk : l'.key = l.key) : c' = c ∧ LeftOf l l' := by
  obtain ⟨ids, hids⟩ := reachable_ids hr
  have hmem := C19_resting s ids hids sd c l hl
  induction hs generalizing c' l' with
  | now =>
    obtain ⟨rfl, rfl⟩ := resting_side_id hr hl hl' hk
    obtain ⟨_, _, hq, _⟩ := resting_ok (reachable_Inv hr).core hl
    exact ⟨rfl, rfl, hq, by omega⟩
  | step s1 s2 op hs1 h ih =>
    have hr1 := hs1.reachable hr
    rcases C44_added hr1 h hl' with ⟨l1, h1, h2, h3, h4⟩ | ⟨_, _, _, _, _, hnew, _⟩
    · obtain ⟨e, hL⟩ := ih h1 (by rw [← hk, h2])
      exact ⟨e, leftOf_trans hL ⟨h2, h3, h4⟩⟩
    · exfalso
      obtain ⟨i1, a1, a2⟩ := since_ids hids hs1
      exact C19_never_reused s1 s2 op hr1 h sd l.key ⟨i1, a1, a2 _ hmem⟩ (fun c l1 hm he => hnew c l1 hm (he.trans hk.symm)) c' l' hl' hk

/-- The same for orders of any side, as long as less than 2^63 orders were sent to the market. -/
theorem since_order {s s' : State} (hr : Reachable s) (hs : Since s s') (hn : s'.g.market.seqNum < 2 ^ 63) {sd : Side} {c : Comp} {l : LeafNode}
    (hl : (sd, c, l) ∈ s.book.resting) {x : Side × Comp × LeafNode} (hx : x ∈ s'.book.resting) (hk : x.2.2.key = l.key) :
    x.1 = sd ∧ x.2.1 = c ∧ LeftOf l x.2.2 := by
  obtain ⟨sd', c', l'⟩ := x
  simp only at hk
  obtain ⟨ids, hids⟩ := reachable_ids hr
  obtain ⟨i1, a1, a2⟩ := since_ids hids hs
  have m1 := a2 _ (C19_resting s ids hids sd c l hl)
  have m2 := C19_resting s' i1 a1 sd' c' l' hx
  have hnd := C19_unique_partial s' i1 a1 hn
  have he : (sd', l'.key) = (sd, l.key) := List.inj_on_of_nodup_map hnd m2 m1 hk
  injection he with he _
  subst he
  obtain ⟨e, hL⟩ := since_left hr hs hl hx hk
  exact ⟨rfl, e, hL⟩

/-- Two resting orders with the same content are the same. -/
theorem resting_leaf {s : State} (hr : Reachable s) {sd sd' : Side} {c c' : Comp} {l : LeafNode} (h : (sd, c, l) ∈ s.book.resting)
    (h' : (sd', c', l) ∈ s.book.resting) : sd = sd' ∧ c = c' := by
  obtain ⟨a, oo, r⟩ := rest_slot (reachable_Inv hr) h
  obtain ⟨a', oo', r'⟩ := rest_slot (reachable_Inv hr) h'
  have e1 := r.acct.symm.trans r'.acct
  injection e1 with e1
  subst e1
  have e2 := r.slot.symm.trans r'.slot
  injection e2 with e2
  subst e2
  exact ⟨r.side.symm.trans r'.side, r.comp.symm.trans r'.comp⟩

theorem cancels_leaves {s s' : State} (hr : Reachable s) {k : Pubkey} {x : Side × Comp × LeafNode} (h : Cancels s s' k [x]) (l : LeafNode) :
    (∃ sd c, (sd, c, l) ∈ ordersOf s' k) ↔ (∃ sd c, (sd, c, l) ∈ ordersOf s k) ∧ l ≠ x.2.2 := by
  have hb : s.book.resting.Perm (x :: s'.book.resting) := h.book
  have hnd : s.book.resting.Nodup := List.Nodup.of_map _ (resting_ids (reachable_Inv hr).core.bookOk)
  have hnx : x ∉ s'.book.resting := (List.nodup_cons.mp (hb.nodup_iff.mp hnd)).1
  have hxm : x ∈ s.book.resting := hb.mem_iff.mpr (by simp)
  simp only [ordersOf, List.mem_filter, decide_eq_true_eq]
  constructor
  · rintro ⟨sd, c, hm, ho⟩
    have hms := hb.mem_iff.mpr (List.mem_cons_of_mem _ hm)
    refine ⟨⟨sd, c, hms, ho⟩, ?_⟩
    rintro rfl
    obtain ⟨e1, e2⟩ := resting_leaf hr hms hxm
    exact hnx (by rw [e1, e2] at hm; exact hm)
  · rintro ⟨⟨sd, c, hm, ho⟩, hne⟩
    rcases List.mem_cons.mp (hb.mem_iff.mp hm) with e | e
    · subst e; exact absurd rfl hne
    · exact ⟨sd, c, e, ho⟩

end OB
