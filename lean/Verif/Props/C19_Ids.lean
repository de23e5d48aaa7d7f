import Verif.Spec.Ids
import Verif.Props.C44_Orders
import Verif.Proofs.Live
import Verif.Props.Scenario
/-!
C19 — Order ids are unique and never reused.
-/
namespace OB
open Spec

theorem Spec.IdHistory.reachable {s : State} {ids : List (Side × Nat)} (h : IdHistory s ids) : Reachable s := by
  induction h with
  | init a now t l s h => exact .init a now t l s h
  | again s s' a now hs h => exact .again s s' a now hs h
  | other s s' op ids hs h hp ih => exact .step s s' op ih h
  | placing s s' op ids hs h p hp s1 cs g1 hP ih => exact .step s s' op ih h

/-- Every reachable state has a history. -/
theorem reachable_ids {s : State} (h : Reachable s) : ∃ ids, IdHistory s ids := by
  induction h with
  | init a now t l s h => exact ⟨[], .init a now t l s h⟩
  | again s s' a now hs h ih => exact ⟨[], .again s s' a now hs h⟩
  | step s s' op hr h ih =>
    obtain ⟨ids, hi⟩ := ih
    cases hp : placer op with
    | none => exact ⟨ids, .other s s' op ids hi h hp⟩
    | some p =>
      obtain ⟨s1, cs, g1, hP⟩ := placement_full hr h hp
      exact ⟨_, .placing s s' op ids hi h p hp s1 cs g1 hP⟩

/-- The ids posted by calls carry increasing sequence numbers. -/
theorem calls_ids {book book' : Book} {g g' : Ledger} {cs : List (Env × OrderResult)} (h : Calls book g cs book' g') :
    (postedIds cs).Pairwise (fun x y => seqOf x.1 x.2 < seqOf y.1 y.2) ∧
    ∀ x ∈ postedIds cs, g.market.seqNum < seqOf x.1 x.2 ∧ seqOf x.1 x.2 ≤ g'.market.seqNum := by
  induction h with
  | nil book g => exact ⟨.nil, fun _ h => nomatch h⟩
  | cons env r cs book book1 book' g g1 g' h hs ih =>
    obtain ⟨C⟩ := callRun h
    have hq := C.seq_next
    have hle := (calls_origin hs).1
    cases hid : r.orderId with
    | none =>
      have e : postedIds ((env, r) :: cs) = postedIds cs := by
        unfold postedIds; rw [List.filterMap_cons_none (by rw [hid]; rfl)]
      rw [e]
      exact ⟨ih.1, fun x hx => by have := ih.2 x hx; omega⟩
    | some id =>
      have e : postedIds ((env, r) :: cs) = (env.order.side, id) :: postedIds cs := by
        unfold postedIds; rw [List.filterMap_cons_some (by rw [hid]; rfl)]
      have hsq : seqOf env.order.side id = g1.market.seqNum := by
        obtain ⟨_, _, rfl⟩ := C.target_some hid
        have hlt := C.R.seq
        rw [seqOf_newKey (by unfold two64; omega), hq]
      rw [e]
      refine ⟨.cons (fun x hx => ?_) ih.1, fun x hx => ?_⟩
      · have := (ih.2 x hx).1
        simp only; omega
      · rcases List.mem_cons.mp hx with rfl | hx
        · simp only; omega
        · have := ih.2 x hx; omega

theorem ids_inv {s : State} {ids : List (Side × Nat)} (h : IdHistory s ids) :
    ids.Pairwise (fun x y => seqOf x.1 x.2 < seqOf y.1 y.2) ∧ ∀ x ∈ ids, seqOf x.1 x.2 ≤ s.g.market.seqNum := by
  induction h with
  | init a now t l s h => exact ⟨.nil, fun _ h => nomatch h⟩
  | again s s' a now hs h => exact ⟨.nil, fun _ h => nomatch h⟩
  | other s s' op ids hs h hp ih =>
    rw [(step_other hs.reachable h hp).seq]; exact ih
  | placing s s' op ids hs h p hp s1 cs g1 hP ih =>
    have hsq : s1.g.market.seqNum = s.g.market.seqNum := by
      rcases hP.first hs.reachable with e | ⟨_, _, _, ls, hc⟩
      · rw [e]
      · rw [hc.market]
    obtain ⟨c1, c2⟩ := calls_ids hP.calls
    have hle := (calls_origin hP.calls).1
    rw [hP.seq]
    refine ⟨List.pairwise_append.mpr ⟨ih.1, c1, fun x hx y hy => ?_⟩, fun x hx => ?_⟩
    · have := ih.2 x hx
      have := c2 y hy
      omega
    · rcases List.mem_append.mp hx with hx | hx
      · have := ih.2 x hx; omega
      · exact (c2 x hx).2

/-- Over the whole history of a market, no two orders of the same side ever get the same id. -/
theorem C19_unique_per_side (s : State) (ids : List (Side × Nat)) (h : IdHistory s ids) : ids.Nodup := by
  refine (ids_inv h).1.imp (fun {x y} hlt he => ?_)
  rw [he] at hlt
  omega

/-- Orders of different sides do not get the same id either, as long as less than 2^63 orders were sent to the market.  The full
claim would be without this bound. -/
theorem C19_unique_partial (s : State) (ids : List (Side × Nat)) (h : IdHistory s ids) (hn : s.g.market.seqNum < 2 ^ 63) :
    (ids.map (·.2)).Nodup := by
  obtain ⟨h1, h2⟩ := ids_inv h
  rw [List.Nodup, List.pairwise_map]
  refine h1.imp_of_mem (fun {x y} hx hy hlt => ?_)
  have bx := h2 x hx
  have by_ := h2 y hy
  obtain ⟨sx, ix⟩ := x
  obtain ⟨sy, iy⟩ := y
  simp only at *
  cases sx <;> cases sy
  · rintro rfl; omega
  · exact seq_sides hn bx by_
  · exact (seq_sides hn by_ bx).symm
  · rintro rfl; omega

/-- Beyond that bound the ids of a bid and an ask can coincide. -/
theorem C19_sides_collide (p : Nat) : newNodeKey .bid p (2 ^ 63 - 1) = newNodeKey .ask p (2 ^ 63) := by
  have e1 : (two64 - 1 - (2 ^ 63 - 1) : Nat) = 2 ^ 63 := by decide
  unfold newNodeKey
  simp only [if_true, reduceCtorEq, if_false, e1]

/-- The sequence number of the market counts the orders sent to it: each call of the matching engine adds one. -/
theorem C19_counts {book book' : Book} {g g' : Ledger} {cs : List (Env × OrderResult)} (h : Calls book g cs book' g') :
    g'.market.seqNum = g.market.seqNum + cs.length := by
  induction h with
  | nil book g => rfl
  | cons env r cs book book1 book' g g1 g' h hs ih =>
    obtain ⟨C⟩ := callRun h
    have := C.seq_next
    rw [List.length_cons]; omega

/-- The history contains every order: each resting order has one of the ids. -/
theorem C19_resting (s : State) (ids : List (Side × Nat)) (h : IdHistory s ids) (side : Side) (c : Comp) (l : LeafNode)
    (hm : (side, c, l) ∈ s.book.resting) : (side, l.key) ∈ ids := by
  induction h generalizing side c l with
  | init a now t lam s h =>
    obtain ⟨_, rfl⟩ := createMarket_inv h
    have : (Book.resting { bids := BookSide.empty .bid, asks := BookSide.empty .ask }) = [] := by decide +kernel
    simp only [this] at hm
    cases hm
  | again s s' a now hs h =>
    obtain ⟨_, _, _, _, rfl⟩ := recreateMarket_inv h
    have : (Book.resting { bids := BookSide.empty .bid, asks := BookSide.empty .ask }) = [] := by decide +kernel
    simp only [this] at hm
    cases hm
  | other s s' op ids hs h hp ih =>
    rcases (step_other hs.reachable h hp).book with e | ⟨k, ls, hc, _⟩
    · exact ih side c l (by rw [← e]; exact hm)
    · exact ih side c l (hc.sub hm)
  | placing s s' op ids hs h p hp s1 cs g1 hP ih =>
    rcases (calls_origin hP.calls).2 side c l hm with ⟨l1, k1, k2, _⟩ | ⟨⟨x, hx, k1, k2, _⟩, _⟩
    · refine List.mem_append_left _ ?_
      have : (side, c, l1) ∈ s.book.resting := by
        rcases hP.first hs.reachable with e | ⟨_, _, _, ls, hc⟩
        · rw [← e]; exact k1
        · exact hc.sub k1
      rw [show l.key = l1.key by rw [k2]]
      exact ih side c l1 this
    · refine List.mem_append_right _ (List.mem_filterMap.mpr ⟨x, hx, ?_⟩)
      rw [k2, k1]; rfl

/-- Nothing that ever had an id comes back under this id: an id that was given out and does not rest any more never rests again. -/
theorem C19_never_reused (s s' : State) (op : Op) (hr : Reachable s) (h : step s op = .ok s') (side : Side) (id : Nat)
    (hold : ∃ ids, IdHistory s ids ∧ (side, id) ∈ ids) (hgone : ∀ c l, (side, c, l) ∈ s.book.resting → l.key ≠ id) :
    ∀ c l, (side, c, l) ∈ s'.book.resting → l.key ≠ id := by
  obtain ⟨ids, hh, hid⟩ := hold
  have hle := (ids_inv hh).2 _ hid
  simp only at hle
  intro c l hm he
  cases hp : placer op with
  | none =>
    rcases (step_other hr h hp).book with e | ⟨k, ls, hc, _⟩
    · exact hgone c l (by rw [← e]; exact hm) he
    · exact hgone c l (hc.sub hm) he
  | some p =>
    obtain ⟨s1, cs, g1, hP⟩ := placement_full hr h hp
    have hsq : s1.g.market.seqNum = s.g.market.seqNum := by
      rcases hP.first hr with e | ⟨_, _, _, ls, hc⟩
      · rw [e]
      · rw [hc.market]
    rcases (calls_origin hP.calls).2 side c l hm with ⟨l1, k1, k2, _⟩ | ⟨_, k1, _⟩
    · have : (side, c, l1) ∈ s.book.resting := by
        rcases hP.first hr with e | ⟨_, _, _, ls, hc⟩
        · rw [← e]; exact k1
        · exact hc.sub k1
      exact hgone c l1 this (by rw [← he, k2])
    · rw [he] at k1; omega

/-! A history with orders of both sides and kinds, some of which have left the book again. -/
open Scenario in
example : ∃ (s : State) (ids : List (Side × Nat)), IdHistory s ids ∧ s.g.market.seqNum < 2 ^ 63 ∧ s.book.resting.length = 4 ∧
    s.g.market.seqNum = 6 := by
  obtain ⟨s, h1, h2⟩ := exec_spec (a := args) (ops := ops1) (p := fun s => decide (s.g.market.seqNum < 2 ^ 63 ∧
    s.book.resting.length = 4 ∧ s.g.market.seqNum = 6)) (by decide +kernel)
  obtain ⟨ids, h⟩ := reachable_ids h1
  rw [decide_eq_true_eq] at h2
  exact ⟨s, ids, h, h2⟩

end OB
