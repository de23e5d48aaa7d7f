import Verif.Spec.Crank
import Verif.Proofs.Exit
/-!
Runs of consuming instructions deliver a set of queued events; the order does not matter.
-/
namespace OB
open Spec

theorem total_append (xs ys : List Event) (f : Event → Int) : total (xs ++ ys) f = total xs f + total ys f := by simp [total]

theorem deliver_total_perm {xs ys : List Event} (h : xs.Perm ys) (f : Event → Int) : total xs f = total ys f := by
  induction h with
  | nil => rfl
  | cons x _ ih => rw [total_cons, total_cons, ih]
  | swap x y l => rw [total_cons, total_cons, total_cons, total_cons]; omega
  | trans _ _ i1 i2 => exact i1.trans i2

theorem Spec.Credited.append {m : Market} {k : Pubkey} {xs ys : List Event} {a a1 a' : OOA} (h1 : Credited m k xs a a1)
    (h2 : Credited m k ys a1 a') (hl : ∀ x ∈ ys, eventLockedAt a1 x = eventLockedAt a x) : Credited m k (xs ++ ys) a a' := by
  have c2 : total ys (creditQuote m a1) = total ys (creditQuote m a) := total_congr (fun x hx => by
    cases x <;> simp [creditQuote, hl _ hx])
  have c3 : total ys (releasedFee m a1) = total ys (releasedFee m a) := total_congr (fun x hx => by
    cases x <;> simp [releasedFee, hl _ hx])
  have c4 : total ys (fun e => if eventSide e = .bid then eventQuantity e * eventLockedAt a1 e else 0) =
      total ys (fun e => if eventSide e = .bid then eventQuantity e * eventLockedAt a e else 0) := total_congr (fun x hx => by
    simp only [hl _ hx])
  obtain ⟨f1, f2, f3, f4, f5, f6, f7, f8, f9, f10, f11, f12, f13⟩ := h1
  obtain ⟨g1, g2, g3, g4, g5, g6, g7, g8, g9, g10, g11, g12, g13⟩ := h2
  refine ⟨g1.trans f1, g2.trans f2, ?_, ?_, ?_, ?_, ?_, ?_, ?_, g10.trans f10, ?_, g12.trans f12, ?_⟩
  · rw [total_append, g3, f3]; omega
  · rw [total_append, g4, f4, c2]; omega
  · rw [total_append, g5, f5]; omega
  · rw [total_append, g6, f6]; omega
  · rw [total_append, g7, f7, c4]; omega
  · rw [total_append, g8, f8, c3]; omega
  · rw [total_append, g9, f9]; omega
  · rw [total_append, g11, f11]; omega
  · intro i
    rw [g13, f13, Option.map_map]
    congr 1
    funext oo
    simp only [Function.comp, List.any_append]
    by_cases x1 : xs.any (frees k i) = true <;> by_cases x2 : ys.any (frees k i) = true <;>
      simp only [x1, x2, Bool.or_true, Bool.true_or, Bool.or_self, if_true, if_false, Bool.false_eq_true]

/-- Deliveries compose, as long as the later events are still queued in between. -/
theorem Spec.Delivered.append {s s1 s' : State} {xs ys : List Event} (hi1 : Inv s1) (h1 : Delivered s s1 xs) (h2 : Delivered s1 s' ys)
    (hys : ∀ e ∈ ys, e ∈ s1.g.heap.events) : Delivered s s' (xs ++ ys) := by
  have c4 : eventRebate s1.g.market = eventRebate s.g.market := by
    rw [h1.market]; funext e; cases e <;> rfl
  have c5 : eventVolume s1.g.market = eventVolume s.g.market := by
    rw [h1.market]; funext e; cases e <;> rfl
  refine ⟨h2.keys.trans h1.keys, ?_, ?_, ?_, h2.book.trans h1.book, h2.tokens.trans h1.tokens, h2.lamports.trans h1.lamports,
    h2.closed.trans h1.closed⟩
  · intro k a ha
    obtain ⟨a1, ha1, k1⟩ := h1.accts k a ha
    obtain ⟨a', ha', k2⟩ := h2.accts k a1 ha1
    refine ⟨a', ha', ?_⟩
    rw [List.filter_append]
    refine k1.append (k2.congr (by rw [h1.market]) (by rw [h1.market]) (by rw [h1.market])) (fun x hx => ?_)
    simp only [List.mem_filter, decide_eq_true_eq] at hx
    exact locked_kept hi1 (hys x hx.1) (by rw [hx.2]; exact ha1) k1.slots
  · intro x hx
    rcases List.mem_append.mp hx with hx | hx
    · exact h1.known x hx
    · have := h2.known x hx
      rw [Accts.isSome_get?] at this ⊢
      rw [h1.keys] at this; exact this
  · rw [h2.market, c4, c5, h1.market]
    simp only [total_append]
    congr 1 <;> omega

/-- What a crank delivers are queued events, and these leave the queue. -/
theorem crank_step {s s' : State} {op : Op} (hi : Inv s) (hc : IsCrank op) (h : step s op = .ok s') :
    ∃ es, s.g.heap.events.Perm (es ++ s'.g.heap.events) ∧ s'.g.heap.events.Sublist s.g.heap.events ∧ Delivered s s' es := by
  cases op <;> try exact absurd hc id
  case consumeEvents admin limit rem =>
    obtain ⟨h1, h2⟩ := consumeEvents_front hi h
    refine ⟨_, ?_, ?_, h2⟩
    · rw [h1, ← List.append_assoc]
      conv_lhs => rw [← List.take_append_drop (min limit 8) s.g.heap.events]
      refine List.Perm.append_right _ ?_
      have := (List.filter_append_perm (fun e => decide (eventAccount e ∈ rem)) (s.g.heap.events.take (min limit 8))).symm
      simpa using this
    · rw [h1]
      conv_rhs => rw [← List.take_append_drop (min limit 8) s.g.heap.events]
      exact List.Sublist.append_right List.filter_sublist _
  case consumeGivenEvents admin slots rem =>
    simp only [step, consumeGivenEvents, bind_ok, req_ok] at h
    obtain ⟨_, hall, h⟩ := h
    obtain ⟨sel, h1, h2, h3, h4, h5, h6, h7, h8⟩ := consumeEvents_given hi (fun i hi => by simpa using List.all_eq_true.mp hall i hi) h
    exact ⟨_, h7, h6, h8⟩

theorem crank_run {s s' : State} {ops : List Op} (hr : Reachable s) (hc : ∀ op ∈ ops, IsCrank op) (h : Runs s ops s') :
    ∃ es, s.g.heap.events.Perm (es ++ s'.g.heap.events) ∧ s'.g.heap.events.Sublist s.g.heap.events ∧ Delivered s s' es := by
  induction h with
  | nil => exact ⟨[], List.Perm.refl _, List.Sublist.refl _, Delivered.refl s⟩
  | @snoc s1 s2 ops op h1 h2 ih =>
    obtain ⟨xs, a1, a2, a3⟩ := ih (fun o ho => hc o (List.mem_append_left _ ho))
    have hr1 := h1.reachable hr
    obtain ⟨ys, b1, b2, b3⟩ := crank_step (reachable_Inv hr1) (hc op (by simp)) h2
    refine ⟨xs ++ ys, ?_, b2.trans a2, a3.append (reachable_Inv hr1) b3 (fun e he => b1.mem_iff.mpr (List.mem_append_left _ he))⟩
    rw [List.append_assoc]
    exact a1.trans (b1.append_left _)

theorem Spec.Credited.unique {m : Market} {k : Pubkey} {xs ys : List Event} {a a1 a2 : OOA} (h1 : Credited m k xs a a1)
    (h2 : Credited m k ys a a2) (hp : xs.Perm ys) : a2 = a1 := by
  obtain ⟨f1, f2, f3, f4, f5, f6, f7, f8, f9, f10, f11, f12, f13⟩ := h1
  obtain ⟨g1, g2, g3, g4, g5, g6, g7, g8, g9, g10, g11, g12, g13⟩ := h2
  have hpos : a2.position = a1.position := by
    rcases e1 : a1.position with ⟨⟩
    rcases e2 : a2.position with ⟨⟩
    rw [e1] at f3 f4 f5 f6 f7 f8 f9 f10 f11 f12
    rw [e2] at g3 g4 g5 g6 g7 g8 g9 g10 g11 g12
    simp only [deliver_total_perm hp] at *
    rw [Position.mk.injEq]
    exact ⟨g5.trans f5.symm, g6.trans f6.symm, g3.trans f3.symm, g4.trans f4.symm, g8.trans f8.symm, g9.trans f9.symm, g10.trans f10.symm,
      g11.trans f11.symm, g12.trans f12.symm, g7.trans f7.symm⟩
  have hoo : a2.openOrders = a1.openOrders := by
    refine List.ext_getElem? (fun i => ?_)
    have : xs.any (frees k i) = ys.any (frees k i) := by
      rw [Bool.eq_iff_iff, List.any_eq_true, List.any_eq_true]
      simp only [hp.mem_iff]
    rw [f13, g13, this]
  rcases a1 with ⟨⟩
  rcases a2 with ⟨⟩
  simp only at f1 f2 g1 g2 hpos hoo
  rw [OOA.mk.injEq]
  exact ⟨g1.trans f1.symm, g2.trans f2.symm, hpos, hoo⟩

theorem Accts.ext_get {A B : Accts} (hk : B.map (·.1) = A.map (·.1)) (nd : (A.map (·.1)).Nodup) (h : ∀ k, B.get? k = A.get? k) : B = A := by
  induction A generalizing B with
  | nil => simpa using hk
  | cons x A ih =>
    cases B with
    | nil => simp at hk
    | cons y B =>
      simp only [List.map_cons, List.cons.injEq] at hk
      obtain ⟨k1, k2⟩ := hk
      rw [List.map_cons, List.nodup_cons] at nd
      have hx := h x.1
      simp only [Accts.get?, List.find?_cons, k1, decide_true, Option.map_some, Option.some.injEq] at hx
      have hxy : y = x := Prod.ext k1 hx
      subst hxy
      congr 1
      refine ih k2 nd.2 (fun k => ?_)
      by_cases hk : y.1 = k
      · have n1 : Accts.get? A k = none := Accts.get?_none_iff.mpr (hk ▸ nd.1)
        have n2 : Accts.get? B k = none := Accts.get?_none_iff.mpr (by rw [k2]; exact hk ▸ nd.1)
        rw [n1, n2]
      · have := h k
        simpa [Accts.get?, List.find?_cons, hk] using this

/-- What has been delivered determines everything but the layout of the queue. -/
theorem Spec.Delivered.unique {s s1 s2 : State} {xs ys : List Event} (hi : Inv s) (h1 : Delivered s s1 xs) (h2 : Delivered s s2 ys)
    (hp : xs.Perm ys) : SameBeside s1 s2 := by
  obtain ⟨O, q, hl⟩ := hi.core.linv
  refine ⟨?_, ?_, h2.book.trans h1.book.symm, h2.tokens.trans h1.tokens.symm, h2.lamports.trans h1.lamports.symm, h2.closed.trans h1.closed.symm⟩
  · refine Accts.ext_get (h2.keys.trans h1.keys.symm) (by rw [h1.keys]; exact hl.ginv.nodup) (fun k => ?_)
    cases ha : s.g.accts.get? k with
    | none =>
      have n := Accts.get?_none_iff.mp ha
      have n1 : s1.g.accts.get? k = none := Accts.get?_none_iff.mpr (by rw [h1.keys]; exact n)
      have n2 : s2.g.accts.get? k = none := Accts.get?_none_iff.mpr (by rw [h2.keys]; exact n)
      rw [n1, n2]
    | some a =>
      obtain ⟨a1, x1, c1⟩ := h1.accts k a ha
      obtain ⟨a2, x2, c2⟩ := h2.accts k a ha
      rw [x1, x2, c1.unique c2 (hp.filter _)]
  · rw [h1.market, h2.market, deliver_total_perm hp, deliver_total_perm hp]

end OB
