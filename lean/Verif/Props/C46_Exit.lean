import Verif.Proofs.Exit
/-!
C46  Everybody can always leave with everything that is due to them.
-/
namespace OB
open Spec

/-- From every state of an open market, expired or not, whatever others did: when the queued events are delivered, the owner cancels
the orders of the account, settles and closes the account.  None of these instructions fails.  Exactly what was due in the beginning
arrives in the token accounts of the owner.  The orders of all others and what is due to them stay as they are. -/
theorem C46_exit (s : State) (hr : Reachable s) (ho : s.closed = false) (k : Pubkey) (a : OOA) (payer ub uq : Pubkey)
    (hc : CanExit s k a payer ub uq) :
    ∃ s', Runs s (exitOps s k a payer ub uq) s' ∧ s'.g.accts.get? k = none ∧
      (∀ t, tokens s' t = tokens s t + moved t s.g.market.marketBaseVault ub (dueBase s k a) +
        moved t s.g.market.marketQuoteVault uq (dueQuote s k a)) ∧
      (∀ t, s'.lamports t = s.lamports t + moved t payer s.marketKey (a.position.penaltyHeapCount * 500)) ∧
      s.book.resting.Perm (ordersOf s k ++ s'.book.resting) ∧ (∀ j, j ≠ k → DueKept s s' j) := by
  have hown : a.owner ≠ s.g.market.marketAuthority := (reachable_accts hr k a hc.acct).2
  -- deliver
  obtain ⟨s1, r1, e1, d1⟩ := consume_all hr hc.counters
  have hr1 := r1.reachable hr
  obtain ⟨a1, ha1, cr⟩ := d1.accts k a hc.acct
  have m1 := d1.market
  have ho1 : ordersOf s1 k = ordersOf s k := by unfold ordersOf; rw [d1.book]
  -- cancel
  have hp : s1.book.resting.Perm (ordersOf s k ++ s1.book.resting.filter (fun x => !decide (x.2.2.owner = k))) := by
    rw [← ho1]; exact (List.filter_append_perm _ _).symm
  obtain ⟨s2, r2, c2⟩ := cancel_list hr1 (by rw [m1]; exact hc.orders) ha1 (by rw [cr.owner, m1]; exact hown) hp
    (fun x hx => by simpa using (List.mem_filter.mp hx).2)
  have hr2 := r2.reachable hr1
  have hi2 := reachable_Inv hr2
  obtain ⟨b, a2, x1, ha2, rel⟩ := c2.acct
  rw [ha1] at x1; injection x1 with x1; subst x1
  have e2 : eventsOf s2 k = [] := by unfold eventsOf; rw [c2.heap, e1]; rfl
  have ho2 : ordersOf s2 k = [] := by
    have := (List.perm_append_left_iff _).mp (c2.book.symm.trans hp)
    unfold ordersOf
    refine List.filter_eq_nil_iff.mpr (fun x hx => ?_)
    have := (List.mem_filter.mp (this.mem_iff.mp hx)).2
    simpa using this
  -- what is due is free
  obtain ⟨b1, y1, _, y2, y3⟩ := d1.due e1 k a hc.acct
  rw [ha1] at y1; injection y1 with y1; subst y1
  obtain ⟨b2, z1, _, z2, z3⟩ := c2.due hi2 k a1 ha1
  rw [ha2] at z1; injection z1 with z1; subst z1
  obtain ⟨w1, w2⟩ := due_idle (a := a2) ho2 e2
  have hB : a2.position.baseFreeNative = dueBase s k a := by rw [← w1, z2, y2]
  have hQ : a2.position.quoteFreeNative = dueQuote s k a := by rw [← w2, z3, y3]
  -- settle
  have t2 : s2.tokens = s.tokens := c2.tokens.trans d1.tokens
  have l2 : s2.lamports = s.lamports := c2.lamports.trans d1.lamports
  have own2 : a2.owner = a.owner := rel.owner.trans cr.owner
  have pen2 : a2.position.penaltyHeapCount = a.position.penaltyHeapCount := rel.penalty.trans cr.penalty
  have m2 := c2.market
  rw [m1] at m2
  have mk2 : s2.marketKey = s.marketKey := by
    rw [runs_marketKey hr1 r2, runs_marketKey hr r1]
  have cl2 : s2.closed = false := by rw [c2.closed, d1.closed]; exact ho
  obtain ⟨f1, f2, f3⟩ := settle_room hr2 ha2
  have q1 : s2.g.market.baseDepositTotal = s.g.market.baseDepositTotal := by rw [m2]
  have q2 : s2.g.market.quoteDepositTotal = s.g.market.quoteDepositTotal := by rw [m2]
  have hset : CanSettle s2 (settleTo a.owner payer k ub uq) a2 := by
    refine ⟨ha2, .inl own2.symm, fun _ => ?_, ?_, ?_, ?_, ?_, (fun _ h => nomatch h), ?_, ?_, ?_, (fun _ h => nomatch h), fun h => absurd rfl h, ?_⟩
    · rw [t2, own2]; exact hc.owned
    · rw [m2]; exact ⟨hown, hc.notVault⟩
    · rw [m2]; exact hc.exist
    · rw [m2, t2]; exact hc.mints.1
    · rw [m2, t2]; exact hc.mints.2
    · refine ⟨?_, ?_, (fun _ h => nomatch h)⟩
      · unfold tokens; rw [t2]; exact hc.amounts.1
      · unfold tokens; rw [t2]; exact hc.amounts.2
    · have := hc.room.1
      unfold tokens at this ⊢; rw [t2]; show (s.tokens ub).amount + _ ≤ _; omega
    · have := hc.room.2
      unfold tokens at this ⊢; rw [t2]; show (s.tokens uq).amount + _ + _ ≤ _; omega
    · rw [pen2, l2, mk2]; exact hc.penalty
  obtain ⟨s3, h3, S⟩ := C23_settle_available s2 hr2 cl2 _ a2 hset
  have hr3 : Reachable s3 := .step _ _ _ hr2 h3
  -- close
  obtain ⟨_, hemp⟩ := idle_settled hi2 (reachable_Extra hr2) ha2 ho2 e2
  have h4 : step s3 (.closeOO k a.owner) = .ok { s3 with g := { s3.g with accts := s3.g.accts.del k } } := by
    simp only [step, closeOO, bind_ok, req_ok, Accts.get_ok, pure_ok]
    exact ⟨_, S.after, (), own2, (), hemp, trivial⟩
  have nd : (s3.g.accts.map (·.1)).Nodup := by
    obtain ⟨O, q, hw⟩ := (reachable_Inv hr3).core.linv
    exact hw.ginv.nodup
  refine ⟨{ s3 with g := { s3.g with accts := s3.g.accts.del k } }, ?_, ?_, ?_, ?_, ?_, ?_⟩
  rotate_left
  · show (s3.g.accts.del k).get? k = none
    rw [Accts.get?_del nd, if_pos rfl]
  · intro t
    have := S.tokens t
    rw [hB, hQ] at this
    unfold tokens at this ⊢
    rw [t2, m2] at this
    show (s3.tokens t).amount = _
    rw [this]
    show _ + _ + _ + 0 = _
    rw [Int.add_zero]
    rfl
  · intro t
    have := S.lamports t
    rw [pen2, l2, mk2] at this
    exact this
  · show s.book.resting.Perm (ordersOf s k ++ s3.book.resting)
    rw [S.book, ← d1.book]
    exact c2.book
  · intro j hj
    refine ((d1.due e1 j).trans (c2.due hi2 j)).trans ((S.due hj).trans ?_)
    refine due_same ?_ (List.Perm.refl _) rfl rfl rfl rfl
    show (s3.g.accts.del k).get? j = _
    rw [Accts.get?_del nd, if_neg hj]
  · unfold exitOps
    refine (r1.append ?_).append (.cons h3 (.one h4))
    rw [← cr.owner]; exact r2

/-! The owner of an account with three resting orders and a fill to be delivered. -/
example : ∃ (s : State) (a : OOA), Reachable s ∧ s.closed = false ∧ CanExit s 41 a 31 51 61 ∧
    decide ((ordersOf s 41).length = 3 ∧ (eventsOf s 41).length = 1 ∧ 0 < dueBase s 41 a ∧ 0 < dueQuote s 41 a) = true := by
  obtain ⟨s, h1, h2⟩ := Scenario.exec_spec (a := Scenario.args) (ops := Scenario.ops1) (p := fun s =>
    decide (s.closed = false ∧ s.g.market.makerVolume < 2 ^ 126 ∧ s.g.market.feesAccrued < 2 ^ 126 ∧
      (∀ x ∈ s.g.accts, x.2.position.makerVolume < 2 ^ 126) ∧ s.g.market.seqNum < 2 ^ 63) &&
    (match s.g.accts.get? 41 with
    | none => false
    | some a => decide (a.owner = 31 ∧ a.position.penaltyHeapCount = 0 ∧
      31 ≠ s.g.market.marketAuthority ∧ s.g.market.baseMint ≠ 0 ∧ s.g.market.quoteMint ≠ 0 ∧ (s.tokens 51).owner = 31 ∧
      (s.tokens 61).owner = 31 ∧ (s.tokens 51).mint = s.g.market.baseMint ∧ (s.tokens 61).mint = s.g.market.quoteMint ∧
      0 ≤ tokens s 51 ∧ 0 ≤ tokens s 61 ∧ tokens s 51 + s.g.market.baseDepositTotal ≤ u64Max ∧
      tokens s 61 + s.g.market.quoteDepositTotal ≤ u64Max) &&
      decide ((ordersOf s 41).length = 3 ∧ (eventsOf s 41).length = 1 ∧ 0 < dueBase s 41 a ∧ 0 < dueQuote s 41 a))) (by decide +kernel)
  rw [Bool.and_eq_true, decide_eq_true_eq] at h2
  obtain ⟨⟨b1, b2, b3, b4, b5⟩, h2⟩ := h2
  cases ha : s.g.accts.get? 41 with
  | none => rw [ha] at h2; cases h2
  | some a =>
    rw [ha] at h2
    simp only [Bool.and_eq_true] at h2
    obtain ⟨h2, h3⟩ := h2
    obtain ⟨c1, c2, c3, c4, c5, c6, c7, c8, c9, c10, c11, c12, c13⟩ := of_decide_eq_true h2
    refine ⟨s, a, h1, b1, ⟨ha, c3, ⟨c4, c5⟩, by rw [c1]; exact ⟨c6, c7⟩, ⟨c8, c9⟩, ⟨c10, c11⟩, ⟨c12, c13⟩,
      fun h => by omega, b5, ⟨b2, b3, fun k a ha => b4 (k, a) (by obtain ⟨_, _, h, _⟩ := Accts.split ha; rw [h]; simp)⟩⟩, h3⟩

end OB
