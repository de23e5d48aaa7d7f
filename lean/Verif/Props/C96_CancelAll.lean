import Verif.Proofs.TsTrade
/-!
C96  `cancelAllOrders` of the TypeScript library takes the orders off the book and the funds out of the market, in one transaction.
-/
namespace OB
open Spec TsTrade

/-- Whenever the transaction goes through, whatever the library had loaded and whoever sent it: exactly the orders of the account on the
given side (all, if none is given) are off the book; exactly what was free or held by these orders went to the token accounts of the
wallet; what others have and what is due to them, the event queue and all other token accounts are as before.  (Of token accounts that do
not exist the model has amount 0.) -/
theorem C96_done {s s' : State} (hr : Reachable s) {m : Market} {a a0 : OOA} {oo wallet : Pubkey} {referrer delegate : Option Pubkey}
    {ata : Pubkey → Pubkey → Pubkey} {side : Option Side} (ha : s.g.accts.get? oo = some a)
    (hz : ∀ x ∈ atasOf ata m wallet referrer, (s.tokens x.1).mint = 0 → (s.tokens x.1).amount = 0)
    (h : TsTrade.cancelAllOrders s m a0 oo wallet referrer delegate ata side = .ok s') :
    TakenOut s s' oo a side (ata wallet m.baseMint) (ata wallet m.quoteMint) (referrer.map (fun r => ata r m.quoteMint)) (delegate.getD wallet) := by
  unfold TsTrade.cancelAllOrders at h
  simp only [bind_ok] at h
  obtain ⟨s1, h1, s2, h2, h3⟩ := h
  obtain ⟨_, h1⟩ := run_inv h1
  obtain ⟨_, h3⟩ := run_inv h3
  have hr1 : Reachable s1 := .step _ _ _ hr h1
  obtain ⟨_, ls, C, _⟩ := C16_cancel_all s s1 hr _ oo side 24 h1
  obtain ⟨hr2, ht2⟩ := createAtas_inv hr1 h2 (by rw [C.tokens]; exact hz)
  exact takenOut hr ha rfl h1 (createAtas_made h2) hr2 ht2 h3

/-- The transaction of the owner's wallet goes through from every state of an open market, expired or not, whatever others did, also if the
token accounts do not exist yet; with a delegate, if it is the one of the account and can pay the penalty. -/
theorem C96_succeeds {s : State} (hr : Reachable s) (ho : s.closed = false) {oo : Pubkey} {a : OOA} {referrer delegate : Option Pubkey}
    {ata : Pubkey → Pubkey → Pubkey} (side : Option Side) (hc : CanTakeOut s oo a referrer ata)
    (hd : ∀ d, delegate = some d → Controls s d oo ∧ d ≠ s.g.market.marketAuthority ∧
      (0 < a.position.penaltyHeapCount → a.position.penaltyHeapCount * 500 ≤ s.lamports d)) :
    ∃ s', TsTrade.cancelAllOrders s s.g.market a oo a.owner referrer delegate ata side = .ok s' := by
  have hi := reachable_Inv hr
  have hown : a.owner ≠ s.g.market.marketAuthority := (reachable_accts hr oo a hc.acct).2
  obtain ⟨g1, g2, g3⟩ : (delegate.getD a.owner = a.owner ∨ (a.delegate ≠ 0 ∧ delegate.getD a.owner = a.delegate)) ∧
      delegate.getD a.owner ≠ s.g.market.marketAuthority ∧
      (0 < a.position.penaltyHeapCount → a.position.penaltyHeapCount * 500 ≤ s.lamports (delegate.getD a.owner)) := by
    cases delegate with
    | none => exact ⟨.inl rfl, hown, fun h => (hc.penalty h).1⟩
    | some d =>
      obtain ⟨⟨b, hb, h1⟩, h2, h3⟩ := hd d rfl
      rw [hc.acct] at hb; injection hb with hb; subst hb
      exact ⟨h1, h2, h3⟩
  -- cancel
  obtain ⟨q, s1, hq⟩ := cancelAllFor_ok (limit := 24) (so := side) (co := none) hi (reachable_Extra hr) hc.acct hc.lots
  have h1 : step s (.cancelAll a.owner oo side 24) = .ok s1 := by
    simp only [step, cancelAll, authCancel, State.open?, signerOk, bind_ok, pure_ok, req_ok, Accts.get_ok]
    refine ⟨a, ⟨(), by simp [ho], (), by simpa using hown, a, hc.acct, (), ?_, rfl⟩, (q, s1), hq, rfl⟩
    simp [OOA.isOwnerOrDelegate]
  have hr1 : Reachable s1 := .step _ _ _ hr h1
  obtain ⟨_, ls, C, _⟩ := C16_cancel_all s s1 hr _ oo side 24 h1
  obtain ⟨a0, a1, x1, x2, rel⟩ := C.acct
  rw [hc.acct] at x1; injection x1 with x1; subst x1
  have mk1 : s1.marketKey = s.marketKey := step_marketKey hi h1
  -- token accounts
  have hrd : ∀ x ∈ atasOf ata s.g.market a.owner referrer, AtaReady s x.1 x.2.1 x.2.2 ∧ x.2.2 ≠ 0 := by
    intro x hx
    unfold atasOf at hx
    rcases List.mem_append.mp hx with hx | hx
    · simp only [List.mem_cons, List.not_mem_nil, or_false] at hx
      rcases hx with rfl | rfl
      · exact ⟨hc.ready.1, hc.exist.1⟩
      · exact ⟨hc.ready.2.1, hc.exist.2⟩
    · cases referrer with
      | none => cases hx
      | some r =>
        simp only [List.mem_cons, List.not_mem_nil, or_false] at hx
        subst hx
        exact ⟨hc.ready.2.2 r rfl, hc.exist.2⟩
  obtain ⟨s2, h2, p2⟩ := createAtas_ok (s := s1) (l := atasOf ata s.g.market a.owner referrer) (fun x hx => by
      have := (hrd x hx).1
      unfold AtaReady tokens at this ⊢
      rw [C.tokens, C.market]; exact this) (fun x hx => (hrd x hx).2) hc.apart
  have M := createAtas_made h2
  obtain ⟨hr2, ht2⟩ := createAtas_inv hr1 h2 (by
    rw [C.tokens]
    intro x hx h0
    rcases (hrd x hx).1.2.2 with h | h
    · exact h.2
    · rw [h.2] at h0; exact absurd h0 (hrd x hx).2)
  have hm2 : s2.g.market = s.g.market := by rw [M.g]; exact C.market
  have htk : ∀ t, tokens s2 t = tokens s t := fun t => by rw [ht2]; unfold tokens; rw [C.tokens]
  have pb := p2 (ata a.owner s.g.market.baseMint, a.owner, s.g.market.baseMint) (by simp [atasOf])
  have pq := p2 (ata a.owner s.g.market.quoteMint, a.owner, s.g.market.quoteMint) (by simp [atasOf])
  have pr : ∀ r, referrer = some r → (s2.tokens (ata r s.g.market.quoteMint)).mint = s.g.market.quoteMint := by
    intro r hr
    subst hr
    exact (p2 (ata r s.g.market.quoteMint, r, s.g.market.quoteMint) (by simp [atasOf])).2
  have ha2 : s2.g.accts.get? oo = some a1 := by rw [M.g]; exact x2
  obtain ⟨f1, f2, f3⟩ := settle_room hr2 ha2
  have hfree := ((reachable_Inv hr2).core.linv.acctOk ha2)
  rw [hm2] at f1 f2 f3
  have cl2 : s2.closed = false := by rw [M.closed, C.closed]; exact ho
  obtain ⟨s3, h3, _⟩ := C23_settle_available s2 hr2 cl2
    { signer := delegate.getD a.owner, penaltyPayer := delegate.getD a.owner, ooKey := oo, userBase := ata a.owner s.g.market.baseMint
      userQuote := ata a.owner s.g.market.quoteMint, referrer := referrer.map (fun r => ata r s.g.market.quoteMint) } a1 (by
    have hq0 : 0 ≤ a1.position.quoteFreeNative := by
      have := (settle_room hr2 ha2)
      have h4 := hfree.2.1
      unfold inU64 at h4
      omega
    refine ⟨ha2, by rw [rel.owner, rel.delegate]; exact g1, fun _ => ⟨?_, ?_⟩, ?_, ?_, ?_, ?_, ?_, ⟨?_, ?_, ?_⟩, ?_, ?_, ?_, ?_, ?_⟩
    · rw [rel.owner]; exact pb.1
    · rw [rel.owner]; exact pq.1
    · rw [hm2]; exact ⟨g2, g2⟩
    · rw [hm2]; exact hc.exist
    · rw [hm2]; exact pb.2
    · rw [hm2]; exact pq.2
    · intro r hr
      rw [hm2]
      obtain ⟨w, hw, rfl⟩ := Option.map_eq_some_iff.mp hr
      exact pr w hw
    · rw [htk]; exact hc.ready.1.2.1
    · rw [htk]; exact hc.ready.2.1.2.1
    · intro r hr
      obtain ⟨w, hw, rfl⟩ := Option.map_eq_some_iff.mp hr
      rw [htk]; exact (hc.ready.2.2 w hw).2.1
    · rw [htk]; have := hc.room.1; dsimp only; omega
    · rw [htk, hm2]; have := hc.room.2.1; dsimp only; omega
    · intro r hr
      obtain ⟨w, hw, rfl⟩ := Option.map_eq_some_iff.mp hr
      rw [htk, hm2]; have := (hc.room.2.2 w hw).1; omega
    · intro hne
      cases referrer with
      | none => exact absurd rfl hne
      | some w => rw [hm2]; have := (hc.room.2.2 w rfl).2; omega
    · rw [rel.penalty, M.lamports, C.lamports, M.marketKey, mk1]; exact fun h => ⟨g3 h, (hc.penalty h).2⟩)
  refine ⟨s3, ?_⟩
  unfold TsTrade.cancelAllOrders
  simp only [bind_ok]
  exact ⟨s1, run_ok (by simp [Sent.tsCancelAll]) h1, s2, h2, run_ok (by cases delegate <;> simp [Sent.tsSettleFunds]) h3⟩

/-! The owner of an account with resting bids and asks, a base account, a quote account, and a referrer who has no token account yet; and the
delegate of the account. -/
example : ∃ (s s' s'' : State) (a : OOA) (ata : Pubkey → Pubkey → Pubkey), Reachable s ∧ s.closed = false ∧ CanTakeOut s 41 a (some 77) ata ∧
    a.delegate = 38 ∧ TsTrade.cancelAllOrders s s.g.market a 41 31 (some 77) (some 38) ata none = .ok s'' ∧
    a.owner = 31 ∧ TsTrade.cancelAllOrders s s.g.market a 41 31 (some 77) none ata none = .ok s' ∧
    (∀ x ∈ atasOf ata s.g.market 31 (some 77), (s.tokens x.1).mint = 0 → (s.tokens x.1).amount = 0) ∧
    (ordersOn s 41 (some .bid) ≠ [] ∧ ordersOn s 41 (some .ask) ≠ [] ∧ (s.tokens (ata 77 11)).mint = 0) ∧
    0 < freedBase s.g.market a (ordersOn s 41 none) ∧ 0 < freedQuote s.g.market a (ordersOn s 41 none) := by
  let ata : Pubkey → Pubkey → Pubkey := fun o m => if o = 77 then 700 else if m = 10 then 51 else 61
  obtain ⟨s, h1, h2⟩ := Scenario.exec_spec (a := Scenario.args) (ops := Scenario.ops1 ++ [.setDelegate 41 31 38]) (p := fun s =>
    match s.g.accts.get? 41 with
    | none => false
    | some a => decide (a.delegate = 38 ∧ s.g.market.marketAuthority ≠ 38) && decide (s.closed = false ∧ a.owner = 31 ∧ a.position.penaltyHeapCount = 0 ∧ s.g.market.baseMint = 10 ∧ s.g.market.quoteMint = 11 ∧
      a.position.bidsBaseLots + a.position.asksBaseLots ≤ i64Max) &&
      decide (s.g.market.isMarketVault 51 = false ∧ s.g.market.isMarketVault 61 = false ∧ s.g.market.isMarketVault 700 = false ∧
      (s.tokens 51).owner = 31 ∧ (s.tokens 51).mint = 10 ∧ (s.tokens 61).owner = 31 ∧ (s.tokens 61).mint = 11 ∧
      0 ≤ tokens s 51 ∧ 0 ≤ tokens s 61 ∧ (s.tokens 700).mint = 0 ∧ tokens s 700 = 0) &&
      decide (tokens s 51 + s.g.market.baseDepositTotal ≤ u64Max ∧
      tokens s 61 + s.g.market.quoteDepositTotal ≤ u64Max ∧ tokens s 700 + s.g.market.quoteDepositTotal ≤ u64Max ∧
      s.g.market.feesToReferrers + s.g.market.quoteDepositTotal ≤ u128Max) &&
      decide ((ordersOn s 41 (some .bid) ≠ [] ∧ ordersOn s 41 (some .ask) ≠ []) ∧
      0 < freedBase s.g.market a (ordersOn s 41 none) ∧ 0 < freedQuote s.g.market a (ordersOn s 41 none))) (by decide +kernel)
  cases ha : s.g.accts.get? 41 with
  | none => rw [ha] at h2; cases h2
  | some a =>
    rw [ha] at h2
    simp only [Bool.and_eq_true, decide_eq_true_eq] at h2
    obtain ⟨⟨⟨⟨⟨f1, f2⟩, b1, b2, b3, b4, b5, b6⟩, c1, c2, c3, c4, c5, c6, c7, c8, c9, c10, c11⟩, d1, d2, d3, d4⟩, e1, e2⟩ := h2
    have hc : CanTakeOut s 41 a (some 77) ata := by
      refine ⟨ha, by rw [b4, b5]; decide, ?_, ?_, ?_, fun h => by omega, b6⟩
      · rw [b2, b4, b5]
        refine ⟨⟨c1, c8, .inr ⟨c4, c5⟩⟩, ⟨c2, c9, .inr ⟨c6, c7⟩⟩, fun r hr => ?_⟩
        injection hr with hr; subst hr
        exact ⟨c3, by show 0 ≤ tokens s 700; omega, .inl ⟨c10, c11⟩⟩
      · rw [b2]; unfold atasOf; rw [b4, b5]; decide
      · rw [b2, b4, b5]
        refine ⟨d1, d2, fun r hr => ?_⟩
        injection hr with hr; subst hr
        exact ⟨d3, d4⟩
    obtain ⟨s', h⟩ := C96_succeeds (delegate := none) h1 b1 none hc (fun d h => nomatch h)
    obtain ⟨s'', h'⟩ := C96_succeeds (delegate := some 38) h1 b1 none hc (fun d h => by
      cases h
      exact ⟨⟨a, ha, .inr (by rw [f1]; decide)⟩, Ne.symm f2, fun h => by omega⟩)
    rw [b2] at h h'
    refine ⟨s, s', s'', a, ata, h1, b1, hc, f1, h', b2, h, ?_, ⟨e1.1, e1.2, c10⟩, e2⟩
    unfold atasOf
    rw [b4, b5]
    intro x hx
    simp only [List.mem_append, List.mem_cons, List.not_mem_nil, or_false] at hx
    rcases hx with (rfl | rfl) | rfl
    · intro h; exact absurd (c5.symm.trans h) (by decide)
    · intro h; exact absurd (c7.symm.trans h) (by decide)
    · intro _; exact c11

/-- A key that the library is given as the delegate controls the account: with another one nothing goes through. -/
theorem C96_delegate {s s' : State} (hr : Reachable s) {m : Market} {a0 : OOA} {oo wallet d : Pubkey} {referrer : Option Pubkey}
    {ata : Pubkey → Pubkey → Pubkey} {side : Option Side}
    (hz : ∀ x ∈ atasOf ata m wallet referrer, (s.tokens x.1).mint = 0 → (s.tokens x.1).amount = 0)
    (h : TsTrade.cancelAllOrders s m a0 oo wallet referrer (some d) ata side = .ok s') : Controls s d oo := by
  unfold TsTrade.cancelAllOrders at h
  simp only [bind_ok] at h
  obtain ⟨s1, h1, s2, h2, h3⟩ := h
  obtain ⟨_, h1⟩ := run_inv h1
  obtain ⟨_, h3⟩ := run_inv h3
  obtain ⟨_, ls, C, _⟩ := C16_cancel_all s s1 hr _ oo side 24 h1
  obtain ⟨hr2, _⟩ := createAtas_inv (.step _ _ _ hr h1) h2 (by rw [C.tokens]; exact hz)
  obtain ⟨_, _, ⟨b, hb, hc⟩, _⟩ := C26_settle hr2 h3
  obtain ⟨a, a1, x1, x2, rel⟩ := C.acct
  rw [(createAtas_made h2).g] at hb
  have e : b = a1 := by rw [x2] at hb; exact (Option.some.inj hb).symm
  subst e
  exact ⟨a, x1, by rw [rel.owner, rel.delegate] at hc; exact hc⟩

/-- It takes the key of the owner of the account: a delegate with a wallet of their own cannot use it, although the program lets a delegate
cancel and settle. -/
theorem C96_needs_owner {s s' : State} {m : Market} {a : OOA} {oo wallet : Pubkey} {referrer delegate : Option Pubkey}
    {ata : Pubkey → Pubkey → Pubkey} {side : Option Side} (h : TsTrade.cancelAllOrders s m a oo wallet referrer delegate ata side = .ok s') :
    a.owner = wallet ∨ delegate = some a.owner := by
  unfold TsTrade.cancelAllOrders at h
  simp only [bind_ok] at h
  obtain ⟨s1, h1, _⟩ := h
  have := (run_inv h1).1 a.owner (by simp [Sent.tsCancelAll])
  simpa [eq_comm] using this

end OB
