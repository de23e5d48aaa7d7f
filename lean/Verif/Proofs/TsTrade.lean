import Verif.Spec.TsTrade
import Verif.Props.C46_Exit
import Verif.Props.C16_Cancel
/-! The transactions of ts/client/src/accounts/openOrders.ts. -/
namespace OB
open Spec TsTrade

/-- The same except for token accounts made. -/
structure MadeAtas (s s' : State) : Prop where
  g : s'.g = s.g
  book : s'.book = s.book
  lamports : s'.lamports = s.lamports
  closed : s'.closed = s.closed
  marketKey : s'.marketKey = s.marketKey
  kept : ∀ t, (s.tokens t).mint ≠ 0 → s'.tokens t = s.tokens t

theorem MadeAtas.refl (s : State) : MadeAtas s s := ⟨rfl, rfl, rfl, rfl, rfl, fun _ _ => rfl⟩

theorem createAta_inv {s s' : State} {k owner mint : Pubkey} (h : createAta s k owner mint = .ok s') :
    (∃ op, step s op = .ok s' ∨ s' = s) ∧ MadeAtas s s' ∧ (s'.tokens k).owner = owner ∧ (s'.tokens k).mint = mint ∧
      (∀ t, t ≠ k → s'.tokens t = s.tokens t) ∧ ((s.tokens k).mint = 0 → (s'.tokens k).amount = 0) := by
  unfold createAta at h
  split at h
  · rename_i hm
    have h0 := h
    unfold externalToken at h
    simp only [bind_ok, pure_ok, req_ok] at h
    obtain ⟨_, _, _, _, rfl⟩ := h
    refine ⟨⟨.externalToken k ⟨owner, mint, 0⟩, .inl h0⟩, ⟨rfl, rfl, rfl, rfl, rfl, fun t ht => ?_⟩, ?_, ?_, fun t ht => ?_, fun _ => ?_⟩
    · have : t ≠ k := fun e => ht (e ▸ hm)
      simp [this]
    · simp
    · simp
    · simp [ht]
    · simp
  · rename_i hm
    simp only [bind_ok, pure_ok, req_ok] at h
    obtain ⟨_, h1, rfl⟩ := h
    exact ⟨⟨.externalLamports 0 0, .inr rfl⟩, MadeAtas.refl _, h1.1, h1.2, fun _ _ => rfl, fun e => absurd e hm⟩

theorem createAta_ok {s : State} {k owner mint : Pubkey} (h : AtaReady s k owner mint) : ∃ s', createAta s k owner mint = .ok s' := by
  obtain ⟨h1, h2, h3⟩ := h
  unfold createAta
  split
  · unfold externalToken
    simp only [bind_ok, pure_ok, req_ok]
    exact ⟨_, (), ⟨by decide, by show (0 : Int) ≤ u64Max; decide⟩, (), (fun e => by rw [h1] at e; cases e), rfl⟩
  · rename_i hm
    simp only [bind_ok, pure_ok, req_ok]
    rcases h3 with h3 | h3
    · exact absurd h3.1 hm
    · exact ⟨_, (), h3, rfl⟩

theorem MadeAtas.trans {s s1 s2 : State} (m1 : MadeAtas s s1) (m2 : MadeAtas s1 s2) : MadeAtas s s2 := by
  refine ⟨m2.g.trans m1.g, m2.book.trans m1.book, m2.lamports.trans m1.lamports, m2.closed.trans m1.closed,
    m2.marketKey.trans m1.marketKey, fun t h0 => ?_⟩
  have := m1.kept t h0
  rw [m2.kept t (by rw [this]; exact h0), this]

theorem createAtas_made {l : List (Pubkey × Pubkey × Pubkey)} : ∀ {s s' : State}, createAtas s l = .ok s' → MadeAtas s s' := by
  induction l with
  | nil => intro s s' h; simp only [createAtas, pure_ok] at h; subst h; exact MadeAtas.refl _
  | cons x l ih =>
    intro s s' h
    simp only [createAtas, bind_ok] at h
    obtain ⟨s1, h1, h2⟩ := h
    exact (createAta_inv h1).2.1.trans (ih h2)

theorem createAtas_inv {l : List (Pubkey × Pubkey × Pubkey)} : ∀ {s s' : State}, Reachable s → createAtas s l = .ok s' →
    (∀ x ∈ l, (s.tokens x.1).mint = 0 → (s.tokens x.1).amount = 0) → Reachable s' ∧ ∀ t, tokens s' t = tokens s t := by
  induction l with
  | nil =>
    intro s s' hr h _
    simp only [createAtas, pure_ok] at h
    subst h
    exact ⟨hr, fun _ => rfl⟩
  | cons x l ih =>
    obtain ⟨k, o, m⟩ := x
    intro s s' hr h hz
    simp only [createAtas, bind_ok] at h
    obtain ⟨s1, h1, h2⟩ := h
    obtain ⟨⟨op, hop⟩, m1, _, _, e1, e2⟩ := createAta_inv h1
    have hr1 : Reachable s1 := by
      rcases hop with h | h
      · exact .step _ _ _ hr h
      · rw [h]; exact hr
    have ht : ∀ t, tokens s1 t = tokens s t := by
      intro t
      unfold tokens
      by_cases hk : t = k
      · subst hk
        by_cases hm : (s.tokens t).mint = 0
        · rw [e2 hm, hz _ List.mem_cons_self hm]
        · rw [m1.kept t hm]
      · rw [e1 t hk]
    obtain ⟨r2, t2⟩ := ih hr1 h2 (fun x hx h0 => by
      have hz1 := hz x (List.mem_cons_of_mem _ hx)
      have := ht x.1
      unfold tokens at this
      rw [this]
      by_cases hm : (s.tokens x.1).mint = 0
      · exact hz1 hm
      · rw [m1.kept _ hm] at h0; exact absurd h0 hm)
    exact ⟨r2, fun t => (t2 t).trans (ht t)⟩

theorem createAtas_ok {l : List (Pubkey × Pubkey × Pubkey)} : ∀ {s : State}, (∀ x ∈ l, AtaReady s x.1 x.2.1 x.2.2) → (∀ x ∈ l, x.2.2 ≠ 0) →
    (∀ x ∈ l, ∀ y ∈ l, x.1 = y.1 → x = y) →
    ∃ s', createAtas s l = .ok s' ∧ ∀ x ∈ l, (s'.tokens x.1).owner = x.2.1 ∧ (s'.tokens x.1).mint = x.2.2 := by
  induction l with
  | nil => exact fun _ _ _ => ⟨_, rfl, fun _ h => nomatch h⟩
  | cons x l ih =>
    obtain ⟨k, o, m⟩ := x
    intro s hl hn hd
    obtain ⟨s1, h1⟩ := createAta_ok (hl _ List.mem_cons_self)
    obtain ⟨_, m1, o1, i1, e1, e2⟩ := createAta_inv h1
    obtain ⟨s2, h2, p2⟩ := ih (s := s1) (fun y hy => by
      obtain ⟨a1, a2, a3⟩ := hl y (List.mem_cons_of_mem _ hy)
      refine ⟨by rw [m1.g]; exact a1, ?_, ?_⟩
      all_goals
        by_cases hk : y.1 = k
        · have := hd y (List.mem_cons_of_mem _ hy) (k, o, m) List.mem_cons_self hk
          subst this
          first
          | (exact .inr ⟨o1, i1⟩)
          | (unfold tokens
             by_cases hm : (s.tokens k).mint = 0
             · rw [e2 hm]; exact Int.le_refl 0
             · rw [m1.kept _ hm]; exact a2)
        · first
          | (unfold tokens; rw [e1 _ hk]; exact a2)
          | (unfold tokens; rw [e1 _ hk]; exact a3))
      (fun y hy => hn y (List.mem_cons_of_mem _ hy))
      (fun y hy z hz => hd y (List.mem_cons_of_mem _ hy) z (List.mem_cons_of_mem _ hz))
    refine ⟨s2, by simp only [createAtas, bind_ok]; exact ⟨s1, h1, h2⟩, fun y hy => ?_⟩
    rcases List.mem_cons.mp hy with rfl | hy
    · have hne : (s1.tokens k).mint ≠ 0 := by rw [i1]; exact hn _ List.mem_cons_self
      have hk : s2.tokens k = s1.tokens k := (createAtas_made h2).kept k hne
      exact ⟨by rw [hk]; exact o1, by rw [hk]; exact i1⟩
    · exact p2 y hy

/-- The orders that were cancelled are exactly those on the side. -/
theorem cancelled_are {s s1 : State} {k : Pubkey} {ls : List (Side × Comp × LeafNode)} {side : Option Side} (hc : Cancels s s1 k ls)
    (hm : ∀ x ∈ ls, ∀ t, side = some t → x.1 = t)
    (hall : ∀ x ∈ s1.book.resting, x.2.2.owner = k → ∃ t, side = some t ∧ x.1 ≠ t) :
    ls.Perm (ordersOn s k side) ∧ ordersOn s1 k side = [] := by
  have h1 : ordersOn s1 k side = [] := by
    unfold ordersOn ordersOf
    rw [List.filter_filter]
    refine List.filter_eq_nil_iff.mpr (fun x hx hh => ?_)
    simp only [Bool.and_eq_true, decide_eq_true_eq] at hh
    obtain ⟨t, e1, e2⟩ := hall x hx hh.2
    subst e1
    exact e2 (by simpa [meantSide] using hh.1)
  refine ⟨?_, h1⟩
  unfold ordersOn ordersOf at h1 ⊢
  rw [List.filter_filter] at h1 ⊢
  have hp := hc.book.filter (fun x => meantSide side x && decide (x.2.2.owner = k))
  rw [List.filter_append, h1, List.append_nil] at hp
  refine (List.Perm.trans ?_ hp.symm)
  rw [List.filter_eq_self.mpr (fun x hx => ?_)]
  simp only [Bool.and_eq_true, decide_eq_true_eq]
  refine ⟨?_, hc.owner x hx⟩
  cases side with
  | none => rfl
  | some t => simpa [meantSide] using hm x hx t rfl

theorem run_inv {i : Sent.Ix} {s s' : State} {keys : List Pubkey} (h : i.run s keys = .ok s') :
    (∀ k ∈ i.signers, k ∈ keys) ∧ step s i.op = .ok s' := by
  unfold Sent.Ix.run at h
  simp only [bind_ok, req_ok] at h
  obtain ⟨_, h1, h2⟩ := h
  exact ⟨fun k hk => by simpa using List.all_eq_true.mp h1 k hk, h2⟩

theorem run_ok {i : Sent.Ix} {s s' : State} {keys : List Pubkey} (h1 : ∀ k ∈ i.signers, k ∈ keys) (h : step s i.op = .ok s') :
    i.run s keys = .ok s' := by
  unfold Sent.Ix.run
  simp only [bind_ok, req_ok]
  exact ⟨(), List.all_eq_true.mpr (fun k hk => by simpa using h1 k hk), h⟩

theorem takenOut {s s1 s2 s3 : State} (hr : Reachable s) {k signer : Pubkey} {a : OOA} {side : Option Side} {c : SettleCtx}
    (ha : s.g.accts.get? k = some a) (hk : c.ooKey = k) (h1 : step s (.cancelAll signer k side 24) = .ok s1)
    (h2 : MadeAtas s1 s2) (hr2 : Reachable s2) (ht2 : ∀ t, tokens s2 t = tokens s1 t) (h3 : step s2 (.settleFunds c) = .ok s3) :
    TakenOut s s3 k a side c.userBase c.userQuote c.referrer c.penaltyPayer := by
  obtain ⟨_, ls, C, hm, _, hall⟩ := C16_cancel_all s s1 hr signer k side 24 h1
  obtain ⟨hp, hn⟩ := cancelled_are C hm (hall (Nat.le_refl 24))
  have hr1 : Reachable s1 := .step _ _ _ hr h1
  obtain ⟨b, S, _, _⟩ := C26_settle hr2 h3
  obtain ⟨a0, a1, x1, x2, rel⟩ := C.acct
  rw [ha] at x1; injection x1 with x1; subst x1
  have hb := S.before
  rw [hk, h2.g, x2] at hb; injection hb with hb; subst hb
  have hm2 : s2.g.market = s.g.market := by rw [h2.g]; exact C.market
  have mk1 : s1.marketKey = s.marketKey := step_marketKey (reachable_Inv hr) h1
  have hS : s3.book = s1.book := by rw [S.book, h2.book]
  refine ⟨?_, ?_, ?_, fun t => ?_, fun t => ?_, ?_, fun j hj => ?_⟩
  · rw [hS]; exact C.book.trans (hp.append_right _)
  · unfold ordersOn ordersOf at hn ⊢; rw [hS]; exact hn
  · refine ⟨paidOut s2.g.market a1, by rw [← hk]; exact S.after, rel.owner, rfl, rfl, rfl, rfl⟩
  · have e1 : freedBase s.g.market a (ordersOn s k side) = a1.position.baseFreeNative := by
      unfold freedBase; rw [rel.base, sumOver_perm hp]
    have e2 : freedQuote s.g.market a (ordersOn s k side) = a1.position.quoteFreeNative := by
      unfold freedQuote; rw [rel.quote, sumOver_perm hp]
    have e3 : a.position.referrerRebatesAvailable + restFees s.g.market a (ordersOn s k side) = rebateOf s2.g.market a1 := by
      unfold restFees rebateOf feeRemainder
      rw [rel.rebates, rel.bids, rel.fees, sumOver_perm hp, sumOver_perm hp, hm2]
      congr 1
      refine if_congr (and_congr_right fun _ => ?_) rfl rfl
      omega
    have h0 := S.tokens t
    have h1' := ht2 t
    have h4 : tokens s1 t = tokens s t := by unfold tokens; rw [C.tokens]
    rw [h0, h1', h4, e1, e2, e3, hm2]
  · have := S.lamports t
    rw [this, rel.penalty, h2.lamports, C.lamports, h2.marketKey, mk1]
  · rw [S.heap, h2.g, C.heap]
  · refine (C.due (reachable_Inv hr1) j).trans (DueKept.trans ?_ (S.due (by rw [hk]; exact hj)))
    exact due_same (by rw [h2.g]) (by unfold ordersOf; rw [h2.book]) (by unfold eventsOf; rw [h2.g]) (by rw [h2.g]) (by rw [h2.g]) (by rw [h2.g])

end OB
