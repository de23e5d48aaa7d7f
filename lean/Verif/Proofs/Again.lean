import Verif.Proofs.Step
import Verif.Spec.Settle
/-! A closed market is empty and its accounts hold nothing, hence a market created again at its address starts in order.  The invariant
of all reachable states. -/
namespace OB
open Spec

/-- Instructions that do not load the market. -/
def Op.offMarket : Op → Bool
  | .closeOO .. | .setDelegate .. | .externalToken .. | .externalLamports .. => true
  | _ => false

theorem step_open {s s' : State} {op : Op} (hi : Inv s) (h : step s op = .ok s') : s.closed = false ∨ op.offMarket = true := by
  cases step_run h with
  | idle _ c _ auth _ => obtain ⟨_, _, h, _⟩ := authPlace_ok auth; exact .inl h
  | place op c o l r hop P => exact .inl P.isOpen
  | edit op c client e o l r hop P => obtain ⟨_, _, h, _⟩ := authPlace_ok P.auth; exact .inl h
  | multi c cancel t bids asks l now bs as rs hn hb ha P => obtain ⟨_, _, h, _⟩ := authPlace_ok P.auth; exact .inl h
  | take c a o r ho P => exact .inl P.isOpen
  | consume op admin limit slots rem hop h => exact .inl (consumeEvents_inv h).1
  | cancelOne signer k id h =>
    obtain ⟨_, _, _, _, _, h1, _⟩ := cancelOrderIx_res hi h
    exact .inl (authCancel_ok h1).2.1
  | cancel op signer k limit so co a q hop auth h => exact .inl (authCancel_ok auth).2.1
  | prune admin k now limit q auth exp hc => exact .inl (authClose_ok auth).1
  | deposit op signer k ub uq now b q b0 q0 hop P => exact .inl P.isOpen
  | settle c h P => exact .inl (settleFunds_inv h).2.1
  | settleExpired admin c now h P => exact .inl (settleFundsExpired_inv h).2.1
  | sweep admin receiver h => exact .inl (sweepFees_inv h).1
  | setExpired admin now auth live res => exact .inl (authClose_ok auth).1
  | close admin now P => exact .inl (authClose_ok P.auth).1
  | createOO k owner d hc _ hn res => exact .inl hc
  | closeOO k owner a ha hown hp res => exact .inr rfl
  | delegate k owner d a ha hown res => exact .inr rfl
  | token k t _ _ res => exact .inr rfl
  | lamports k x _ _ res => exact .inr rfl

theorem step_offMarket {s s' : State} {op : Op} (ho : op.offMarket = true) (h : step s op = .ok s') :
    s'.g.market = s.g.market ∧ s'.g.heap = s.g.heap ∧ s'.book = s.book ∧ s'.closed = s.closed := by
  cases op <;> first | cases ho | skip
  · cases step_run h with
    | closeOO k owner a ha hown hp res => rw [res]; exact ⟨rfl, rfl, rfl, rfl⟩
    | idle _ _ h => cases h
    | place _ _ _ _ _ h => cases h
    | edit _ _ _ _ _ _ _ h => cases h
    | consume _ _ _ _ _ h => rcases h with ⟨h, _⟩ | ⟨h, _⟩ <;> cases h
    | cancel _ _ _ _ _ _ _ _ h => rcases h with ⟨h, _⟩ | ⟨h, _⟩ <;> cases h
    | deposit _ _ _ _ _ _ _ _ _ _ h => rcases h with h | h <;> cases h
  · cases step_run h with
    | delegate k owner d a ha hown res => rw [res]; exact ⟨rfl, rfl, rfl, rfl⟩
    | idle _ _ h => cases h
    | place _ _ _ _ _ h => cases h
    | edit _ _ _ _ _ _ _ h => cases h
    | consume _ _ _ _ _ h => rcases h with ⟨h, _⟩ | ⟨h, _⟩ <;> cases h
    | cancel _ _ _ _ _ _ _ _ h => rcases h with ⟨h, _⟩ | ⟨h, _⟩ <;> cases h
    | deposit _ _ _ _ _ _ _ _ _ _ h => rcases h with h | h <;> cases h
  · cases step_run h with
    | token k t _ _ res => rw [res]; exact ⟨rfl, rfl, rfl, rfl⟩
    | idle _ _ h => cases h
    | place _ _ _ _ _ h => cases h
    | edit _ _ _ _ _ _ _ h => cases h
    | consume _ _ _ _ _ h => rcases h with ⟨h, _⟩ | ⟨h, _⟩ <;> cases h
    | cancel _ _ _ _ _ _ _ _ h => rcases h with ⟨h, _⟩ | ⟨h, _⟩ <;> cases h
    | deposit _ _ _ _ _ _ _ _ _ _ h => rcases h with h | h <;> cases h
  · cases step_run h with
    | lamports k x _ _ res => rw [res]; exact ⟨rfl, rfl, rfl, rfl⟩
    | idle _ _ h => cases h
    | place _ _ _ _ _ h => cases h
    | edit _ _ _ _ _ _ _ h => cases h
    | consume _ _ _ _ _ h => rcases h with ⟨h, _⟩ | ⟨h, _⟩ <;> cases h
    | cancel _ _ _ _ _ _ _ _ h => rcases h with ⟨h, _⟩ | ⟨h, _⟩ <;> cases h
    | deposit _ _ _ _ _ _ _ _ _ _ h => rcases h with h | h <;> cases h

/-- The market is closed only by `close_market`. -/
theorem step_closed {s s' : State} {op : Op} (hi : Inv s) (h : step s op = .ok s') :
    s'.closed = s.closed ∨ ∃ admin now, op = .closeMarket admin now ∧ CloseRun s admin now s' := by
  cases step_run h with
  | idle _ _ _ _ h => exact .inl (by rw [h])
  | place op c o l r hop P => exact .inl (by rw [congrArg State.closed P.res])
  | edit op c client e o l r hop P =>
    obtain ⟨q, s1, h1, _, h2⟩ := P.run
    obtain ⟨_, h3⟩ := cancelByClientId_inv h1
    obtain ⟨_, _, _, _, c1⟩ := cancelAllFor_frame hi h3
    rcases h2 with ⟨e1, e2, r1, _, h4⟩ | ⟨_, _, rfl⟩
    · obtain ⟨P⟩ := placeOrder_inv h4
      exact .inl (by rw [congrArg State.closed P.res]; exact c1)
    · exact .inl c1
  | multi c cancel t bids asks l now bs as rs hn hb ha P => exact .inl (by rw [congrArg State.closed P.res])
  | take c a o r ho P => exact .inl (by rw [congrArg State.closed P.res])
  | consume op admin limit slots rem hop h =>
    obtain ⟨_, _, todo, g, _, h4, rfl⟩ := consumeEvents_inv h
    exact .inl rfl
  | cancelOne signer k id h =>
    obtain ⟨_, _, _, _, _, _, _, _, h1, _⟩ := cancelOrderIx_res hi h
    exact .inl (by rw [h1])
  | cancel op signer k limit so co a q hop auth h => exact .inl (cancelAllFor_frame hi h).2.2.2.2
  | prune admin k now limit q auth exp hc => exact .inl (cancelAllFor_frame hi hc).2.2.2.2
  | deposit op signer k ub uq now b q b0 q0 hop P => exact .inl (by rw [congrArg State.closed P.res])
  | settle c h P => exact .inl (by rw [congrArg State.closed P.res])
  | settleExpired admin c now h P => exact .inl (by rw [congrArg State.closed P.res])
  | sweep admin receiver h =>
    obtain ⟨_, _, _, t, _, h⟩ := sweepFees_inv h
    exact .inl (by rw [h])
  | setExpired admin now auth live res => exact .inl (by rw [res])
  | close admin now P => exact .inr ⟨admin, now, rfl, P⟩
  | createOO k owner d h _ hn res => exact .inl (by rw [res])
  | closeOO k owner a ha hown hp res => exact .inl (by rw [res])
  | delegate k owner d a ha hown res => exact .inl (by rw [res])
  | token k t _ _ res => exact .inl (by rw [res])
  | lamports k x _ _ res => exact .inl (by rw [res])

theorem resting_nil {book : Book} (hb : BookOk book) (h1 : book.bids.isEmpty = .ok true) (h2 : book.asks.isEmpty = .ok true) :
    book.resting = [] := by
  obtain ⟨o1, k1⟩ := hb.ok .bid
  obtain ⟨o2, k2⟩ := hb.ok .ask
  have k1 : BSOk book.bids o1 := k1
  have k2 : BSOk book.asks o2 := k2
  rw [bs_isEmpty k1] at h1
  rw [bs_isEmpty k2] at h2
  injection h1 with h1
  injection h2 with h2
  have h1 := of_decide_eq_true h1
  have h2 := of_decide_eq_true h2
  unfold Book.resting
  rw [k1.orders, k1.orders, k2.orders, k2.orders, h1.1, h1.2, h2.1, h2.2]; rfl

theorem events_nil {g : Ledger} {L : Rests} {dB dQ : Int} {ex : Pubkey → Int} {n : Nat} (h : LInv g L dB dQ ex n)
    (he : g.heap.isEmpty = true) : g.heap.events = [] := by
  obtain ⟨O, q, hw⟩ := h
  have := hw.heap.count
  unfold EventHeap.isEmpty at he
  have he : g.heap.count = 0 := by simpa using he
  have : q = [] := List.length_eq_zero_iff.mp (by omega)
  rw [hw.heap.events, this]; rfl

theorem acct_get {as : Accts} (hn : (as.map (·.1)).Nodup) {k : Pubkey} {a : OOA} (h : (k, a) ∈ as) : as.get? k = some a := by
  induction as with
  | nil => cases h
  | cons x xs ih =>
    rw [List.map_cons, List.nodup_cons] at hn
    rw [Accts.get?_cons]
    rcases List.mem_cons.mp h with h | h
    · subst h; simp
    · rw [if_neg, ih hn.2 h]
      rintro rfl
      exact hn.1 (List.mem_map.mpr ⟨_, h, rfl⟩)

theorem asum_zero {f : OOA → Int} {as : Accts} (h0 : ∀ x ∈ as, 0 ≤ f x.2) (h : asum f as = 0) : ∀ x ∈ as, f x.2 = 0 := by
  induction as with
  | nil => exact fun _ hx => nomatch hx
  | cons y ys ih =>
    have e : asum f (y :: ys) = f y.2 + asum f ys := by simp [asum]
    have h1 := h0 y List.mem_cons_self
    have h2 : ∀ x ∈ ys, 0 ≤ f x.2 := fun x hx => h0 x (List.mem_cons_of_mem _ hx)
    have h3 : 0 ≤ asum f ys := by
      unfold asum
      clear e h ih h0 h1
      induction ys with
      | nil => exact Int.le_refl _
      | cons z zs ih =>
        have := ih (fun x hx => h2 x (List.mem_cons_of_mem _ hx))
        have := h2 z List.mem_cons_self
        simp only [List.map_cons, List.sum_cons]; omega
    intro x hx
    rcases List.mem_cons.mp hx with rfl | hx
    · omega
    · exact ih h2 (by omega) x hx

/-- An account that no obligation refers to has free slots only. -/
theorem slots_free {m : Market} {O : List Obl} {k : Pubkey} {x : Int} {a : OOA} (h : AcctOk m O k x a) (hn : ∀ o ∈ O, o.acct ≠ k) :
    ∀ oo ∈ a.openOrders, oo.isFree = true := by
  intro oo hoo
  obtain ⟨i, hi⟩ := List.getElem?_of_mem hoo
  cases hf : oo.isFree with
  | true => rfl
  | false =>
    obtain ⟨o, ho, _, h2, _⟩ := h.used i oo hi hf
    exact absurd h2 (hn o ho)

/-- An empty market with empty book and queue has accounts that hold nothing. -/
theorem accts_hold_nothing {s : State} (hi : Inv s) (hb : s.book.resting = []) (he : s.g.heap.events = []) (hm : s.g.market.isEmpty = true) :
    ∀ x ∈ s.g.accts, HoldsNothing x.2 := by
  unfold Market.isEmpty at hm
  simp only [decide_eq_true_eq] at hm
  obtain ⟨O, q, hl⟩ := hi.core.linv
  have hO : O = [] := by
    have hk := hl.kinds
    have hq : q = [] := by
      have : q.map (·.2) = [] := by rw [← hl.heap.events]; exact he
      exact List.map_eq_nil_iff.mp this
    rw [hb, hq] at hk
    have := hk.length_eq
    simp [restKs, evKs] at this
    exact this
  have hB := hl.ginv.base
  have hQ := hl.ginv.quote
  have hR := hl.ginv.refs
  have hacct : ∀ x ∈ s.g.accts, AcctOk s.g.market O x.1 0 x.2 := fun x hx => hl.ginv.acct x.1 x.2 (acct_get hl.ginv.nodup hx)
  have z1 : ∀ x ∈ s.g.accts, x.2.position.bidsBaseLots = 0 ∧ x.2.position.asksBaseLots = 0 ∧ x.2.position.bidsQuoteLots = 0 := by
    intro x hx
    have := hacct x hx
    rw [hO] at this
    exact ⟨this.bids, this.asks, this.quote⟩
  rw [hO, osum_nil] at hB hQ
  have zb := asum_zero (f := acctB s.g.market) (as := s.g.accts) (fun x hx => by
    have h1 := (hacct x hx).baseFree.1
    obtain ⟨_, h2, _⟩ := z1 x hx
    unfold acctB; rw [h2]; omega) (by omega)
  have zq := asum_zero (f := acctQ s.g.market) (as := s.g.accts) (fun x hx => by
    have h1 := (hacct x hx).quoteFree.1
    have h2 := (hacct x hx).locked.1
    have h3 := (hacct x hx).refs.1
    obtain ⟨_, _, h4⟩ := z1 x hx
    unfold acctQ; rw [h4]; omega) (by omega)
  intro x hx
  obtain ⟨b1, b2, b3⟩ := z1 x hx
  have hb := zb x hx
  have hq := zq x hx
  unfold acctB at hb
  unfold acctQ at hq
  rw [b2] at hb
  rw [b3] at hq
  have h1 := (hacct x hx).quoteFree.1
  have h2 := (hacct x hx).locked.1
  have h3 := (hacct x hx).refs.1
  refine ⟨by omega, by omega, ⟨b1, b3⟩, b2, by omega, by omega, slots_free (hacct x hx) ?_⟩
  rw [hO]; exact fun o ho => nomatch ho

/-- A closed market is empty. -/
def ClosedEmpty (s : State) : Prop := s.closed = true → s.book.resting = [] ∧ s.g.heap.events = [] ∧ s.g.market.isEmpty = true

theorem step_closedEmpty {s s' : State} {op : Op} (hi : Inv s) (hx : ClosedEmpty s) (h : step s op = .ok s') : ClosedEmpty s' := by
  intro hcl
  rcases step_closed hi h with e | ⟨admin, now, rfl, P⟩
  · rw [e] at hcl
    rcases step_open hi h with h0 | ho
    · rw [h0] at hcl; cases hcl
    · obtain ⟨h1, h2, h3, _⟩ := step_offMarket ho h
      rw [h1, h2, h3]; exact hx hcl
  · rw [P.res]
    exact ⟨resting_nil hi.core.bookOk P.bids P.asks, events_nil hi.core.linv P.heap, P.empty⟩

theorem recreateMarket_inv {s s' : State} {a : CreateArgs} {now : Int} (h : recreateMarket s a now = .ok s') :
    s.closed = true ∧ a.marketKey = s.marketKey ∧ a.marketAuthority = s.g.market.marketAuthority ∧ a.check now = .ok () ∧
    s' = { g := { market := a.market, heap := EventHeap.init, accts := s.g.accts },
           book := { bids := BookSide.empty .bid, asks := BookSide.empty .ask },
           tokens := fun i =>
             if i = a.baseVault then { owner := a.marketAuthority, mint := a.baseMint, amount := 0 }
             else if i = a.quoteVault then { owner := a.marketAuthority, mint := a.quoteMint, amount := 0 }
             else s.tokens i,
           lamports := s.lamports, marketKey := a.marketKey, closed := false } := by
  unfold recreateMarket at h
  simp only [bind_ok, pure_ok, req_ok] at h
  obtain ⟨_, h1, _, ⟨h2, h3⟩, n, h4, rfl⟩ := h
  obtain ⟨h5, rfl⟩ := createMarket_inv h4
  exact ⟨h1, h2, h3, h5, rfl⟩

theorem asum_of_zero {f : OOA → Int} {as : Accts} (h : ∀ x ∈ as, f x.2 = 0) : asum f as = 0 := by
  unfold asum
  induction as with
  | nil => rfl
  | cons y ys ih =>
    rw [List.map_cons, List.sum_cons, h y List.mem_cons_self, ih (fun x hx => h x (List.mem_cons_of_mem _ hx))]; rfl

theorem recreate_Inv {s s' : State} {a : CreateArgs} {now : Int} (hi : Inv s) (hx : ClosedEmpty s) (h : recreateMarket s a now = .ok s') :
    Inv s' := by
  obtain ⟨hc, _, _, h1, rfl⟩ := recreateMarket_inv h
  obtain ⟨e1, e2, e3⟩ := hx hc
  have hh := accts_hold_nothing hi e1 e2 e3
  obtain ⟨c1, c2, c3, c4, c5, c6, c7, c8, c9, _⟩ := CreateArgs.check_ok h1
  have z : inU64 0 := by unfold inU64 u64Max; omega
  obtain ⟨O, q, hl⟩ := hi.core.linv
  refine ⟨⟨⟨fun s => ?_, fun s => ?_⟩, ?_, c3, c1, ⟨c5, c6, by simp only [CreateArgs.market]; omega, c8⟩, z⟩, c9, ?_, ?_⟩
  · cases s
    · exact ⟨_, empty_ok .bid⟩
    · exact ⟨_, empty_ok .ask⟩
  · cases s <;> rfl
  · have hrest : (Book.resting { bids := BookSide.empty .bid, asks := BookSide.empty .ask }) = [] := by
      decide +kernel
    rw [hrest]
    refine ⟨[], [], heapRep_init, List.Perm.refl _, ⟨hl.ginv.nodup, ?_, ?_, ?_, ?_, List.nodup_nil, List.nodup_nil, ?_, ?_, ?_⟩, ?_⟩
    · exact fun _ hx => nomatch hx
    · exact fun _ hx => nomatch hx
    · intro k b hb
      have hn := hh (k, b) (by obtain ⟨_, _, h, _⟩ := Accts.split hb; rw [h]; simp)
      have ha := hl.ginv.acct k b hb
      refine ⟨hn.bids.1, hn.asks, hn.bids.2, ?_, ha.len, ?_, ha.baseFree, ha.quoteFree, ha.locked, ha.refs⟩
      · rw [hn.fees]; exact Int.le_refl _
      · intro i oo hi hf
        rw [hn.slots oo (List.mem_of_getElem? hi)] at hf; cases hf
    · exact fun _ hx => nomatch hx
    · show (0 : Int) + 0 = _
      rw [asum_of_zero (fun x hx => by have := hh x hx; unfold acctB; rw [this.freeBase, this.asks]; omega)]; rfl
    · show (0 : Int) + 0 = _ + 0 + _
      rw [asum_of_zero (fun x hx => by
        have := hh x hx
        unfold acctQ; rw [this.freeQuote, this.bids.2, this.fees, this.rebates]; omega)]; rfl
    · show (0 : Int) = _
      rw [asum_of_zero (fun x hx => by have := hh x hx; unfold acctR; rw [this.rebates])]
    · exact fun _ hx => nomatch hx
  · refine ⟨?_, ?_, ?_, z⟩ <;> simp [CreateArgs.market]
  · have : a.quoteVault ≠ a.baseVault := Ne.symm c9
    refine ⟨?_, ?_, ?_, z⟩ <;> simp [CreateArgs.market, this]

theorem reachable_both {s : State} (h : Reachable s) : Inv s ∧ ClosedEmpty s := by
  induction h with
  | init a now tokens lamports s h =>
    refine ⟨create_Inv h, ?_⟩
    obtain ⟨_, rfl⟩ := createMarket_inv h
    intro hc; cases hc
  | step s s' op _ h ih => exact ⟨step_Inv ih.1 h, step_closedEmpty ih.1 ih.2 h⟩
  | again s s' a now _ h ih =>
    refine ⟨recreate_Inv ih.1 ih.2 h, ?_⟩
    obtain ⟨_, _, _, _, rfl⟩ := recreateMarket_inv h
    intro hc; cases hc

theorem reachable_Inv {s : State} (h : Reachable s) : Inv s := (reachable_both h).1

/-- The accounts of a closed market hold nothing. -/
theorem closed_holds_nothing {s : State} (hr : Reachable s) (hc : s.closed = true) :
    ∀ k a, s.g.accts.get? k = some a → HoldsNothing a := by
  obtain ⟨hi, hx⟩ := reachable_both hr
  obtain ⟨e1, e2, e3⟩ := hx hc
  intro k a ha
  exact accts_hold_nothing hi e1 e2 e3 (k, a) (by obtain ⟨_, _, h, _⟩ := Accts.split ha; rw [h]; simp)

/-- Properties of the configuration that are checked at creation hold forever. -/
theorem reachable_cfg {s : State} (h : Reachable s) :
    ∃ (a : CreateArgs) (now : Int), a.check now = .ok () ∧ SameCfg a.market s.g.market := by
  induction h with
  | init a now tokens lamports s h =>
    obtain ⟨h1, rfl⟩ := createMarket_inv h
    exact ⟨a, now, h1, SameCfg.refl _⟩
  | step s s' op hs h ih =>
    obtain ⟨a, now, h1, h2⟩ := ih
    exact ⟨a, now, h1, h2.trans (step_cfg (reachable_Inv hs) h).1⟩
  | again s s' a now hs h ih =>
    obtain ⟨_, _, _, h1, rfl⟩ := recreateMarket_inv h
    exact ⟨a, now, h1, SameCfg.refl _⟩

theorem reachable_mints {s : State} (h : Reachable s) : s.g.market.baseMint ≠ s.g.market.quoteMint := by
  obtain ⟨a, now, h1, h2⟩ := reachable_cfg h
  rw [h2.baseMint, h2.quoteMint]
  exact (CreateArgs.check_ok h1).2.2.2.2.2.2.2.2.2.1

end OB
