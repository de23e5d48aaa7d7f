import Verif.Spec.Exit
import Verif.Props.C23_Expired
import Verif.Props.C24_Close
/-!
Leaving a market: delivering all events, cancelling all orders of an account.
-/
namespace OB
open Spec

/-! ### runs -/

theorem Spec.Runs.reachable {s s' : State} {ops : List Op} (hr : Reachable s) (h : Runs s ops s') : Reachable s' := by
  induction h with
  | nil => exact hr
  | snoc op _ hs ih => exact .step _ _ _ ih hs

theorem Spec.Runs.append {s s1 s2 : State} {o1 o2 : List Op} (h1 : Runs s o1 s1) (h2 : Runs s1 o2 s2) : Runs s (o1 ++ o2) s2 := by
  induction h2 with
  | nil => rw [List.append_nil]; exact h1
  | snoc op _ hs ih => rw [← List.append_assoc]; exact .snoc op ih hs

theorem Spec.Runs.one {s s' : State} {op : Op} (h : step s op = .ok s') : Runs s [op] s' := Runs.snoc (ops := []) op .nil h

theorem Spec.Runs.cons {s s1 s2 : State} {op : Op} {ops : List Op} (h : step s op = .ok s1) (h2 : Runs s1 ops s2) : Runs s (op :: ops) s2 :=
  (Runs.one h).append h2

theorem cancelAllFor_marketKey {s s' : State} {k : Pubkey} {limit : Nat} {so : Option Side} {co : Option Nat} {q : Int}
    (h : cancelAllFor s k limit so co = .ok (q, s')) : s'.marketKey = s.marketKey := by
  unfold cancelAllFor at h
  simp only [bind_ok, pure_ok] at h
  obtain ⟨_, _, _, _, h⟩ := h
  injection h with _ h; rw [← h]

/-- The market stays at its address. -/
theorem step_marketKey {s s' : State} {op : Op} (hi : Inv s) (h : step s op = .ok s') : s'.marketKey = s.marketKey := by
  cases step_run h with
  | idle _ _ _ _ h => rw [h]
  | place op c o l r hop P => rw [P.res]
  | edit op c client e o l r hop P =>
    obtain ⟨q, s1, h1, _, h2⟩ := P.run
    obtain ⟨_, h3⟩ := cancelByClientId_inv h1
    have k1 := cancelAllFor_marketKey h3
    rcases h2 with ⟨e1, e2, r1, _, h4⟩ | ⟨_, _, rfl⟩
    · obtain ⟨P⟩ := placeOrder_inv h4
      rw [P.res]; exact k1
    · exact k1
  | multi c cancel t bids asks l now bs as rs hn hb ha P =>
    rw [P.res]
  | take c a o r ho P => rw [P.res]
  | consume op admin limit slots rem hop h =>
    unfold consumeEvents at h
    simp only [bind_ok, pure_ok] at h
    obtain ⟨_, _, _, _, _, _, _, _, h⟩ := h
    rw [← h]
  | cancelOne signer k id h =>
    obtain ⟨_, _, _, _, _, _, _, _, h1, _, _⟩ := cancelOrderIx_res hi h
    rw [h1]
  | cancel _ _ _ _ _ _ _ _ _ _ h => exact cancelAllFor_marketKey h
  | prune _ _ _ _ _ _ _ h1 => exact cancelAllFor_marketKey h1
  | deposit _ _ _ _ _ _ _ _ _ _ _ P => rw [P.res]
  | settle _ _ P => rw [P.res]
  | settleExpired _ _ _ _ P => rw [P.res]
  | sweep admin receiver h1 =>
    clear h
    rename' h1 => h
    unfold sweepFees at h
    simp only [bind_ok, pure_ok] at h
    obtain ⟨_, _, _, _, _, _, _, _, _, _, h⟩ := h
    rw [← h]
  | setExpired _ _ _ _ res => rw [res]
  | close _ _ P => rw [P.res]
  | createOO _ _ _ _ _ _ res => rw [res]
  | closeOO _ _ _ _ _ _ res => rw [res]
  | delegate _ _ _ _ _ _ res => rw [res]
  | token _ _ _ _ res => rw [res]
  | lamports _ _ _ _ res => rw [res]

theorem runs_marketKey {s s' : State} {ops : List Op} (hr : Reachable s) (h : Runs s ops s') : s'.marketKey = s.marketKey := by
  induction h with
  | nil => rfl
  | snoc op h1 hs ih => rw [step_marketKey (reachable_Inv (h1.reachable hr)) hs, ih]

/-! ### accounts -/

/-- Penalties are not negative, and the address derived for the vaults owns no account. -/
theorem reachable_accts {s : State} (hr : Reachable s) : ∀ k a, s.g.accts.get? k = some a →
    0 ≤ a.position.penaltyHeapCount ∧ a.owner ≠ s.g.market.marketAuthority := by
  induction hr with
  | init a now tokens lamports s h =>
    obtain ⟨_, rfl⟩ := createMarket_inv h
    exact fun _ _ h => nomatch h
  | step s s' op hs h ih =>
    have hi := reachable_Inv hs
    have hA : s'.g.market.marketAuthority = s.g.market.marketAuthority := (step_cfg hi h).1.authority
    intro k a' ha'
    rw [hA]
    cases ha : s.g.accts.get? k with
    | none =>
      obtain ⟨o, d, rfl, rfl⟩ := (step_accts hi h).new k a' ha ha'
      refine ⟨Int.le_refl _, ?_⟩
      cases step_run h with
      | idle _ _ h => cases h
      | place _ _ _ _ _ h => cases h
      | edit _ _ _ _ _ _ _ h => cases h
      | consume _ _ _ _ _ h => rcases h with ⟨h, _⟩ | ⟨h, _⟩ <;> cases h
      | cancel _ _ _ _ _ _ _ _ h => rcases h with ⟨h, _⟩ | ⟨h, _⟩ <;> cases h
      | deposit _ _ _ _ _ _ _ _ _ _ h => rcases h with h | h <;> cases h
      | createOO _ _ _ _ h2 _ _ => exact h2
    | some a =>
      obtain ⟨i1, i2⟩ := ih k a ha
      rcases (step_accts hi h).old k a ha with ⟨b, hb, st⟩ | ⟨hn, _⟩
      · rw [ha'] at hb; injection hb with hb; subst hb
        cases st with
        | kept own _ _ _ pen _ => exact ⟨by omega, by rw [own]; exact i2⟩
        | paid _ own _ pen _ => exact ⟨by omega, by rw [own]; exact i2⟩
        | settled c _ _ res => rw [res]; exact ⟨Int.le_refl _, i2⟩
        | delegate d _ res => rw [res]; exact ⟨i1, i2⟩
      · rw [hn] at ha'; cases ha'
  | again s s' a now hs h ih =>
    obtain ⟨_, _, hA, _, rfl⟩ := recreateMarket_inv h
    intro k b hb
    refine ⟨(ih k b hb).1, ?_⟩
    show b.owner ≠ a.marketAuthority
    rw [hA]; exact (ih k b hb).2

/-! ### delivering all events -/

/-- Bounds of what a queued event adds to the counters. -/
theorem queued_bounds {s : State} (hi : Inv s) (hx : Extra s) (hv : ∀ k a, s.g.accts.get? k = some a → a.position.makerVolume < 2 ^ 127)
    (hmv : s.g.market.makerVolume < 2 ^ 127) (hfa : s.g.market.feesAccrued < 2 ^ 127) {e : Event} (he : e ∈ s.g.heap.events) :
    (0 ≤ eventVolume s.g.market e ∧ eventVolume s.g.market e ≤ i64Max) ∧ (0 ≤ eventRebate s.g.market e ∧ eventRebate s.g.market e ≤ i64Max) := by
  obtain ⟨O, q, hw⟩ := hi.core.linv
  rw [hw.heap.events] at he
  obtain ⟨⟨i, e'⟩, hm, rfl⟩ := List.mem_map.mp he
  have hs : s.g.heap.atSlot i = some e' := (atSlot_some hw.heap).mpr hm
  have hb : (2 : Int) ^ 127 + 1 * i64Max ≤ u128Max := by decide
  obtain ⟨_, _, _, _, _, h1, h2⟩ := hw.apply_ok hi.covered (cnt := 0)
    ⟨fun k a ha => ⟨(hx.lots k a ha).1, (hx.lots k a ha).2, by have := hv k a ha; simp only [Nat.zero_add, Int.natCast_one]; omega⟩,
      ⟨hx.volume, by simp only [Nat.zero_add, Int.natCast_one]; omega⟩, ⟨hx.fees, by simp only [Nat.zero_add, Int.natCast_one]; omega⟩⟩ hs
  exact ⟨h1, h2⟩

/-- The slot of a queued out event is in use, so nothing has touched its record. -/
theorem locked_kept {s' : State} (hi' : Inv s') {e : Event} (he : e ∈ s'.g.heap.events) {a a' : OOA}
    (ha' : s'.g.accts.get? (eventAccount e) = some a') {p : Nat → Bool}
    (hsl : ∀ (i : Nat), a'.openOrders[i]? = a.openOrders[i]?.map (fun oo => if p i then OpenOrder.default else oo)) :
    eventLockedAt a' e = eventLockedAt a e := by
  obtain ⟨O, q, hw⟩ := hi'.core.linv
  obtain ⟨o1, ho1, hk⟩ := hw.mem_ev he
  cases e with
  | fill f => rfl
  | out ev =>
    cases o1 with
    | rest s c l oo => cases hk
    | fill f oo => cases hk
    | out ev' oo =>
      have e1 : ev' = ev := by cases hk; rfl
      subst e1
      have l1 : a'.openOrders[ev'.ownerSlot]? = some oo := hw.ginv.link _ ho1 rfl a' ha'
      have hu : oo.isFree = false := (hw.ginv.ok _ ho1).used rfl
      have h := hsl ev'.ownerSlot
      rw [l1] at h
      cases hao : a.openOrders[ev'.ownerSlot]? with
      | none => rw [hao] at h; cases h
      | some oo2 =>
        rw [hao, Option.map_some] at h
        injection h with h
        by_cases hp : p ev'.ownerSlot
        · rw [if_pos hp] at h; rw [h] at hu; cases hu
        · rw [if_neg hp] at h
          simp only [eventLockedAt, l1, hao, h]

theorem Spec.Delivered.ledger {s s' : State} {es : List Event} (h : Delivered s s' es) : DeliveredL s.g s'.g es :=
  ⟨h.keys, h.accts, h.known, h.market⟩

theorem Spec.Delivered.refl (s : State) : Delivered s s [] := by
  have := DeliveredL.nil s.g
  exact ⟨this.keys, this.accts, this.known, this.market, rfl, rfl, rfl, rfl⟩

theorem Spec.Delivered.cons {s s1 s' : State} {e : Event} {es : List Event} (hi1 : Inv s1) (h1 : Delivered s s1 [e]) (h2 : Delivered s1 s' es)
    (hes : s1.g.heap.events = es) : Delivered s s' (e :: es) := by
  have := h1.ledger.cons h2.ledger (fun x hx a a1 ha ha1 => by
    obtain ⟨a2, ha2, cr⟩ := h1.accts _ a ha
    rw [ha1] at ha2; injection ha2 with ha2; subst ha2
    exact locked_kept hi1 (by rw [hes]; exact hx) ha1 cr.slots)
  exact ⟨this.keys, this.accts, this.known, this.market, h2.book.trans h1.book, h2.tokens.trans h1.tokens, h2.lamports.trans h1.lamports,
    h2.closed.trans h1.closed⟩

/-- All events can be delivered, one at a time. -/
theorem deliver_all {es : List Event} {s : State} (hr : Reachable s) (he : s.g.heap.events = es)
    (hv : ∀ k a, s.g.accts.get? k = some a → a.position.makerVolume + es.length * i64Max < 2 ^ 127)
    (hmv : s.g.market.makerVolume + es.length * i64Max < 2 ^ 127) (hfa : s.g.market.feesAccrued + es.length * i64Max < 2 ^ 127) :
    ∃ s', Runs s (es.map (fun e => .consumeEvents s.g.market.consumeEventsAdmin 1 [eventAccount e])) s' ∧ s'.g.heap.events = [] ∧
      Delivered s s' es := by
  induction es generalizing s with
  | nil => exact ⟨s, .nil, he, Delivered.refl s⟩
  | cons e es ih =>
    have hpos := i64_nonneg_mul es.length
    rw [List.length_cons, succ_mul_i64] at hmv hfa
    have hm0 : 0 ≤ i64Max := by decide
    have hv1 : ∀ k a, s.g.accts.get? k = some a → a.position.makerVolume + es.length * i64Max + i64Max < 2 ^ 127 := by
      intro k a ha
      have := hv k a ha
      rw [List.length_cons, succ_mul_i64] at this
      omega
    have hc : CountersLow s := ⟨by omega, by omega, fun k a ha => by have := hv1 k a ha; omega⟩
    obtain ⟨s1, h1, h2, h3⟩ := C40_consume_head s hr hc e es he [eventAccount e] (by simp)
    obtain ⟨⟨b1, b2⟩, ⟨b3, b4⟩⟩ := queued_bounds (reachable_Inv hr) (reachable_Extra hr) hc.2.2 hc.1 hc.2.1 (e := e) (by rw [he]; simp)
    have hm := h3.market
    simp only [total_one] at hm
    have hr1 : Reachable s1 := .step _ _ _ hr h1
    obtain ⟨s', r1, r2, r3⟩ := ih hr1 h2 (by
      intro k a' ha'
      cases ha : s.g.accts.get? k with
      | none =>
        have : (s1.g.accts.get? k).isSome := by rw [ha']; rfl
        rw [Accts.isSome_get?, h3.keys, ← Accts.isSome_get?, ha] at this; cases this
      | some a =>
        obtain ⟨a2, ha2, cr⟩ := h3.accts k a ha
        rw [ha'] at ha2; injection ha2 with ha2; subst ha2
        have := hv1 k a ha
        have tb := total_filter_one e k (eventVolume s.g.market) b1 b2
        rw [cr.makerVolume]; omega) (by rw [hm]; simp only; omega) (by rw [hm]; simp only; omega)
    refine ⟨s', ?_, r2, Delivered.cons (reachable_Inv hr1) h3 r3 h2⟩
    rw [List.map_cons]
    have hadm : s1.g.market.consumeEventsAdmin = s.g.market.consumeEventsAdmin := by rw [hm]
    rw [hadm] at r1
    exact .cons h1 r1

theorem events_length {s : State} (hi : Inv s) : s.g.heap.events.length ≤ 600 := by
  obtain ⟨O, q, hw⟩ := hi.core.linv
  obtain ⟨fr, hf⟩ := hw.heap
  rw [HeapRep.events ⟨fr, hf⟩, List.length_map]
  have := hf.len
  unfold maxNumEvents at this; omega

theorem consume_all {s : State} (hr : Reachable s) (hc : CountersFresh s) :
    ∃ s', Runs s (consumeOps s) s' ∧ s'.g.heap.events = [] ∧ Delivered s s' s.g.heap.events := by
  have hl := events_length (reachable_Inv hr)
  have hb : (s.g.heap.events.length : Int) * i64Max ≤ 600 * i64Max := Int.mul_le_mul_of_nonneg_right (by omega) (by decide)
  have hb2 : (2 : Int) ^ 126 + 600 * i64Max ≤ 2 ^ 127 := by decide
  exact deliver_all hr rfl (fun k a ha => by have := hc.accts k a ha; omega) (by have := hc.volume; omega) (by have := hc.fees; omega)

/-! ### cancelling the orders of an account -/

theorem Spec.Cancels.trans {s s1 s2 : State} {k : Pubkey} {l1 l2 : List (Side × Comp × LeafNode)} (h1 : Cancels s s1 k l1)
    (h2 : Cancels s1 s2 k l2) : Cancels s s2 k (l1 ++ l2) := by
  refine ⟨?_, ?_, ?_, fun j hj => (h2.others j hj).trans (h1.others j hj), h2.market.trans h1.market, h2.heap.trans h1.heap,
    h2.tokens.trans h1.tokens, h2.lamports.trans h1.lamports, h2.closed.trans h1.closed⟩
  · rw [List.append_assoc]
    exact h1.book.trans (h2.book.append_left _)
  · intro x hx
    rcases List.mem_append.mp hx with hx | hx
    · exact h1.owner x hx
    · exact h2.owner x hx
  · obtain ⟨a, b, e1, e2, e3⟩ := h1.acct
    obtain ⟨b', c, f1, f2, f3⟩ := h2.acct
    rw [e2] at f1; injection f1 with f1; subst f1
    rw [h1.market] at f3
    exact ⟨a, c, e1, f2, e3.trans f3⟩

theorem Spec.Cancels.refl {s : State} {k : Pubkey} {a : OOA} (ha : s.g.accts.get? k = some a) : Cancels s s k [] :=
  ⟨List.Perm.refl _, (fun _ h => nomatch h), ⟨a, a, ha, ha, Released.nil _ _⟩, fun _ _ => rfl, rfl, rfl, rfl, rfl, rfl⟩

/-- Any orders of an account can be cancelled, one at a time. -/
theorem cancel_list {ls rest : List (Side × Comp × LeafNode)} {s : State} (hr : Reachable s) (hn : s.g.market.seqNum < 2 ^ 63) {k : Pubkey} {a : OOA}
    (ha : s.g.accts.get? k = some a) (hna : a.owner ≠ s.g.market.marketAuthority) (hp : s.book.resting.Perm (ls ++ rest))
    (ho : ∀ x ∈ ls, x.2.2.owner = k) :
    ∃ s', Runs s (ls.map (fun x => .cancelOrder a.owner k x.2.2.key)) s' ∧ Cancels s s' k ls := by
  induction ls generalizing s a with
  | nil => exact ⟨s, .nil, Cancels.refl ha⟩
  | cons x ls ih =>
    have hx : x ∈ s.book.resting := hp.mem_iff.mpr (by simp)
    have hk : x.2.2.owner = k := ho x (by simp)
    obtain ⟨s1, h1, h2⟩ := C40_cancel_order s hr hn x hx a.owner ⟨a, by rw [hk]; exact ha, .inl rfl⟩ hna
    rw [hk] at h1 h2
    obtain ⟨b, a1, e1, e2, e3⟩ := h2.acct
    rw [ha] at e1; injection e1 with e1; subst e1
    obtain ⟨s', r1, r2⟩ := ih (s := s1) (a := a1) (.step _ _ _ hr h1) (by rw [h2.market]; exact hn) e2 (by rw [e3.owner, h2.market]; exact hna)
      (by
        have := h2.book.symm.trans hp
        exact List.Perm.cons_inv this) (fun y hy => ho y (by simp [hy]))
    refine ⟨s', ?_, h2.trans r2⟩
    rw [List.map_cons]
    rw [e3.owner] at r1
    exact .cons h1 r1

/-! ### what is due -/

theorem sumOver_perm {l1 l2 : List (Side × Comp × LeafNode)} (h : l1.Perm l2) (f : Side → Comp → LeafNode → Int) : sumOver l1 f = sumOver l2 f := by
  induction h with
  | nil => rfl
  | cons x _ ih => rw [sumOver_cons, sumOver_cons, ih]
  | swap x y l => simp only [sumOver_cons]; omega
  | trans _ _ ih1 ih2 => rw [ih1, ih2]

theorem Spec.DueKept.refl (s : State) (k : Pubkey) : DueKept s s k := fun a ha => ⟨a, ha, rfl, rfl, rfl⟩

theorem Spec.DueKept.trans {s s1 s2 : State} {k : Pubkey} (h1 : DueKept s s1 k) (h2 : DueKept s1 s2 k) : DueKept s s2 k := by
  intro a ha
  obtain ⟨b, hb, e0, e1, e2⟩ := h1 a ha
  obtain ⟨c, hc, f0, f1, f2⟩ := h2 b hb
  exact ⟨c, hc, f0.trans e0, f1.trans e1, f2.trans e2⟩

/-- Nothing that matters for what is due to the account is different. -/
theorem due_same {s s' : State} {k : Pubkey} (ha : s'.g.accts.get? k = s.g.accts.get? k) (hb : (ordersOf s k).Perm (ordersOf s' k))
    (he : eventsOf s' k = eventsOf s k) (m1 : s'.g.market.baseLotSize = s.g.market.baseLotSize)
    (m2 : s'.g.market.quoteLotSize = s.g.market.quoteLotSize) (m3 : s'.g.market.makerFee = s.g.market.makerFee) : DueKept s s' k := by
  intro a h
  refine ⟨a, by rw [ha]; exact h, rfl, ?_, ?_⟩
  · unfold dueBase
    rw [he, sumOver_perm hb]
    congr 1
    · congr 1
      exact total_congr (fun e _ => by cases e <;> simp only [creditBase, m1])
    · unfold lockedBase; rw [m1]
  · unfold dueQuote
    rw [he, sumOver_perm hb]
    congr 1
    · congr 1
      exact total_congr (fun e _ => by
        cases e <;> simp only [creditQuote, fillQuote, fillRebate, fillMakerFee, fillLocked, fillLockedFee, bidValue, bidFee, m2, m3])
    · unfold heldQuote heldFee bidFee bidValue; rw [m2, m3]

/-- Delivering all events changes nothing of what is due. -/
theorem Spec.Delivered.due {s s' : State} (h : Delivered s s' s.g.heap.events) (he : s'.g.heap.events = []) (k : Pubkey) : DueKept s s' k := by
  intro a ha
  obtain ⟨a', ha', cr⟩ := h.accts k a ha
  have ho : ordersOf s' k = ordersOf s k := by unfold ordersOf; rw [h.book]
  have hz : eventsOf s' k = [] := by unfold eventsOf; rw [he]; rfl
  refine ⟨a', ha', cr.owner, ?_, ?_⟩
  · unfold dueBase
    rw [ho, hz, cr.base, total_nil, h.market]
    unfold eventsOf lockedBase; simp only; omega
  · unfold dueQuote
    rw [ho, hz, cr.quote, total_nil, h.market]
    unfold eventsOf heldQuote heldFee bidFee bidValue; simp only; omega

/-- Cancelling changes nothing of what is due. -/
theorem Spec.Cancels.due {s s' : State} {k : Pubkey} {ls : List (Side × Comp × LeafNode)} (hi' : Inv s') (h : Cancels s s' k ls) (j : Pubkey) :
    DueKept s s' j := by
  have hev : eventsOf s' j = eventsOf s j := by unfold eventsOf; rw [h.heap]
  by_cases hj : j = k
  · subst hj
    intro a ha
    obtain ⟨b, a', e1, e2, r⟩ := h.acct
    rw [ha] at e1; injection e1 with e1; subst e1
    have ho : (ordersOf s j).Perm (ls ++ ordersOf s' j) := by
      have := h.book.filter (fun x => decide (x.2.2.owner = j))
      have hls : ls.filter (fun x => decide (x.2.2.owner = j)) = ls := List.filter_eq_self.mpr (fun x hx => by simpa using h.owner x hx)
      rw [List.filter_append, hls] at this
      exact this
    refine ⟨a', e2, r.owner, ?_, ?_⟩
    · unfold dueBase
      rw [sumOver_perm ho, sumOver_append, r.base, hev, h.market]; omega
    · unfold dueQuote
      have : total (eventsOf s j) (creditQuote s.g.market a') = total (eventsOf s j) (creditQuote s.g.market a) := by
        refine total_congr (fun e he => ?_)
        rw [← hev] at he
        simp only [eventsOf, List.mem_filter, decide_eq_true_eq] at he
        have := locked_kept hi' he.1 (by rw [he.2]; exact e2) r.slots
        cases e <;> simp only [creditQuote, this]
      rw [sumOver_perm ho, sumOver_append, r.quote, hev, h.market, this]; omega
  · refine due_same (h.others j hj) ?_ hev (by rw [h.market]) (by rw [h.market]) (by rw [h.market])
    have := h.book.filter (fun x => decide (x.2.2.owner = j))
    have hls : ls.filter (fun x => decide (x.2.2.owner = j)) = [] := List.filter_eq_nil_iff.mpr (fun x hx => by
      have := h.owner x hx
      simp only [decide_eq_true_eq]; rw [this]; exact fun e => hj e.symm)
    rw [List.filter_append, hls] at this
    exact this

theorem Spec.Settles.due {s s' : State} {c : SettleCtx} {a : OOA} (h : Settles s s' c a) {j : Pubkey} (hj : j ≠ c.ooKey) : DueKept s s' j :=
  due_same (h.others j hj) (by unfold ordersOf; rw [h.book]) (by unfold eventsOf; rw [h.heap]) (by rw [h.market]) (by rw [h.market])
    (by rw [h.market])

/-! ### an account without orders and events -/

theorem LInvW.obl_none {g : Ledger} {L : Rests} {dB dQ : Int} {ex : Pubkey → Int} {n : Nat} {O : List Obl} {q : List (Nat × Event)}
    (h : LInvW g L dB dQ ex n O q) {k : Pubkey} (hL : ∀ x ∈ L, x.2.2.owner ≠ k) (hE : ∀ e ∈ g.heap.events, eventAccount e ≠ k) :
    ∀ o ∈ O, o.acct ≠ k := by
  intro o ho hk
  have hm : o.k ∈ restKs L ++ evKs q := h.kinds.mem_iff.mp (List.mem_map.mpr ⟨o, ho, rfl⟩)
  rcases List.mem_append.mp hm with hm | hm
  · obtain ⟨x, hx, e⟩ := List.mem_map.mp hm
    cases o with
    | rest s c l oo => injection e with e1 e2 e3; exact hL x hx (by rw [e3]; exact hk)
    | out ev oo => cases e
    | fill f oo => cases e
  · obtain ⟨x, hx, e⟩ := List.mem_map.mp hm
    have hev : x.2 ∈ g.heap.events := by rw [h.heap.events]; exact List.mem_map.mpr ⟨x, hx, rfl⟩
    cases o with
    | rest s c l oo => cases e
    | out ev oo => injection e with e; exact hE _ hev (by rw [e]; exact hk)
    | fill f oo => injection e with e; exact hE _ hev (by rw [e]; exact hk)

/-- An account without orders and events has nothing locked, except maker fees. -/
theorem idle_acct {s : State} (hi : Inv s) {k : Pubkey} {a : OOA} (ha : s.g.accts.get? k = some a) (ho : ordersOf s k = [])
    (he : eventsOf s k = []) :
    a.position.bidsBaseLots = 0 ∧ a.position.asksBaseLots = 0 ∧ a.position.bidsQuoteLots = 0 ∧ ∀ oo ∈ a.openOrders, oo.isFree = true := by
  obtain ⟨O, q, hw⟩ := hi.core.linv
  have hn := hw.obl_none (k := k) (fun x hx e => by
    have : x ∈ ordersOf s k := List.mem_filter.mpr ⟨hx, by simpa using e⟩
    rw [ho] at this; cases this) (fun x hx e => by
    have : x ∈ eventsOf s k := List.mem_filter.mpr ⟨hx, by simpa using e⟩
    rw [he] at this; cases this)
  have hA := hw.ginv.acct k a ha
  refine ⟨?_, ?_, ?_, slots_free hA hn⟩
  · rw [hA.bids]; exact osum_zero (fun o h => if_neg (fun c => hn o h c.1))
  · rw [hA.asks]; exact osum_zero (fun o h => if_neg (fun c => hn o h c.1))
  · rw [hA.quote]; exact osum_zero (fun o h => if_neg (fun c => hn o h c.1))

/-- After settling, an account without orders and events holds nothing. -/
theorem idle_settled {s : State} (hi : Inv s) (hx : Extra s) {k : Pubkey} {a : OOA} (ha : s.g.accts.get? k = some a)
    (ho : ordersOf s k = []) (he : eventsOf s k = []) : HoldsNothing (paidOut s.g.market a) ∧ (paidOut s.g.market a).position.isEmpty = true := by
  obtain ⟨h1, h2, h3, h4⟩ := idle_acct hi ha ho he
  have hf : a.position.lockedMakerFees - feeRemainder s.g.market a = 0 := by
    unfold feeRemainder
    by_cases hm : 0 < s.g.market.makerFee
    · rw [if_pos ⟨hm, h1⟩]; omega
    · rw [if_neg (fun c => hm c.1)]
      have := hx.locked (by omega) k a ha
      omega
  refine ⟨⟨rfl, rfl, ⟨h1, h3⟩, h2, hf, rfl, h4⟩, isEmpty_iff.mpr ?_⟩
  constructor <;> first | rfl | assumption

theorem due_idle {s : State} {k : Pubkey} {a : OOA} (ho : ordersOf s k = []) (he : eventsOf s k = []) :
    dueBase s k a = a.position.baseFreeNative ∧ dueQuote s k a = a.position.quoteFreeNative := by
  unfold dueBase dueQuote
  rw [ho, he]
  simp only [total_nil, sumOver_nil]
  constructor <;> omega

/-- The bounds a settlement needs, from room for all deposits. -/
theorem settle_room {s : State} (hr : Reachable s) {k : Pubkey} {a : OOA} (ha : s.g.accts.get? k = some a) :
    a.position.baseFreeNative ≤ s.g.market.baseDepositTotal ∧
    a.position.quoteFreeNative + rebateOf s.g.market a ≤ s.g.market.quoteDepositTotal ∧ 0 ≤ rebateOf s.g.market a := by
  obtain ⟨_, h1, h2, h3⟩ := settleAccounting_ok hr ha false (fun h => by cases h)
  have h4 := ((reachable_Inv hr).core.linv.acctOk ha).2.2.2.1
  rw [sweepOf_eq] at h1 h3
  unfold inU64 at h4
  unfold rebateOf
  exact ⟨h2, h1, by omega⟩

/-! ### a closed market -/

/-- On a closed market, accounts only change their delegate or, if empty, disappear. -/
theorem closed_accts {s s' : State} {op : Op} (hc : s.closed = true) (h : step s op = .ok s') :
    s'.g.accts = s.g.accts ∨
    (∃ j b, s.g.accts.get? j = some b ∧ EmptyPos b.position ∧ s'.g.accts = s.g.accts.del j) ∨
    (∃ j b d, s.g.accts.get? j = some b ∧ s'.g.accts = s.g.accts.set j { b with delegate := d }) := by
  have no : ∀ {P : Prop}, s.closed = false → P := fun e => by rw [hc] at e; cases e
  cases step_run h with
  | idle _ _ _ auth _ => obtain ⟨_, _, e, _⟩ := authPlace_ok auth; exact no e
  | place op c o l r hop P => exact no P.isOpen
  | edit op c client e o l r hop P => obtain ⟨_, _, e, _⟩ := authPlace_ok P.auth; exact no e
  | multi c cancel t bids asks l now bs as rs hn hb ha P => obtain ⟨_, _, e, _⟩ := authPlace_ok P.auth; exact no e
  | take c a o r ho P => exact no P.isOpen
  | consume op admin limit slots rem hop h1 => exact no (consumeEvents_inv h1).1
  | cancelOne signer k id h1 =>
    unfold cancelOrderIx at h1
    simp only [bind_ok] at h1
    obtain ⟨_, h1, _⟩ := h1
    exact no (authCancel_ok h1).2.1
  | cancel _ _ _ _ _ _ _ _ _ auth _ => exact no (authCancel_ok auth).2.1
  | prune _ _ _ _ _ auth _ _ => exact no (authClose_ok auth).1
  | deposit _ _ _ _ _ _ _ _ _ _ _ P => exact no P.isOpen
  | settle _ h1 _ => exact no (settleFunds_inv h1).2.1
  | settleExpired _ _ _ h1 _ => exact no (settleFundsExpired_inv h1).2.1
  | sweep admin receiver h1 => exact no (sweepFees_inv h1).1
  | setExpired _ _ auth _ _ => exact no (authClose_ok auth).1
  | close _ _ P => exact no (authClose_ok P.auth).1
  | createOO _ _ _ e _ _ _ => exact no e
  | closeOO j owner b hb _ he res => exact .inr (.inl ⟨j, b, hb, he, by rw [res]⟩)
  | delegate j owner d b hb _ res => exact .inr (.inr ⟨j, b, d, hb, by rw [res]⟩)
  | token _ _ _ _ res => exact .inl (by rw [res])
  | lamports _ _ _ _ res => exact .inl (by rw [res])

theorem closed_step {s s' : State} {op : Op} (hi : Inv s) (hc : s.closed = true) (h : step s op = .ok s') {k : Pubkey} {a : OOA}
    (ha : s.g.accts.get? k = some a) : (∃ a', s'.g.accts.get? k = some a' ∧ a'.position = a.position) ∨ EmptyPos a.position := by
  rcases closed_accts hc h with e | ⟨j, b, hb, he, e⟩ | ⟨j, b, d, hb, e⟩
  · exact .inl ⟨a, by rw [e]; exact ha, rfl⟩
  · by_cases hk : k = j
    · subst hk
      rw [ha] at hb; injection hb with hb; subst hb
      exact .inr he
    · obtain ⟨O, q, hw⟩ := hi.core.linv
      exact .inl ⟨a, by rw [e, Accts.get?_del hw.ginv.nodup, if_neg hk]; exact ha, rfl⟩
  · by_cases hk : k = j
    · subst hk
      rw [ha] at hb; injection hb with hb; subst hb
      exact .inl ⟨{ a with delegate := d }, by rw [e]; exact Accts.get?_set_self _ ha, rfl⟩
    · exact .inl ⟨a, by rw [e, Accts.get?_set_ne _ hk]; exact ha, rfl⟩

/-- An account of a closed market that owes a penalty stays forever. -/
theorem closed_penalty {s s' : State} {ops : List Op} (hr : Reachable s) (hc : s.closed = true) (h : Runs s ops s') {k : Pubkey} {a : OOA}
    (ha : s.g.accts.get? k = some a) (hp : a.position.penaltyHeapCount ≠ 0) :
    s'.closed = true ∧ ∃ a', s'.g.accts.get? k = some a' ∧ a'.position = a.position := by
  induction h with
  | nil => exact ⟨hc, a, ha, rfl⟩
  | snoc op h1 hs ih =>
    obtain ⟨c1, a1, ha1, e1⟩ := ih
    have hr1 := h1.reachable hr
    refine ⟨(C24_stays_closed hr1 hs c1).1, ?_⟩
    rcases closed_step (reachable_Inv hr1) c1 hs ha1 with ⟨a2, ha2, e2⟩ | he
    · exact ⟨a2, ha2, e2.trans e1⟩
    · exact absurd (by rw [← e1]; exact he.pen) hp

end OB
