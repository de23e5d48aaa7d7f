import Verif.Proofs.Facts
import Verif.Props.Scenario
/-!
C38  Every live order has exactly one home.
C39  Locked balances equal outstanding orders.
-/
namespace OB
open Spec

/-- A used slot: exactly one resting order or queued event stands for it. -/
theorem C38_used_slot_has_one_home (s : State) (h : Reachable s) (k : Pubkey) (a : OOA) (ha : (k, a) ∈ s.g.accts)
    (i : Nat) (oo : OpenOrder) (ho : a.openOrders[i]? = some oo) (hu : oo.isFree = false) :
    (restingIn s k i).length + (freeing s k i).length = 1 := by
  have hi := reachable_Inv h
  obtain ⟨O, q, hl⟩ := hi.core.linv
  have h1 := slot_used hi (acct_get hl.ginv.nodup ha) ho hu
  have h2 := slot_count hi k i
  omega

/-- A free slot: none. -/
theorem C38_free_slot_has_no_home (s : State) (h : Reachable s) (k : Pubkey) (a : OOA) (ha : (k, a) ∈ s.g.accts)
    (i : Nat) (oo : OpenOrder) (ho : a.openOrders[i]? = some oo) (hu : oo.isFree = true) :
    restingIn s k i = [] ∧ freeing s k i = [] := by
  have hi := reachable_Inv h
  obtain ⟨O, q, hl⟩ := hi.core.linv
  have hc := hl.count (OKind.holds k i)
  have hn : O.filter (fun o => o.k.holds k i) = [] := by
    rw [List.filter_eq_nil_iff]
    intro o hm hh
    have ht := (Obl.holds_iff k i o).mp hh
    have hlk := hl.ginv.link o hm ht.1 a (by rw [ht.2.1]; exact acct_get hl.ginv.nodup ha)
    rw [ht.2.2, ho] at hlk
    injection hlk with hlk
    have := (hl.ginv.ok o hm).used ht.1
    rw [← hlk, hu] at this
    cases this
  rw [hn] at hc
  have e1 : restingIn s k i = s.book.resting.filter (fun x => (OKind.rest x.1 x.2.1 x.2.2).holds k i) := rfl
  have e2 : freeing s k i = s.g.heap.events.filter (fun e => (OKind.ev e).holds k i) := rfl
  rw [← e1, ← e2] at hc
  simp only [List.length_nil] at hc
  exact ⟨List.length_eq_zero_iff.mp (by omega), List.length_eq_zero_iff.mp (by omega)⟩

/-- Every resting order: its owner's account exists and the slot it names records this very order. -/
theorem C38_resting_order_is_recorded (s : State) (h : Reachable s) (sd : Side) (c : Comp) (l : LeafNode)
    (hm : (sd, c, l) ∈ s.book.resting) :
    ∃ a oo, (l.owner, a) ∈ s.g.accts ∧ a.openOrders[l.ownerSlot]? = some oo ∧ oo.isFree = false ∧ oo.id = l.key ∧ oo.side = sd ∧
      oo.comp = c ∧ oo.clientId = l.clientOrderId ∧ 1 ≤ l.quantity := by
  obtain ⟨a, oo, hr⟩ := rest_slot (reachable_Inv h) hm
  exact ⟨a, oo, acct_mem hr.acct, hr.slot, hr.used, hr.id, hr.side, hr.comp, hr.client, hr.qty⟩

/-- Every queued event: its account exists; an event that frees a slot names a used slot of the same side. -/
theorem C38_event_is_recorded (s : State) (h : Reachable s) (e : Event) (he : e ∈ s.g.heap.events) :
    ∃ a, (eventAccount e, a) ∈ s.g.accts ∧ 1 ≤ eventQuantity e ∧
      ∀ i, frees (eventAccount e) i e = true → ∃ oo, a.openOrders[i]? = some oo ∧ oo.isFree = false ∧ oo.side = eventSide e := by
  have hi := reachable_Inv h
  obtain ⟨O, q, hl⟩ := hi.core.linv
  obtain ⟨o, ho, hk⟩ := hl.mem_ev he
  obtain ⟨a, ha⟩ := hl.ginv.owner o ho
  have hok := hl.ginv.ok o ho
  have hlk := hl.ginv.link o ho
  cases o with
  | rest s c l oo => cases hk
  | out ev oo =>
    cases hk
    refine ⟨a, acct_mem ha, hok.qty, fun i hf => ⟨oo, ?_, hok.used rfl, hok.oside rfl⟩⟩
    simp only [frees, eventAccount, decide_eq_true_eq, true_and] at hf
    rw [← hf]; exact hlk rfl a ha
  | fill f oo =>
    cases hk
    refine ⟨a, acct_mem ha, hok.qty, fun i hf => ?_⟩
    simp only [frees, eventAccount, decide_eq_true_eq, true_and] at hf
    refine ⟨oo, ?_, hok.used hf.1, hok.oside hf.1⟩
    rw [← hf.2]; exact hlk hf.1 a ha

/-- Account keys are distinct, every account has 24 slots. -/
theorem C38_accounts_wellformed (s : State) (h : Reachable s) :
    (s.g.accts.map (·.1)).Nodup ∧ ∀ x ∈ s.g.accts, x.2.openOrders.length = 24 := by
  obtain ⟨O, q, hl⟩ := (reachable_Inv h).core.linv
  exact ⟨hl.ginv.nodup, fun x hx => (hl.ginv.acct x.1 x.2 (acct_get hl.ginv.nodup hx)).len⟩

theorem C39_bids_base_lots (s : State) (h : Reachable s) (k : Pubkey) (a : OOA) (ha : (k, a) ∈ s.g.accts) :
    a.position.bidsBaseLots =
      sumOrders s (fun sd _ l => if l.owner = k ∧ sd = .bid then l.quantity else 0) +
      sumEvents s (fun e => if eventAccount e = k ∧ eventSide e = .bid then eventQuantity e else 0) := by
  obtain ⟨O, q, hl⟩ := (reachable_Inv h).core.linv
  rw [(hl.ginv.acct k a (acct_get hl.ginv.nodup ha)).bids]
  exact hl.sum (cB k) (fun x => match x with
    | .rest sd _ l => if l.owner = k ∧ sd = .bid then l.quantity else 0
    | .ev e => if eventAccount e = k ∧ eventSide e = .bid then eventQuantity e else 0) (by intro o _; cases o <;> rfl)

theorem C39_asks_base_lots (s : State) (h : Reachable s) (k : Pubkey) (a : OOA) (ha : (k, a) ∈ s.g.accts) :
    a.position.asksBaseLots =
      sumOrders s (fun sd _ l => if l.owner = k ∧ sd = .ask then l.quantity else 0) +
      sumEvents s (fun e => if eventAccount e = k ∧ eventSide e = .ask then eventQuantity e else 0) := by
  obtain ⟨O, q, hl⟩ := (reachable_Inv h).core.linv
  rw [(hl.ginv.acct k a (acct_get hl.ginv.nodup ha)).asks]
  exact hl.sum (cA k) (fun x => match x with
    | .rest sd _ l => if l.owner = k ∧ sd = .ask then l.quantity else 0
    | .ev e => if eventAccount e = k ∧ eventSide e = .ask then eventQuantity e else 0) (by intro o _; cases o <;> rfl)

theorem C39_bids_quote_lots (s : State) (h : Reachable s) (k : Pubkey) (a : OOA) (ha : (k, a) ∈ s.g.accts) :
    a.position.bidsQuoteLots =
      sumOrders s (fun sd c l => if l.owner = k ∧ sd = .bid then l.quantity * lockedAt c l else 0) +
      sumEvents s (fun e => if eventAccount e = k ∧ eventSide e = .bid then eventQuantity e * eventLockedAt a e else 0) := by
  obtain ⟨O, q, hl⟩ := (reachable_Inv h).core.linv
  have hget := acct_get hl.ginv.nodup ha
  rw [(hl.ginv.acct k a hget).quote]
  refine hl.sum (cQ k) (fun x => match x with
    | .rest sd c l => if l.owner = k ∧ sd = .bid then l.quantity * lockedAt c l else 0
    | .ev e => if eventAccount e = k ∧ eventSide e = .bid then eventQuantity e * eventLockedAt a e else 0) ?_
  intro o ho
  have hok := hl.ginv.ok o ho
  have hlk := hl.ginv.link o ho
  cases o with
  | rest sd c l oo =>
    show (if l.owner = k ∧ sd = .bid then l.quantity * oo.lockedPrice else 0) =
      (if l.owner = k ∧ sd = .bid then l.quantity * lockedAt c l else 0)
    by_cases hc : l.owner = k ∧ sd = .bid
    · rw [if_pos hc, if_pos hc]
      have hr := hok.rest _ _ _ _ rfl
      have : oo.lockedPrice = lockedAt c l := by
        cases c with
        | fixed => exact (hr.fixed rfl).2.2.2
        | pegged => exact (hr.pegged rfl).2 hc.2
      rw [this]
    · rw [if_neg hc, if_neg hc]
  | out e oo =>
    show (if e.owner = k ∧ e.side = .bid then e.quantity * oo.lockedPrice else 0) =
      (if e.owner = k ∧ e.side = .bid then e.quantity * eventLockedAt a (.out e) else 0)
    by_cases hc : e.owner = k ∧ e.side = .bid
    · rw [if_pos hc, if_pos hc]
      have := hlk rfl a (by show s.g.accts.get? e.owner = _; rw [hc.1]; exact hget)
      have e2 : eventLockedAt a (.out e) = oo.lockedPrice := by
        show (match a.openOrders[e.ownerSlot]? with | some oo => oo.lockedPrice | none => 0) = _
        have : a.openOrders[e.ownerSlot]? = some oo := this
        rw [this]
      rw [e2]
    · rw [if_neg hc, if_neg hc]
  | fill f oo =>
    show (if f.maker = k ∧ f.takerSide.invert = .bid then f.quantity * fillLockPrice f else 0) =
      (if f.maker = k ∧ f.takerSide.invert = .bid then f.quantity * eventLockedAt a (.fill f) else 0)
    by_cases hc : f.maker = k ∧ f.takerSide.invert = .bid
    · rw [if_pos hc, if_pos hc]
      have hs : f.takerSide = .ask := by
        have := hc.2
        cases hs : f.takerSide with
        | ask => rfl
        | bid => rw [hs] at this; cases this
      have : fillLockPrice f = eventLockedAt a (.fill f) := by
        show _ = (if f.pegLimit = -1 then f.price else f.pegLimit)
        unfold fillLockPrice
        by_cases hp : f.pegLimit = -1
        · rw [if_neg (by simp [hp]), if_pos hp]
        · rw [if_pos ⟨hp, hs⟩, if_neg hp]
      rw [this]
    · rw [if_neg hc, if_neg hc]

/-! A reachable state with used slots of all kinds. -/
open Scenario in
example : ∃ s, Reachable s ∧ decide ((restingIn s 41 0).length = 1 ∧ (freeing s 42 1).length = 1 ∧ (restingIn s 42 1).length = 0 ∧
    s.g.accts.map (fun x => (x.2.position.bidsBaseLots, x.2.position.asksBaseLots, x.2.position.bidsQuoteLots)) =
      [(6, 5, 5960), (0, 5, 0), (0, 0, 0)]) = true :=
  exec_spec (a := args) (ops := ops1) (by decide +kernel)

end OB
