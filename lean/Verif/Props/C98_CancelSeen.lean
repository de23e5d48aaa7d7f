import Verif.Proofs.TsCancel
import Verif.Proofs.TsPlace
import Verif.Props.C78_TsAccount
/-!
C98  Cancelling an order that was listed earlier cancels what is left of that order, and nothing else.

The library lists orders (`items` of an account, C78) and cancels one of them by its id.  In between others trade: the order may have been
filled in part or be gone, and its slot and its place in the book may be used by another one.  The theorems are about all that can happen in
between; C98_listed_partial excludes pegged orders, which cannot be listed (C78).
-/
namespace OB
open Spec TsTrade

variable {s s' s'' : State} {k : Pubkey} {a : OOA} {delegate : Option Pubkey} {keys : List Pubkey} {ix : Sent.Ix}

/-- Whatever happened since the order was seen: if the transaction goes through, exactly one order is cancelled, and it is what is left of
the order that was seen.  (As long as less than 2^63 orders were sent to the market.) -/
theorem C98_order {sd : Side} {c : Comp} {o : Ts.Order} (hr : Reachable s) (ho : (sd, c, o.leaf) ∈ s.book.resting) (hs : Since s s')
    (hn : s'.g.market.seqNum < 2 ^ 63) (hix : TsTrade.cancelOrder a k delegate (.order o) = .ok ix) (h : ix.run s' keys = .ok s'') :
    ∃ l, Cancels s' s'' k [(sd, c, l)] ∧ LeftOf o.leaf l := by
  cases hix
  obtain ⟨_, h⟩ := run_inv h
  obtain ⟨_, x, hx, hk, hc⟩ := C16_cancel_order s' s'' (hs.reachable hr) _ _ _ h
  obtain ⟨h1, h2, h3⟩ := since_order hr hs hn ho hx hk
  obtain ⟨sd', c', l⟩ := x
  cases h1; cases h2
  exact ⟨l, hc, h3⟩

/-- It goes through exactly when something is left of the order, it is of this account, and the owner's key signs. -/
theorem C98_accepted {sd : Side} {c : Comp} {o : Ts.Order} (hr : Reachable s) (ho : (sd, c, o.leaf) ∈ s.book.resting) (hs : Since s s')
    (hn : s'.g.market.seqNum < 2 ^ 63) (ha : s'.g.accts.get? k = some a) (hix : TsTrade.cancelOrder a k delegate (.order o) = .ok ix) :
    (∃ s'', ix.run s' keys = .ok s'') ↔ a.owner ∈ keys ∧ o.leaf.owner = k ∧ ∃ l, (sd, c, l) ∈ s'.book.resting ∧ LeftOf o.leaf l := by
  have hr' := hs.reachable hr
  have hna : a.owner ≠ s'.g.market.marketAuthority := (reachable_accts hr' k a ha).2
  cases hix
  have key := C73_cancel_order s' hr' hn a.owner k o.leaf.key hna
  constructor
  · rintro ⟨s'', h⟩
    obtain ⟨h1, h⟩ := run_inv h
    obtain ⟨_, x, hx, hxo, hxk⟩ := key.mp ⟨s'', h⟩
    obtain ⟨e1, e2, e3⟩ := since_order hr hs hn ho hx hxk
    obtain ⟨sd', c', l⟩ := x
    cases e1; cases e2
    refine ⟨h1 _ (by simp [Sent.tsCancelById]), ?_, l, hx, e3⟩
    rw [← hxo, e3.1]
  · rintro ⟨h1, h2, l, h3, h4⟩
    obtain ⟨s'', h⟩ := key.mpr ⟨⟨a, ha, .inl rfl⟩, _, h3, by rw [h4.1]; exact h2, by rw [h4.1]⟩
    exact ⟨s'', run_ok (by simpa [Sent.tsCancelById] using h1) h⟩

/-- The orders that the library lists for an account (none of them pegged) can be cancelled one after the other by the owner.  Then the
account has no orders on the book, and everybody else has the same ones. -/
theorem C98_listed_partial {x y : Ts.BookSide} {L : List Ts.Order} (hr : Reachable s)
    (hfb : SideFits (s.book.side .bid)) (hfa : SideFits (s.book.side .ask)) (hx : Loads s.book .bid x) (hy : Loads s.book .ask y)
    (ha : s.g.accts.get? k = some a) (hL : Ts.accountItems x y a.openOrders = .ok L) (hn : s.g.market.seqNum < 2 ^ 63) (hk : a.owner ∈ keys) :
    ∃ s', L.foldlM (fun t o => (Sent.tsCancelById a k o.leaf.key delegate).run t keys) s = (.ok s' : R State) ∧
      ordersOf s' k = [] ∧ s.book.resting.Perm (ordersOf s k ++ s'.book.resting) ∧ s'.tokens = s.tokens := by
  have hp : ¬ peggedSlot s a := fun hp => by rw [C78_throws hr hfb hfa hx hy hp] at hL; cases hL
  obtain ⟨L', h1, h2, h3, _⟩ := C78_orders_partial hr hfb hfa hx hy ha hp
  rw [hL] at h1
  cases h1
  have hnd : (L.map (·.leaf)).Nodup := by
    rw [List.Nodup, List.pairwise_map]
    exact h3.imp (fun {o o'} h e => by rw [e] at h; omega)
  suffices H : ∀ (M : List Ts.Order) (t : State) (b : OOA), Reachable t → t.g.accts.get? k = some b → b.owner = a.owner →
      t.g.market.seqNum < 2 ^ 63 → (M.map (·.leaf)).Nodup → (∀ l, l ∈ M.map (·.leaf) ↔ ∃ sd c, (sd, c, l) ∈ ordersOf t k) →
      ∃ t', M.foldlM (fun t o => (Sent.tsCancelById a k o.leaf.key delegate).run t keys) t = (.ok t' : R State) ∧
        ordersOf t' k = [] ∧ (∃ ls, t.book.resting.Perm (ls ++ t'.book.resting) ∧ ∀ z ∈ ls, z.2.2.owner = k) ∧ t'.tokens = t.tokens by
    obtain ⟨s', e1, e2, ⟨ls, e3, e4⟩, e5⟩ := H L s a hr ha rfl hn hnd h2
    refine ⟨s', e1, e2, e3.trans (List.Perm.append_right _ ?_), e5⟩
    have := (e3.filter (fun z => decide (z.2.2.owner = k)))
    rw [List.filter_append, show s'.book.resting.filter (fun z => decide (z.2.2.owner = k)) = [] from e2, List.append_nil,
      List.filter_eq_self.mpr (fun z hz => decide_eq_true (e4 z hz))] at this
    exact this.symm
  intro M
  induction M with
  | nil =>
    intro t b hr hb _ _ _ hm
    refine ⟨t, rfl, List.eq_nil_iff_forall_not_mem.mpr (fun ⟨sd, c, l⟩ hz => ?_), ⟨[], .refl _, fun _ h => nomatch h⟩, rfl⟩
    exact absurd ((hm l).mpr ⟨sd, c, hz⟩) (by simp)
  | cons o M ih =>
    intro t b hr hb hbo hn hnd hm
    obtain ⟨sd, c, hz⟩ := (hm o.leaf).mp (by simp)
    obtain ⟨hz1, hz2⟩ := List.mem_filter.mp hz
    have hzo : o.leaf.owner = k := of_decide_eq_true hz2
    have hna : a.owner ≠ t.g.market.marketAuthority := hbo ▸ (reachable_accts hr k b hb).2
    obtain ⟨t1, g1, g2⟩ := C40_cancel_order t hr hn (sd, c, o.leaf) hz1 a.owner ⟨b, by simpa [hzo] using hb, .inl hbo.symm⟩ hna
    simp only [hzo] at g1 g2
    have hr1 : Reachable t1 := .step _ _ _ hr g1
    obtain ⟨a0, a1, x1, x2, rel⟩ := g2.acct
    rw [hb] at x1
    cases x1
    rw [List.map_cons, List.nodup_cons] at hnd
    obtain ⟨t', f1, f2, ⟨ls, f3, f4⟩, f5⟩ := ih t1 a1 hr1 x2 (by rw [rel.owner, hbo]) (by rw [g2.market]; exact hn) hnd.2 (fun l => by
      rw [cancels_leaves hr g2 l, ← hm l, List.map_cons, List.mem_cons]
      constructor
      · exact fun h => ⟨.inr h, fun e => hnd.1 (by rw [show l = o.leaf from e] at h; exact h)⟩
      · rintro ⟨h | h, hne⟩
        · exact absurd h hne
        · exact h)
    refine ⟨t', ?_, f2, ⟨(sd, c, o.leaf) :: ls, ?_, ?_⟩, by rw [f5, g2.tokens]⟩
    · rw [List.foldlM_cons]
      have : (Sent.tsCancelById a k o.leaf.key delegate).run t keys = .ok t1 :=
        run_ok (by simpa [Sent.tsCancelById] using hk) (by simpa [Sent.tsCancelById] using g1)
      rw [this]
      exact f1
    · exact g2.book.trans (List.Perm.cons _ f3)
    · intro z hz
      rcases List.mem_cons.mp hz with rfl | hz
      · exact hzo
      · exact f4 z hz

/-- By client order id (less than 2^53): every order of the account with this id is cancelled, and no other; it goes through exactly when the
market is open and the owner's key signs, also if there is no such order. -/
theorem C98_client {id : Nat} (hr : Reachable s) (hid : id < 2 ^ 53) (hk : s.g.accts.get? k = some a)
    (hl : a.position.bidsBaseLots + a.position.asksBaseLots < 2 ^ 63) :
    ∃ ix, TsTrade.cancelOrder a k delegate (.client id) = .ok ix ∧
      ((∃ s', ix.run s keys = .ok s') ↔ a.owner ∈ keys ∧ s.closed = false) ∧
      ∀ s', ix.run s keys = .ok s' → ∃ ls, Cancels s s' k ls ∧ ∀ x, x ∈ ls ↔ x ∈ ordersOf s k ∧ x.2.2.clientOrderId = id := by
  have hb : bnOfNumber (.fin (id : Rat)) = some (id : Int) := bnOfNumber_int (n := id) (by omega) (by omega)
  have hna : a.owner ≠ s.g.market.marketAuthority := (reachable_accts hr k a hk).2
  have key := C73_cancel_by_client_id s hr a.owner k id hna (fun b hb => by rw [hk] at hb; cases hb; exact hl)
  refine ⟨Sent.tsCancelByClientId a k id delegate, by simp [TsTrade.cancelOrder, hb], ⟨?_, ?_⟩, ?_⟩
  · rintro ⟨s', h⟩
    obtain ⟨h1, h⟩ := run_inv h
    exact ⟨h1 _ (by simp [Sent.tsCancelByClientId]), (key.mp ⟨s', h⟩).1⟩
  · rintro ⟨h1, h2⟩
    obtain ⟨s', h⟩ := key.mpr ⟨h2, a, hk, .inl rfl⟩
    exact ⟨s', run_ok (by simpa [Sent.tsCancelByClientId] using h1) h⟩
  · intro s' h
    obtain ⟨_, h⟩ := run_inv h
    obtain ⟨_, ls, hc, h1, h2⟩ := C16_cancel_by_client_id s s' hr _ _ _ h
    refine ⟨ls, hc, fun x => ⟨fun hx => ⟨List.mem_filter.mpr ⟨hc.book.mem_iff.mpr (List.mem_append_left _ hx), decide_eq_true (hc.owner x hx)⟩,
      h1 x hx⟩, fun ⟨hx, he⟩ => ?_⟩⟩
    obtain ⟨hx1, hx2⟩ := List.mem_filter.mp hx
    rcases List.mem_append.mp (hc.book.mem_iff.mp hx1) with h | h
    · exact h
    · exact absurd he (h2 x h (of_decide_eq_true hx2))

/-! ### cases -/

namespace CancelCase
open Scenario

/-- Asks of two traders. -/
def asks : List Op := TsCase.setup ++ [place 1 .ask 1010 5 2, place 2 .ask 1010 3 3]

/-- An order of 5 lots is seen, 2 of them are bought, and then it is cancelled: the 3 that are left are.  The other trader's order at the same
price stays. -/
example : ∃ (s s' s'' : State) (a : OOA) (o : Ts.Order) (ix : Sent.Ix), Reachable s ∧ (Side.ask, Comp.fixed, o.leaf) ∈ s.book.resting ∧
    Since s s' ∧ s'.g.market.seqNum < 2 ^ 63 ∧ s'.g.accts.get? 42 = some a ∧ TsTrade.cancelOrder a 42 none (.order o) = .ok ix ∧
    ix.run s' [32] = .ok s'' ∧ decide (o.leaf.quantity = 5 ∧ s'.book.resting.map (·.2.2.quantity) = [3, 3] ∧
      s''.book.resting.map (fun x => (x.2.2.owner, x.2.2.quantity)) = [(43, 3)]) = true := by
  obtain ⟨s, h1, h2⟩ := Scenario.exec_spec (a := Scenario.args) (ops := asks) (p := fun s =>
    okAnd (step s (place 0 .bid 1010 2 9)) (fun s' => decide (s'.g.market.seqNum < 2 ^ 63 ∧
      (∃ a, a ∈ s'.g.accts.get? 42 ∧ a.owner = 32) ∧
      ∃ y ∈ s.book.resting, y.1 = .ask ∧ y.2.1 = .fixed ∧ y.2.2.quantity = 5 ∧ s'.book.resting.map (·.2.2.quantity) = [3, 3] ∧
        okAnd (step s' (.cancelOrder 32 42 y.2.2.key)) (fun s'' =>
          decide (s''.book.resting.map (fun x => (x.2.2.owner, x.2.2.quantity)) = [(43, 3)])) = true))) (by decide +kernel)
  obtain ⟨s', h3, h4⟩ := okAnd_spec h2
  obtain ⟨g1, ⟨a, g2, g3⟩, ⟨_, _, l⟩, g4, rfl, rfl, g5, g6, g7⟩ := of_decide_eq_true h4
  obtain ⟨s'', h5, h6⟩ := okAnd_spec g7
  refine ⟨s, s', s'', a, { leaf := l, isExpired := false, seqNum := 0, priceLots := 1010 }, Sent.tsCancelById a 42 l.key none, h1, g4,
    .step _ _ _ .now h3, g1, g2, rfl, run_ok ?_ ?_, decide_eq_true ⟨g5, g6, of_decide_eq_true h6⟩⟩
  · simp [Sent.tsCancelById, g3]
  · simp only [Sent.tsCancelById, g3]
    exact h5

/-- The account of one of them is listed with its order. -/
example : ∃ (s : State) (x y : Ts.BookSide) (a : OOA) (L : List Ts.Order), Reachable s ∧ SideFits (s.book.side .bid) ∧
    SideFits (s.book.side .ask) ∧ Loads s.book .bid x ∧ Loads s.book .ask y ∧ s.g.accts.get? 42 = some a ∧
    Ts.accountItems x y a.openOrders = .ok L ∧ s.g.market.seqNum < 2 ^ 63 ∧ L ≠ [] := by
  obtain ⟨s, h1, h2⟩ := Scenario.exec_spec (a := Scenario.args) (ops := asks) (p := fun s => decide (SideFits (s.book.side .bid) ∧
    SideFits (s.book.side .ask) ∧ s.g.market.seqNum < 2 ^ 63 ∧ (∃ a, a ∈ s.g.accts.get? 42 ∧ a.owner = 32) ∧ (∀ z ∈ s.book.resting, z.2.1 ≠ .pegged) ∧
    ∃ z ∈ ordersOf s 42, z.1 = .ask)) (by decide +kernel)
  obtain ⟨g1, g2, g3, ⟨a, g4, _⟩, g5, ⟨⟨sd, c, l⟩, g6, _⟩⟩ := of_decide_eq_true h2
  obtain ⟨x, hx, _⟩ := C75_loads g1
  obtain ⟨y, hy, _⟩ := C75_loads g2
  have hp : ¬ peggedSlot s a := by
    rintro ⟨_, _, _, _, l, hl⟩
    exact g5 _ hl rfl
  obtain ⟨L, k1, k2, _⟩ := C78_orders_partial h1 g1 g2 hx hy g4 hp
  refine ⟨s, x, y, a, L, h1, g1, g2, hx, hy, g4, k1, g3, ?_⟩
  rintro rfl
  exact absurd ((k2 l).mpr ⟨sd, c, g6⟩) (by simp)

end CancelCase

end OB
