import Verif.Proofs.Cancel
import Verif.Proofs.ConsumeIx
/-! Consuming events and cancelling orders succeed in every reachable state. -/
namespace OB
open OB.Spec

/-- What is needed for the next `cnt` events. -/
structure Room (g : Ledger) (cnt : Nat) : Prop where
  accts : ∀ k a, g.accts.get? k = some a → LotsOk a.position ∧ 0 ≤ a.position.makerVolume ∧
    a.position.makerVolume + cnt * i64Max ≤ u128Max
  volume : 0 ≤ g.market.makerVolume ∧ g.market.makerVolume + cnt * i64Max ≤ u128Max
  fees : 0 ≤ g.market.feesAccrued ∧ g.market.feesAccrued + cnt * i64Max ≤ u128Max

theorem succ_mul_i64 (n : Nat) : ((n + 1 : Nat) : Int) * i64Max = n * i64Max + i64Max := by
  rw [Int.natCast_add, Int.add_mul]; simp

theorem i64_nonneg_mul (n : Nat) : 0 ≤ (n : Int) * i64Max := Int.mul_nonneg (by omega) (by decide)

/-- The event in a slot, as an obligation. -/
theorem LInvW.slotObl {g : Ledger} {L : Rests} {dB dQ : Int} {ex : Pubkey → Int} {n : Nat} {O : List Obl} {q : List (Nat × Event)}
    (hw : LInvW g L dB dQ ex n O q) {slot : Nat} {e : Event} (hs : g.heap.atSlot slot = some e) :
    ∃ o O', O.Perm (o :: O') ∧ o.k = .ev e := by
  have hm := (atSlot_some hw.heap).mp hs
  have he : e ∈ g.heap.events := by rw [hw.heap.events]; exact List.mem_map.mpr ⟨_, hm, rfl⟩
  obtain ⟨o, ho, hk⟩ := hw.mem_ev he
  obtain ⟨A, B, rfl⟩ := List.append_of_mem ho
  exact ⟨o, A ++ B, List.perm_middle, hk⟩

/-- One event can be delivered. -/
theorem LInvW.apply_ok {g : Ledger} {L : Rests} {n : Nat} {O : List Obl} {q : List (Nat × Event)}
    (hw : LInvW g L 0 0 (fun _ => 0) n O q) (hc : Covered g.market) {cnt : Nat} (hr : Room g (cnt + 1)) {slot : Nat} {e : Event}
    (hs : g.heap.atSlot slot = some e) :
    ∃ g1 x h', applyEvent g e = .ok g1 ∧ g1.heap.deleteSlot slot = .ok (x, h') ∧ (0 ≤ eventVolume g.market e ∧ eventVolume g.market e ≤ i64Max) ∧
      (0 ≤ eventRebate g.market e ∧ eventRebate g.market e ≤ i64Max) := by
  obtain ⟨o, O', hp, hk⟩ := hw.slotObl hs
  have hw' := hw.permO hp
  have hm := (atSlot_some hw.heap).mp hs
  obtain ⟨A, B, hAB⟩ := List.append_of_mem hm
  have hrep := hw.heap
  rw [hAB] at hrep
  obtain ⟨h', d1, _⟩ := deleteSlot_spec hrep
  have hdB : g.market.baseDepositTotal + 0 ≤ u64Max := by have := hc.base; omega
  have hdQ : g.market.quoteDepositTotal + 0 ≤ u64Max := by have := hc.quote; omega
  obtain ⟨a, ha⟩ := hw'.ginv.owner o (by simp)
  obtain ⟨hl, hv0, hv⟩ := hr.accts _ a ha
  rw [succ_mul_i64] at hv
  have := i64_nonneg_mul cnt
  cases o with
  | rest s c l oo => cases hk
  | fill f oo =>
    have he : e = .fill f := by cases hk; rfl
    subst he
    have hok := hw'.ginv.ok (.fill f oo) (by simp)
    obtain ⟨p1, p2, _⟩ := hok.fill f oo rfl
    have h1 : 1 ≤ f.quantity := hok.qty
    have q0 : 0 ≤ fillQuote g.market f := Int.mul_nonneg (Int.mul_nonneg (by omega) (by omega)) (by have := hc.qls; omega)
    have q1 : fillQuote g.market f ≤ i64Max := p2
    have v := hr.volume
    have fe := hr.fees
    rw [succ_mul_i64] at v fe
    obtain ⟨a', m', hm'⟩ := hw'.ginv.maker_ok (fun _ => Int.le_refl _) hc hdB hdQ ha hl hv0 (by omega) v.1 (by omega) fe.1 (by omega)
    refine ⟨{ g with market := m', accts := g.accts.set f.maker a' }, _, h', ?_, d1, ⟨q0, q1⟩, ?_⟩
    · simp only [applyEvent, bind_ok, pure_ok, Accts.get_ok]
      exact ⟨a, ha, _, hm', rfl⟩
    · show 0 ≤ fillMakerFee g.market f ∧ fillMakerFee g.market f ≤ i64Max
      unfold fillMakerFee
      split
      · exact ⟨Int.le_refl _, by decide⟩
      · have f1 := floorFee_nonneg (mf := g.market.makerFee) q0
        have f2 := floorFee_le q0 hc.fees.m1
        unfold floorFee at f1 f2
        exact ⟨f1, by omega⟩
  | out ev oo =>
    have he : e = .out ev := by cases hk; rfl
    subst he
    obtain ⟨a', hm'⟩ := hw'.ginv.cancel_ok (fun _ => Int.le_refl _) hc hdB hdQ (.inr ⟨ev, oo, rfl⟩) ha hl
    refine ⟨{ g with accts := g.accts.set ev.owner a' }, _, h', ?_, d1, ⟨Int.le_refl _, show (0 : Int) ≤ i64Max by decide⟩, ⟨Int.le_refl _, show (0 : Int) ≤ i64Max by decide⟩⟩
    simp only [applyEvent, bind_ok, pure_ok, Accts.get_ok]
    exact ⟨a, ha, _, hm', rfl⟩

theorem total_filter_one (e : Event) (k : Pubkey) (f : Event → Int) (h0 : 0 ≤ f e) (h1 : f e ≤ i64Max) :
    0 ≤ total ([e].filter (fun e => eventAccount e = k)) f ∧ total ([e].filter (fun e => eventAccount e = k)) f ≤ i64Max := by
  by_cases h : eventAccount e = k
  · simp [h, total, h0, h1]
  · simp [h, total]; decide

/-- The loop does not fail. -/
theorem consumeLoop_ok {rem : List Pubkey} {todo : List Nat} {g : Ledger} {L : Rests} {n : Nat} {O : List Obl} {q : List (Nat × Event)}
    (hw : LInvW g L 0 0 (fun _ => 0) n O q) (hc : Covered g.market) (hr : Room g todo.length) (hn : todo.Nodup)
    (hq : ∀ i ∈ todo, i ∈ q.map (·.1)) : ∃ g', consumeLoop rem todo g = .ok g' := by
  induction todo generalizing g O q with
  | nil => exact ⟨g, rfl⟩
  | cons slot rest ih =>
    obtain ⟨⟨_, e⟩, hm, rfl⟩ := List.mem_map.mp (hq slot (by simp))
    rename_i i
    have hs : g.heap.atSlot i = some e := (atSlot_some hw.heap).mpr hm
    rw [List.nodup_cons] at hn
    rw [consumeLoop, hs]
    simp only [unwrapR, ok_bind]
    split
    · obtain ⟨g1, x, h', e1, e2, ⟨v0, v1⟩, ⟨w0, w1⟩⟩ := hw.apply_ok hc (cnt := rest.length) hr hs
      rw [e1]
      simp only [ok_bind, e2]
      obtain ⟨o, O', q', p1, p2, hw', hcs, hdl⟩ := hw.deliver hc.bls hc.qls hs e1 e2
      obtain ⟨A, B, hAB, hq1⟩ := hcs.queue
      refine ih hw' ?_ ?_ hn.2 ?_
      · have hm := hdl.market
        simp only at hm
        rw [hm]
        exact ⟨hc.bls, hc.qls, ⟨hc.fees.t0, hc.fees.t1, hc.fees.m0, hc.fees.m1⟩, hc.avail, hc.base, hc.quote⟩
      · have hm := hdl.market
        have v := hr.volume
        have fe := hr.fees
        rw [List.length_cons, succ_mul_i64] at v fe
        simp only [total, List.map_cons, List.map_nil, List.sum_cons, List.sum_nil, Int.add_zero] at hm
        refine ⟨fun k a' ha' => ?_, ?_, ?_⟩
        · cases ha : g.accts.get? k with
          | none =>
            rw [hcs.frame.get?_none ha] at ha'; cases ha'
          | some a =>
            obtain ⟨b, hb, cr⟩ := hdl.accts k a ha
            rw [ha'] at hb; injection hb with hb; subst hb
            obtain ⟨l1, l2, l3⟩ := hr.accts k a ha
            rw [List.length_cons, succ_mul_i64] at l3
            have mv := cr.makerVolume
            have tb := total_filter_one e k (eventVolume g.market) v0 v1
            exact ⟨(hcs.frame.refs k a a' ha ha').lots l1, by omega, by omega⟩
        · rw [hm]; show 0 ≤ g.market.makerVolume + _ ∧ g.market.makerVolume + _ + _ ≤ _; constructor <;> omega
        · rw [hm]; show 0 ≤ g.market.feesAccrued + _ ∧ g.market.feesAccrued + _ + _ ≤ _; constructor <;> omega
      · intro j hj
        have := hq j (by simp [hj])
        have hji : j ≠ i := fun h => hn.1 (h ▸ hj)
        rw [hAB] at this
        rw [hq1]
        simpa [hji] using this
    · refine ih hw hc ?_ hn.2 (fun j hj => hq j (by simp [hj]))
      have v := hr.volume
      have fe := hr.fees
      rw [List.length_cons, succ_mul_i64] at v fe
      have : 0 ≤ i64Max := by decide
      refine ⟨fun k a ha => ?_, ⟨v.1, by omega⟩, ⟨fe.1, by omega⟩⟩
      obtain ⟨l1, l2, l3⟩ := hr.accts k a ha
      rw [List.length_cons, succ_mul_i64] at l3
      exact ⟨l1, l2, by omega⟩

theorem consumeEvents_ok {s : State} {limit : Nat} {slots : List Nat} {rem : List Pubkey} (hi : Inv s) (hx : Extra s)
    (hcl : s.closed = false) (hlt : ∀ i ∈ slots, i < maxNumEvents)
    (hv : ∀ k a, s.g.accts.get? k = some a → a.position.makerVolume < 2 ^ 127)
    (hmv : s.g.market.makerVolume < 2 ^ 127) (hfa : s.g.market.feesAccrued < 2 ^ 127) :
    ∃ s', consumeEvents s s.g.market.consumeEventsAdmin limit slots rem = .ok s' := by
  obtain ⟨O, q, hw⟩ := hi.core.linv
  let todo := (uniqueFrom [] (slots.filter (fun i => !(s.g.heap.nodes i).isFree) ++ q.map (·.1))).take (min limit maxEventsConsume)
  have htodo : slotsToConsume s.g.heap slots (min limit maxEventsConsume) = .ok todo := by
    unfold slotsToConsume
    rw [iterSlots_spec hw.heap]; rfl
  have hspec := uniqueFrom_spec (l := slots.filter (fun i => !(s.g.heap.nodes i).isFree) ++ q.map (·.1)) (seen := [])
  have hn : todo.Nodup := hspec.1.sublist (List.take_sublist _ _)
  have hlen : todo.length ≤ 8 := Nat.le_trans (List.length_take_le _ _) (Nat.min_le_right _ _)
  have hq : ∀ i ∈ todo, i ∈ q.map (·.1) := by
    intro i hi
    have := ((hspec.2 i).mp (List.mem_of_mem_take hi)).1
    rcases List.mem_append.mp this with hm | hm
    · by_contra hcon
      have hf := (isFree_iff hw.heap (hlt i (List.mem_filter.mp hm).1)).mpr hcon
      have := (List.mem_filter.mp hm).2
      rw [hf] at this; cases this
    · exact hm
  have h8 : (todo.length : Int) * i64Max ≤ 8 * i64Max := Int.mul_le_mul_of_nonneg_right (by omega) (by decide)
  have hb : (2 : Int) ^ 127 + 8 * i64Max ≤ u128Max := by decide
  obtain ⟨g', hg⟩ := consumeLoop_ok (rem := rem) hw hi.covered (todo := todo)
    ⟨fun k a ha => ⟨(hx.lots k a ha).1, (hx.lots k a ha).2, by have := hv k a ha; omega⟩, ⟨hx.volume, by omega⟩, ⟨hx.fees, by omega⟩⟩ hn hq
  refine ⟨{ s with g := g' }, ?_⟩
  unfold consumeEvents State.open?
  simp only [bind_ok, req_ok, pure_ok]
  exact ⟨(), hcl, (), trivial, todo, htodo, g', hg, rfl⟩

/-! ### cancelling by id -/

theorem seq_sides {a b n : Nat} (hn : n < 2 ^ 63) (ha : seqOf .bid a ≤ n) (hb : seqOf .ask b ≤ n) : a ≠ b := by
  intro h
  subst h
  simp only [seqOf, two64] at ha hb
  have : a % 18446744073709551616 < 18446744073709551616 := Nat.mod_lt _ (by decide)
  omega

theorem LInvW.term_seq {g : Ledger} {L : Rests} {dB dQ : Int} {ex : Pubkey → Int} {n : Nat} {O : List Obl} {q : List (Nat × Event)}
    (hw : LInvW g L dB dQ ex n O q) {o : Obl} (ho : o ∈ O) (ht : o.term = true) :
    1 ≤ seqOf o.oo.side o.oo.id ∧ seqOf o.oo.side o.oo.id ≤ n :=
  hw.seq (o.oo.side, o.oo.id) (by
    unfold termIds
    exact List.mem_map.mpr ⟨o, List.mem_filter.mpr ⟨ho, ht⟩, rfl⟩)

theorem cancelOrderIx_ok {s : State} {signer : Pubkey} (hi : Inv s) (hx : Extra s) {x : Side × Comp × LeafNode}
    (hm : x ∈ s.book.resting) (hsig : Controls s signer x.2.2.owner) (hna : signer ≠ s.g.market.marketAuthority)
    (hseq : s.g.market.seqNum < 2 ^ 63) : ∃ s', cancelOrderIx s signer x.2.2.owner x.2.2.key = .ok s' ∧ s.book.resting.Perm (x :: s'.book.resting) := by
  have hcl : s.closed = false := by
    by_contra hc
    have := (hx.closed (by simpa using hc)).1
    rw [this] at hm; cases hm
  obtain ⟨O, q, hw⟩ := hi.core.linv
  obtain ⟨oo, ho⟩ := hw.mem_rest hm
  obtain ⟨a, ha⟩ := hw.ginv.owner _ ho
  have ha : s.g.accts.get? x.2.2.owner = some a := ha
  have hlink : a.openOrders[x.2.2.ownerSlot]? = some oo := hw.ginv.link _ ho rfl a ha
  have hok := hw.ginv.ok _ ho
  have hr := hok.rest _ _ _ _ rfl
  have hside : oo.side = x.1 := hok.oside rfl
  have hused : oo.isFree = false := hok.used rfl
  have hs1 := hw.term_seq ho rfl
  have hs1 : 1 ≤ seqOf oo.side oo.id ∧ seqOf oo.side oo.id ≤ s.g.market.seqNum := hs1
  -- the id is not zero
  have hid0 : x.2.2.key > 0 := by
    rw [← hr.id]
    by_contra h0
    have h0 : oo.id = 0 := by omega
    rw [h0] at hs1
    unfold seqOf two64 at hs1
    rcases Side.cases oo.side with hs | hs <;> rw [hs] at hs1 <;> simp only at hs1 <;> omega
  -- the id identifies the slot
  have hfind : a.findOrder x.2.2.key = some oo := by
    have hex : ∃ y, a.findOrder x.2.2.key = some y := by
      rw [← Option.isSome_iff_exists]
      unfold OOA.findOrder
      rw [List.find?_isSome]
      exact ⟨oo, List.mem_of_getElem? hlink, by simp [hused, hr.id]⟩
    obtain ⟨y, hy⟩ := hex
    rw [hy]
    unfold OOA.findOrder at hy
    have hp := List.find?_some hy
    simp only [decide_eq_true_eq] at hp
    obtain ⟨j, hj⟩ := List.mem_iff_getElem?.mp (List.mem_of_find?_eq_some hy)
    obtain ⟨o2, hm2, ht2, _, hsl2, hoo2⟩ := (hw.ginv.acct _ a ha).used j y hj hp.1
    have hs2 := hw.term_seq hm2 ht2
    rw [hoo2] at hs2
    have hidq : y.id = oo.id := by rw [hp.2, hr.id]
    have hsd : y.side = oo.side := by
      by_contra hne
      rcases Side.cases y.side with h1 | h1 <;> rcases Side.cases oo.side with h2 | h2
      · exact hne (h1.trans h2.symm)
      · rw [h1] at hs2; rw [h2] at hs1; exact seq_sides hseq hs2.2 hs1.2 hidq
      · rw [h1] at hs2; rw [h2] at hs1; exact seq_sides hseq hs1.2 hs2.2 hidq.symm
      · exact hne (h1.trans h2.symm)
    have := termIds_inj hw.ginv.ids hm2 ho ht2 rfl (by rw [hoo2]; exact hsd) (by rw [hoo2]; exact hidq)
    rw [this] at hoo2
    exact congrArg some hoo2.symm
  have hmx : (oo.side, oo.comp, x.2.2) ∈ s.book.resting := by rw [hside, hr.comp]; exact hm
  rcases cancelOnBook_cases hi.core.bookOk a s.g.market oo.id oo.side oo.comp (some x.2.2.owner) with ⟨_, h2⟩ | ⟨l, h2, h3, h4⟩
  · exact absurd hr.id.symm (h2 x.2.2 hmx)
  · obtain ⟨oo', ho'⟩ := hw.mem_rest h2
    have hok' := hw.ginv.ok _ ho'
    have := termIds_inj hw.ginv.ids ho' ho rfl rfl (by
      show oo'.side = oo.side
      have : oo'.side = oo.side := hok'.oside rfl
      exact this) (by
      show oo'.id = oo.id
      rw [(hok'.rest _ _ _ _ rfl).id]; exact h3)
    have hlx : l = x.2.2 := by injection this
    subst hlx
    obtain ⟨L', L'', hp⟩ := List.append_of_mem hm
    have hl1 := hi.core.linv.perm (L' := x :: (L' ++ L'')) (by rw [hp]; exact List.perm_middle)
    have hc := hi.covered
    obtain ⟨a', ha'⟩ := LInv.cancelOk (s := x.1) (c := x.2.1) (l := x.2.2) hl1 (fun _ => Int.le_refl _) hc
      (by have := hc.base; omega) (by have := hc.quote; omega) ha (hx.lots _ a ha).1
    obtain ⟨book', hb⟩ := h4 a' ha' (fun o ho => by injection ho)
    have hperm := (cancelOnBook_inv hi.core.bookOk hb).2.2.1
    refine ⟨{ s with book := book', g := { s.g with accts := s.g.accts.set x.2.2.owner a' } }, ?_, ?_⟩
    · unfold cancelOrderIx authCancel State.open? signerOk
      simp only [bind_ok, req_ok, pure_ok, Accts.get_ok, okOr_ok]
      exact ⟨a, ⟨(), hcl, (), hna, a, ha, (), controls_owner ha hsig, rfl⟩, (), hid0, oo, hfind, _, hb, rfl⟩
    · show s.book.resting.Perm (x :: book'.resting)
      have : (oo.side, oo.comp, x.2.2) = x := by rw [hside, hr.comp]
      rw [← this]; exact hperm

end OB
