import Verif.Proofs.Place
import Verif.Model.Program
/-! Event consumption and order cancellation preserve the ledger and book invariants. -/
namespace OB

/-! ### consuming an event -/

theorem evKs_middle (A B : List (Nat × Event)) (x : Nat × Event) :
    (evKs (A ++ x :: B)).Perm (OKind.ev x.2 :: evKs (A ++ B)) := by
  unfold evKs
  rw [List.map_append, List.map_cons, List.map_append]
  exact List.perm_middle

theorem applyEvent_heap {g g1 : Ledger} {e : Event} (h : applyEvent g e = .ok g1) : g1.heap = g.heap := by
  unfold applyEvent at h
  split at h
  · simp only [bind_ok, pure_ok, Accts.get_ok] at h
    obtain ⟨a, _, x, _, h⟩ := h
    rw [← h]
  · simp only [bind_ok, pure_ok, Accts.get_ok] at h
    obtain ⟨a, _, x, _, h⟩ := h
    rw [← h]

/-- One step of event consumption. -/
structure Consumed (g g' : Ledger) (q q' : List (Nat × Event)) (slot : Nat) (e : Event) : Prop where
  mem : (slot, e) ∈ q
  queue : ∃ A B, q = A ++ (slot, e) :: B ∧ q' = A ++ B
  frame : LFrame g g'
  seq : g'.market.seqNum = g.market.seqNum

theorem LInvW.consume {g g1 : Ledger} {L : Rests} {dB dQ : Int} {ex : Pubkey → Int} {n : Nat} {O : List Obl}
    {q : List (Nat × Event)} (h : LInvW g L dB dQ ex n O q) (hb : 0 < g.market.baseLotSize) (hq : 0 < g.market.quoteLotSize)
    {slot : Nat} {e : Event} (hs : g.heap.atSlot slot = some e) (ha : applyEvent g e = .ok g1) {x : Event} {h' : EventHeap}
    (hd : g1.heap.deleteSlot slot = .ok (x, h')) :
    ∃ o O' q', O.Perm (o :: O') ∧ o.k = .ev e ∧ LInvW { g1 with heap := h' } L dB dQ ex n O' q' ∧
      Consumed g { g1 with heap := h' } q q' slot e := by
  have hm := (atSlot_some h.heap).mp hs
  obtain ⟨A, B, hAB⟩ := List.append_of_mem hm
  have hheap := applyEvent_heap ha
  have hr := h.heap
  rw [hAB] at hr
  obtain ⟨h'', d1, d2, d3⟩ := deleteSlot_spec hr
  rw [hheap, d1] at hd
  cases hd
  have hk := h.kinds
  rw [hAB] at hk
  obtain ⟨o, O', p1, p2, p3⟩ := map_perm_cons (f := Obl.k) (x := OKind.ev e) (L := restKs L ++ evKs (A ++ B))
    (hk.trans (((evKs_middle A B (slot, e)).append_left (restKs L)).trans List.perm_middle))
  have hw := h.permO p1
  have hseq : ∀ x ∈ termIds O', 1 ≤ seqOf x.1 x.2 ∧ seqOf x.1 x.2 ≤ n := fun x hx => hw.seq x (termIds_sub hx)
  cases o with
  | rest s c l oo => cases p2
  | fill f oo =>
    have he : e = .fill f := by cases p2; rfl
    subst he
    simp only [applyEvent, bind_ok, pure_ok, Accts.get_ok] at ha
    obtain ⟨a, hacc, ⟨a', m'⟩, hex, rfl⟩ := ha
    have hg := hw.ginv.deliver hb hq hacc hex
    obtain ⟨f1, f2, f3, f4, f5⟩ := maker_frame hex
    obtain ⟨m1, m2⟩ := maker_market hex
    exact ⟨_, O', A ++ B, p1, p2, ⟨d2, p3, hg, hseq⟩, hm, ⟨A, B, hAB, rfl⟩, LFrame.setAcct hacc f1 f2 f3 f4 f5 (maker_refs hex).1 m1 (maker_refs hex).2.1 (maker_refs hex).2.2, m2⟩
  | out ev oo =>
    have he : e = .out ev := by cases p2; rfl
    subst he
    simp only [applyEvent, bind_ok, pure_ok, Accts.get_ok] at ha
    obtain ⟨a, hacc, a', hex, rfl⟩ := ha
    have hg := hw.ginv.cancel (.inr ⟨ev, oo, rfl⟩) hb hq hacc hex
    obtain ⟨f1, f2, f3, f4, f5⟩ := cancel_frame hex
    exact ⟨_, O', A ++ B, p1, p2, ⟨d2, p3, hg, hseq⟩, hm, ⟨A, B, hAB, rfl⟩, LFrame.setAcct hacc f1 f2 f3 f4 f5 (cancel_refs hex) rfl (by simp only; omega) ⟨Int.le_refl _, Int.le_refl _⟩, rfl⟩

theorem consumeLoop_res {rem : List Pubkey} {todo : List Nat} {g g' : Ledger} {L : Rests} {dB dQ : Int} {ex : Pubkey → Int} {n : Nat}
    (h : LInv g L dB dQ ex n) (hb : 0 < g.market.baseLotSize) (hq : 0 < g.market.quoteLotSize)
    (hc : consumeLoop rem todo g = .ok g') :
    LInv g' L dB dQ ex n ∧ LFrame g g' ∧ g'.market.seqNum = g.market.seqNum := by
  induction todo generalizing g with
  | nil => cases hc; exact ⟨h, LFrame.refl _, rfl⟩
  | cons slot rest ih =>
    simp only [consumeLoop, bind_ok, unwrapR_ok] at hc
    obtain ⟨e, he, hc⟩ := hc
    split at hc
    · simp only [bind_ok] at hc
      obtain ⟨g1, ha, ⟨x, h'⟩, hd, hc⟩ := hc
      obtain ⟨O, q, hw⟩ := h
      obtain ⟨o, O', q', _, _, hw', hcs⟩ := hw.consume hb hq he ha hd
      obtain ⟨r1, r2, r3⟩ := ih ⟨O', q', hw'⟩ (by rw [hcs.frame.bls]; exact hb) (by rw [hcs.frame.qls]; exact hq) hc
      exact ⟨r1, hcs.frame.trans r2, r3.trans hcs.seq⟩
    · exact ih h hb hq hc

/-! ### cancelling a resting order -/

theorem cancelOnBook_inv {book book' : Book} {a a' : OOA} {m : Market} {id : Nat} {side : Side} {c : Comp} {eo : Option Pubkey}
    {leaf : LeafNode} (hb : BookOk book) (h : cancelOrderOnBook book a m id side c eo = .ok (leaf, book', a')) :
    leaf.key = id ∧ BookOk book' ∧ book.resting.Perm ((side, c, leaf) :: book'.resting) ∧
      a.cancelOrder leaf.ownerSlot leaf.quantity m = .ok a' ∧ (∀ o, eo = some o → leaf.owner = o) := by
  obtain ⟨ot, hot⟩ := hb.ok side
  unfold cancelOrderOnBook at h
  rcases bs_removeByKey hot c id with ⟨h1, _⟩ | ⟨l, b', ot', h1, h2, h3, h4, h5, h6⟩
  · rw [h1] at h; cases h
  · rw [h1] at h
    simp only [ok_bind] at h
    have fin : ∀ (a'' : OOA), book' = book.setSide side b' → leaf = l →
        leaf.key = id ∧ BookOk book' ∧ book.resting.Perm ((side, c, leaf) :: book'.resting) := by
      intro _ e1 e2
      subst e1 e2
      refine ⟨h2, hb.setSide h3 (by rw [h6]; exact hb.side side), ?_⟩
      refine (book.resting_perm side).trans ?_
      refine List.Perm.trans ?_ (((book.setSide side b').resting_perm side).symm.cons _)
      unfold Book.sideRest
      rw [Book.side_setSide, Book.side_setSide_invert']
      refine List.Perm.trans ?_ (List.perm_middle (l₁ := sideRests side.invert (book.side side.invert).orders))
      refine List.Perm.append_left _ ?_
      rw [hot.orders_fun, h3.orders_fun]
      unfold sideRests
      cases c with
      | fixed =>
        have e : ot' .pegged = ot .pegged := h5
        simp only [e]
        exact (h4.map (fun l => (side, Comp.fixed, l))).append_right _
      | pegged =>
        have e : ot' .fixed = ot .fixed := h5
        simp only [e]
        exact ((h4.map (fun l => (side, Comp.pegged, l))).append_left _).trans List.perm_middle
    cases eo with
    | none =>
      simp only [ok_bind, bind_ok, pure_ok] at h
      obtain ⟨a'', ha, hx⟩ := h
      injection hx with e1 e2
      injection e2 with e2 e3
      obtain ⟨f1, f2, f3⟩ := fin a'' e2.symm e1.symm
      subst e1 e3
      exact ⟨f1, f2, f3, ha, fun o ho => nomatch ho⟩
    | some o =>
      simp only [bind_ok, pure_ok, req_ok] at h
      obtain ⟨_, hr, a'', ha, hx⟩ := h
      injection hx with e1 e2
      injection e2 with e2 e3
      obtain ⟨f1, f2, f3⟩ := fin a'' e2.symm e1.symm
      subst e1 e3
      refine ⟨f1, f2, f3, ha, fun o' ho => ?_⟩
      cases ho
      exact hr

/-- Two live orders of an account's book with the same id are the same. -/
theorem termIds_inj {O : List Obl} (h : (termIds O).Nodup) {o o' : Obl} (ho : o ∈ O) (ho' : o' ∈ O) (ht : o.term = true)
    (ht' : o'.term = true) (hs : o.oo.side = o'.oo.side) (hi : o.oo.id = o'.oo.id) : o = o' := by
  have hm : o ∈ O.filter Obl.term := List.mem_filter.mpr ⟨ho, ht⟩
  have hm' : o' ∈ O.filter Obl.term := List.mem_filter.mpr ⟨ho', ht'⟩
  unfold termIds at h
  generalize O.filter Obl.term = F at h hm hm'
  induction F with
  | nil => cases hm
  | cons x F ih =>
    rw [List.map_cons, List.nodup_cons] at h
    rcases List.mem_cons.mp hm with rfl | hm1
    · rcases List.mem_cons.mp hm' with rfl | hm2
      · rfl
      · exact absurd (List.mem_map.mpr ⟨o', hm2, by rw [hs, hi]⟩) h.1
    · rcases List.mem_cons.mp hm' with rfl | hm2
      · exact absurd (List.mem_map.mpr ⟨o, hm1, by rw [hs, hi]⟩) h.1
      · exact ih h.2 hm1 hm2

/-- The resting order with the id of an account's order slot is that account's order. -/
theorem LInv.slotOwner {g : Ledger} {s : Side} {c : Comp} {l : LeafNode} {L : Rests} {dB dQ : Int} {ex : Pubkey → Int} {n : Nat}
    (h : LInv g ((s, c, l) :: L) dB dQ ex n) {k : Pubkey} {a : OOA} {i : Nat} {oo : OpenOrder} (ha : g.accts.get? k = some a)
    (hi : a.openOrders[i]? = some oo) (hf : oo.isFree = false) (hs : oo.side = s) (hid : oo.id = l.key) :
    l.owner = k ∧ l.ownerSlot = i ∧ oo.clientId = l.clientOrderId := by
  obtain ⟨oo', R, q, hw, _⟩ := h.takeRest
  obtain ⟨o, ho, ht, hk, hsl, hoo⟩ := (hw.ginv.acct k a ha).used i oo hi hf
  have hok := hw.ginv.ok (.rest s c l oo') (by simp)
  have e1 : oo'.side = s := hok.oside rfl
  have e2 : oo'.id = l.key := (hok.rest _ _ _ _ rfl).id
  have := termIds_inj hw.ginv.ids ho (show Obl.rest s c l oo' ∈ _ by simp) ht rfl (by rw [hoo, hs]; exact e1.symm)
    (by rw [hoo, hid]; exact e2.symm)
  subst this
  have e3 : oo' = oo := hoo
  refine ⟨hk, hsl, ?_⟩
  rw [← e3]; exact (hok.rest _ _ _ _ rfl).client

/-- The ledger with account `k` replaced. -/
abbrev Ledger.put (g : Ledger) (k : Pubkey) (a : OOA) : Ledger := { g with accts := g.accts.set k a }

theorem Accts.set_get {as : Accts} {k : Pubkey} {a : OOA} (h : as.get? k = some a) : as.set k a = as := by
  induction as with
  | nil => rfl
  | cons x xs ih =>
    rw [Accts.get?_cons] at h
    rw [Accts.set]
    split
    · rename_i he
      rw [if_pos he] at h
      injection h with h
      rw [← h, ← he]
    · rename_i he
      rw [if_neg he] at h
      rw [ih h]

/-- What a batch of cancels does. -/
structure Cancelled (so : Option Side) (co : Option Nat) (g : Ledger) (k : Pubkey) (book : Book) (a : OOA) (book' : Book) (a' : OOA) (ls : Rests) : Prop where
  bookOk : BookOk book'
  rest : book.resting.Perm (ls ++ book'.resting)
  frame : LFrame (g.put k a) (g.put k a')
  owner : ∀ x ∈ ls, x.2.2.owner = k
  side : ∀ x ∈ ls, ∀ s, so = some s → x.1 = s
  client : ∀ x ∈ ls, ∀ c, co = some c → x.2.2.clientOrderId = c

theorem cancelAllLoop_res {m : Market} {so : Option Side} {co : Option Nat} {cnt i limit : Nat} {book book' : Book} {a a' : OOA}
    {t t' : Int} {g : Ledger} {k : Pubkey} {dB dQ : Int} {ex : Pubkey → Int} {n : Nat} (hm : g.market = m)
    (hb : BookOk book) (hbl : 0 < g.market.baseLotSize) (hql : 0 < g.market.quoteLotSize) {a0 : OOA} (ha0 : g.accts.get? k = some a0)
    (hl : LInv (g.put k a) book.resting dB dQ ex n)
    (h : cancelAllLoop m so co cnt i limit book a t = .ok (t', book', a')) :
    ∃ ls, Cancelled so co g k book a book' a' ls ∧ LInv (g.put k a') book'.resting dB dQ ex n ∧
      t' = t + (ls.map (fun x => x.2.2.quantity)).sum := by
  induction cnt generalizing i limit book a t with
  | zero => cases h; exact ⟨[], ⟨hb, .refl _, LFrame.refl _, (fun _ hx => nomatch hx), (fun _ hx => nomatch hx), (fun _ hx => nomatch hx)⟩, hl, by simp⟩
  | succ cnt ih =>
    rw [cancelAllLoop] at h
    simp only [bind_ok] at h
    obtain ⟨oo, hoo, h⟩ := h
    have hga : (g.put k a).accts.get? k = some a := Accts.get?_set_self a ha0
    rw [OOA.openOrder, unwrapR_ok] at hoo
    split at h
    · exact ih hb hl h
    rename_i hfree
    split at h
    · exact ih hb hl h
    rename_i hside
    split at h
    · exact ih hb hl h
    rename_i hclient
    split at h
    · cases h; exact ⟨[], ⟨hb, .refl _, LFrame.refl _, (fun _ hx => nomatch hx), (fun _ hx => nomatch hx), (fun _ hx => nomatch hx)⟩, hl, by simp⟩
    split at h
    · exact ih hb hl h
    · cases h
    · rename_i leaf book1 a1 hc
      simp only [bind_ok, ckI64_ok] at h
      obtain ⟨_, ⟨_, rfl⟩, h⟩ := h
      obtain ⟨c1, c2, c3, c4, _⟩ := cancelOnBook_inv hb hc
      have hl1 := hl.perm c3
      obtain ⟨e1, e2, e3⟩ := hl1.slotOwner hga hoo (by simpa using hfree) rfl c1.symm
      have hcr := hl1.cancelRest hbl hql (a := a) (a' := a1) (by rw [e1]; exact hga) (by rw [← hm] at c4; exact c4)
      have hput : ({ g.put k a with accts := (g.put k a).accts.set leaf.owner a1 } : Ledger) = g.put k a1 := by
        show (_ : Ledger) = _
        simp only [Ledger.put, e1, Accts.set_set]
      rw [hput] at hcr
      obtain ⟨ls, r1, r2, r3⟩ := ih c2 hcr.1 h
      refine ⟨(oo.side, oo.comp, leaf) :: ls, ⟨r1.bookOk, c3.trans (r1.rest.cons _), hcr.2.trans r1.frame, ?_, ?_, ?_⟩, r2, ?_⟩
      · intro x hx
        rcases List.mem_cons.mp hx with rfl | hx
        · exact e1
        · exact r1.owner x hx
      · intro x hx s hs
        rcases List.mem_cons.mp hx with rfl | hx
        · subst hs; exact (by simpa using hside : s = oo.side).symm
        · exact r1.side x hx s hs
      · intro x hx c hc
        rcases List.mem_cons.mp hx with rfl | hx
        · subst hc; show leaf.clientOrderId = c; rw [← e3]; exact (by simpa using hclient : c = oo.clientId).symm
        · exact r1.client x hx c hc
      · rw [r3, List.map_cons, List.sum_cons]; exact Int.add_assoc _ _ _

end OB
