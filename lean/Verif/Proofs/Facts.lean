import Verif.Proofs.Again
import Verif.Spec.Ledger
/-! The invariant in terms of book, queue and accounts. -/
namespace OB
open Spec

theorem perm_map_sum {α : Type} {A B : List α} (h : A.Perm B) (f : α → Int) : (A.map f).sum = (B.map f).sum := by
  induction h with
  | nil => rfl
  | cons x _ ih => simp [ih]
  | swap x y _ => simp; omega
  | trans _ _ h1 h2 => exact h1.trans h2

/-- A sum over obligations that depends only on their kinds is a sum over resting orders and events. -/
theorem LInvW.sum {g : Ledger} {L : Rests} {dB dQ : Int} {ex : Pubkey → Int} {n : Nat} {O : List Obl} {q : List (Nat × Event)}
    (h : LInvW g L dB dQ ex n O q) (f : Obl → Int) (F : OKind → Int) (hf : ∀ o ∈ O, f o = F o.k) :
    osum f O = (L.map (fun x => F (.rest x.1 x.2.1 x.2.2))).sum + (g.heap.events.map (fun e => F (.ev e))).sum := by
  have h1 : osum f O = ((O.map Obl.k).map F).sum := by
    unfold osum
    rw [List.map_map]
    congr 1
    exact List.map_congr_left hf
  rw [h1, perm_map_sum h.kinds F, List.map_append, List.sum_append, h.heap.events]
  unfold restKs evKs
  simp only [List.map_map]
  rfl

theorem LInvW.mem_rest {g : Ledger} {L : Rests} {dB dQ : Int} {ex : Pubkey → Int} {n : Nat} {O : List Obl} {q : List (Nat × Event)}
    (h : LInvW g L dB dQ ex n O q) {x : Side × Comp × LeafNode} (hx : x ∈ L) : ∃ oo, Obl.rest x.1 x.2.1 x.2.2 oo ∈ O := by
  have : OKind.rest x.1 x.2.1 x.2.2 ∈ O.map Obl.k := h.kinds.mem_iff.mpr (List.mem_append_left _ (List.mem_map.mpr ⟨x, hx, rfl⟩))
  obtain ⟨o, ho, he⟩ := List.mem_map.mp this
  cases o with
  | rest s c l oo => cases he; exact ⟨oo, ho⟩
  | out e oo => cases he
  | fill f oo => cases he

theorem LInvW.mem_ev {g : Ledger} {L : Rests} {dB dQ : Int} {ex : Pubkey → Int} {n : Nat} {O : List Obl} {q : List (Nat × Event)}
    (h : LInvW g L dB dQ ex n O q) {e : Event} (he : e ∈ g.heap.events) : ∃ o ∈ O, o.k = .ev e := by
  rw [h.heap.events] at he
  obtain ⟨x, hx, rfl⟩ := List.mem_map.mp he
  have : OKind.ev x.2 ∈ O.map Obl.k := h.kinds.mem_iff.mpr (List.mem_append_right _ (List.mem_map.mpr ⟨x, hx, rfl⟩))
  obtain ⟨o, ho, he⟩ := List.mem_map.mp this
  exact ⟨o, ho, he⟩

theorem LInvW.of_mem {g : Ledger} {L : Rests} {dB dQ : Int} {ex : Pubkey → Int} {n : Nat} {O : List Obl} {q : List (Nat × Event)}
    (h : LInvW g L dB dQ ex n O q) {o : Obl} (ho : o ∈ O) :
    (∀ s c l oo, o = .rest s c l oo → (s, c, l) ∈ L) ∧ (∀ e, o.k = .ev e → e ∈ g.heap.events) := by
  have hm : o.k ∈ restKs L ++ evKs q := h.kinds.mem_iff.mp (List.mem_map.mpr ⟨o, ho, rfl⟩)
  refine ⟨?_, ?_⟩
  · rintro s c l oo rfl
    rcases List.mem_append.mp hm with hm | hm
    · obtain ⟨x, hx, he⟩ := List.mem_map.mp hm
      cases he; exact hx
    · obtain ⟨x, hx, he⟩ := List.mem_map.mp hm
      cases he
  · intro e he
    rw [he] at hm
    rw [h.heap.events]
    rcases List.mem_append.mp hm with hm | hm
    · obtain ⟨x, hx, he⟩ := List.mem_map.mp hm
      cases he
    · obtain ⟨x, hx, he⟩ := List.mem_map.mp hm
      cases he
      exact List.mem_map.mpr ⟨x, hx, rfl⟩

/-- Counting obligations by kind. -/
theorem LInvW.count {g : Ledger} {L : Rests} {dB dQ : Int} {ex : Pubkey → Int} {n : Nat} {O : List Obl} {q : List (Nat × Event)}
    (h : LInvW g L dB dQ ex n O q) (p : OKind → Bool) :
    (O.filter (fun o => p o.k)).length =
      (L.filter (fun x => p (.rest x.1 x.2.1 x.2.2))).length + (g.heap.events.filter (fun e => p (.ev e))).length := by
  have h1 : (O.filter (fun o => p o.k)).length = ((O.map Obl.k).filter p).length := by
    rw [List.filter_map, List.length_map]; rfl
  have h2 : ((O.map Obl.k).filter p).length = ((restKs L ++ evKs q).filter p).length := (h.kinds.filter p).length_eq
  rw [h1, h2, List.filter_append, List.length_append, h.heap.events]
  unfold restKs evKs
  simp only [List.filter_map, List.length_map]
  rfl

theorem acct_mem {as : Accts} {k : Pubkey} {a : OOA} (h : as.get? k = some a) : (k, a) ∈ as := by
  induction as with
  | nil => cases h
  | cons x xs ih =>
    rw [Accts.get?_cons] at h
    split at h
    · rename_i he; injection h with h; subst h he; exact List.mem_cons_self
    · exact List.mem_cons_of_mem _ (ih h)

theorem fillRebate_eq (m : Market) (f : FillEvent) : f.rebate m = fillRebate m f := rfl

/-! ### slots -/

/-- The kind occupies slot `i` of account `k`. -/
def OKind.holds (k : Pubkey) (i : Nat) : OKind → Bool
  | .rest _ _ l => l.owner = k ∧ l.ownerSlot = i
  | .ev e => frees k i e

theorem Obl.holds_iff (k : Pubkey) (i : Nat) (o : Obl) : o.k.holds k i = true ↔ o.term = true ∧ o.acct = k ∧ o.slot = i := by
  cases o with
  | rest s c l oo => simp [Obl.k, OKind.holds, Obl.term, Obl.acct, Obl.slot]
  | out e oo => simp [Obl.k, OKind.holds, frees, Obl.term, Obl.acct, Obl.slot]
  | fill f oo => simp [Obl.k, OKind.holds, frees, Obl.term, Obl.acct, Obl.slot]

theorem holders_le_one {O : List Obl} (h : (termKeys O).Nodup) (k : Pubkey) (i : Nat) :
    (O.filter (fun o => o.k.holds k i)).length ≤ 1 := by
  induction O with
  | nil => simp
  | cons o O ih =>
    rw [List.filter_cons]
    by_cases hh : o.k.holds k i = true
    · rw [if_pos hh]
      have ht := (Obl.holds_iff k i o).mp hh
      rw [termKeys_cons, if_pos ht.1, List.nodup_cons] at h
      have : O.filter (fun o => o.k.holds k i) = [] := by
        rw [List.filter_eq_nil_iff]
        intro x hx hxh
        have htx := (Obl.holds_iff k i x).mp hxh
        have := mem_termKeys hx htx.1
        rw [htx.2.1, htx.2.2, ← ht.2.1, ← ht.2.2] at this
        exact h.1 this
      rw [this]; simp
    · rw [if_neg hh]
      refine ih ?_
      rw [termKeys_cons] at h
      split at h
      · exact (List.nodup_cons.mp h).2
      · exact h

theorem slot_count {s : State} (hi : Inv s) (k : Pubkey) (i : Nat) : (restingIn s k i).length + (freeing s k i).length ≤ 1 := by
  obtain ⟨O, q, h⟩ := hi.core.linv
  have := h.count (OKind.holds k i)
  have h2 := holders_le_one h.ginv.slots k i
  have e1 : restingIn s k i = s.book.resting.filter (fun x => (OKind.rest x.1 x.2.1 x.2.2).holds k i) := rfl
  have e2 : freeing s k i = s.g.heap.events.filter (fun e => (OKind.ev e).holds k i) := rfl
  rw [e1, e2]
  omega

/-- The obligation that occupies a used slot. -/
theorem slot_used {s : State} (hi : Inv s) {k : Pubkey} {a : OOA} {i : Nat} {oo : OpenOrder} (ha : s.g.accts.get? k = some a)
    (ho : a.openOrders[i]? = some oo) (hu : oo.isFree = false) : 1 ≤ (restingIn s k i).length + (freeing s k i).length := by
  obtain ⟨O, q, h⟩ := hi.core.linv
  obtain ⟨o, hm, t, e1, e2, e3⟩ := (h.ginv.acct k a ha).used i oo ho hu
  have := h.count (OKind.holds k i)
  have e1 : restingIn s k i = s.book.resting.filter (fun x => (OKind.rest x.1 x.2.1 x.2.2).holds k i) := rfl
  have e2 : freeing s k i = s.g.heap.events.filter (fun e => (OKind.ev e).holds k i) := rfl
  rw [e1, e2, ← this]
  exact List.length_pos_of_mem (List.mem_filter.mpr ⟨hm, (Obl.holds_iff k i o).mpr ⟨t, by assumption, by assumption⟩⟩)

/-- A resting order and the account slot it occupies. -/
structure RestSlot (s : State) (sd : Side) (c : Comp) (l : LeafNode) (a : OOA) (oo : OpenOrder) : Prop where
  acct : s.g.accts.get? l.owner = some a
  slot : a.openOrders[l.ownerSlot]? = some oo
  used : oo.isFree = false
  id : oo.id = l.key
  side : oo.side = sd
  comp : oo.comp = c
  client : oo.clientId = l.clientOrderId
  qty : 1 ≤ l.quantity
  locked : sd = .bid ∨ c = .fixed → oo.lockedPrice = lockedAt c l
  lockedPos : 1 ≤ oo.lockedPrice
  fixed : c = .fixed → l.pegLimit = -1 ∧ 1 ≤ l.priceData
  pegged : c = .pegged → 1 ≤ l.pegLimit
  base : l.quantity * s.g.market.baseLotSize ≤ i64Max
  quote : l.quantity * oo.lockedPrice * s.g.market.quoteLotSize ≤ i64Max

theorem rest_slot {s : State} (hi : Inv s) {x : Side × Comp × LeafNode} (hx : x ∈ s.book.resting) :
    ∃ a oo, RestSlot s x.1 x.2.1 x.2.2 a oo := by
  obtain ⟨O, q, h⟩ := hi.core.linv
  obtain ⟨oo, ho⟩ := h.mem_rest hx
  obtain ⟨a, ha⟩ := h.ginv.owner _ ho
  have hl := h.ginv.link _ ho rfl a ha
  have hok := h.ginv.ok _ ho
  have hr := hok.rest _ _ _ _ rfl
  refine ⟨a, oo, ha, hl, hok.used rfl, hr.id, hok.oside rfl, hr.comp, hr.client, hok.qty, ?_, hok.lp, ?_, fun h => (hr.pegged h).1,
    hok.base, hok.quote⟩
  · intro hc
    cases hcc : x.2.1 with
    | fixed => exact (hr.fixed hcc).2.2.2
    | pegged =>
      rcases hc with hc | hc
      · exact (hr.pegged hcc).2 hc
      · rw [hcc] at hc; cases hc
  · intro hc
    exact ⟨(hr.fixed hc).2.2.1, (hr.fixed hc).1⟩

end OB
