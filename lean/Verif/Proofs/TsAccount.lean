import Verif.Proofs.TsBook
import Mathlib.Data.List.Nodup
/-! The orders of an account as the TypeScript library lists them. -/
namespace OB.Ts
open OB.Layout OB.Spec

theorem rest_obl {g : Ledger} {L : Rests} {dB dQ : Int} {ex : Pubkey → Int} {n : Nat} {O : List Obl} {q : List (Nat × Event)}
    (h : LInvW g L dB dQ ex n O q) {sd : Side} {c : Comp} {l : LeafNode} (hl : (sd, c, l) ∈ L) : ∃ oo, Obl.rest sd c l oo ∈ O := by
  have hk : OKind.rest sd c l ∈ O.map Obl.k := by
    refine h.kinds.mem_iff.mpr (List.mem_append_left _ ?_)
    exact List.mem_map.mpr ⟨_, hl, rfl⟩
  obtain ⟨o, ho, he⟩ := List.mem_map.mp hk
  cases o with
  | rest s c l oo => simp only [Obl.k, OKind.rest.injEq] at he; obtain ⟨rfl, rfl, rfl⟩ := he; exact ⟨oo, ho⟩
  | out e oo => simp [Obl.k] at he
  | fill f oo => simp [Obl.k] at he

/-- The slot of a resting order. -/
theorem slot_of_rest {s : State} (hi : Inv s) {k : Pubkey} {a : OOA} (ha : s.g.accts.get? k = some a) {sd : Side} {c : Comp} {l : LeafNode}
    (hl : (sd, c, l) ∈ s.book.resting) (ho : l.owner = k) :
    ∃ oo, a.openOrders[l.ownerSlot]? = some oo ∧ oo.isFree = false ∧ oo.side = sd ∧ oo.comp = c ∧ oo.id = l.key := by
  obtain ⟨O, q, hw⟩ := hi.core.linv
  obtain ⟨oo, hm⟩ := rest_obl hw hl
  have hok := hw.ginv.ok _ hm
  have hr := hok.rest _ _ _ _ rfl
  subst ho
  exact ⟨oo, hw.ginv.link _ hm rfl a ha, hok.used rfl, hok.oside rfl, hr.comp, hr.id⟩

/-- An order with the id of a slot in use is the order of this slot. -/
theorem rest_of_slot {s : State} (hi : Inv s) {k : Pubkey} {a : OOA} (ha : s.g.accts.get? k = some a) {i : Nat} {oo : OpenOrder}
    (hs : a.openOrders[i]? = some oo) (hu : oo.isFree = false) {c : Comp} {l : LeafNode} (hl : (oo.side, c, l) ∈ s.book.resting)
    (hk : l.key = oo.id) : l.owner = k ∧ l.ownerSlot = i := by
  obtain ⟨O, q, hw⟩ := hi.core.linv
  obtain ⟨oo', hm⟩ := rest_obl hw hl
  have hok := hw.ginv.ok _ hm
  have hr := hok.rest _ _ _ _ rfl
  obtain ⟨o, ho, ht, h1, h2, h3⟩ := (hw.ginv.acct k a ha).used i oo hs hu
  have hid := hw.ginv.ids
  unfold termIds at hid
  have he := List.inj_on_of_nodup_map hid (List.mem_filter.mpr ⟨ho, ht⟩) (List.mem_filter.mpr ⟨hm, rfl⟩)
    (by
      have e1 := hok.oside rfl
      have e2 := hr.id
      simp only [Obl.oo, Obl.side] at e1
      rw [h3]
      simp only [Obl.oo]
      rw [e1, e2, hk])
  rw [he] at h1 h2
  exact ⟨h1, h2⟩

/-- What the generator of a slot of a fixed order yields. -/
theorem slotItems_fixed {s : State} (hr : Inv s) {bids asks : BookSide}
    (hfb : SideFits (s.book.side .bid)) (hfa : SideFits (s.book.side .ask)) (hb : Loads s.book .bid bids) (ha : Loads s.book .ask asks)
    {slot : OpenOrder} (hc : slot.comp = .fixed) :
    ∃ G, slotItems bids asks slot = .ok G ∧ (∀ o ∈ G, (slot.side, Comp.fixed, o.leaf) ∈ s.book.resting ∧ priceOf none .fixed o.leaf = some o.priceLots) ∧
      ∀ l, (slot.side, Comp.fixed, l) ∈ s.book.resting → ∃ o ∈ G, o.leaf = l := by
  have key : ∀ (sd : Side) (x : BookSide), SideFits (s.book.side sd) → Loads s.book sd x →
      ∃ G, x.fixedItems = .ok G ∧ (∀ o ∈ G, (sd, Comp.fixed, o.leaf) ∈ s.book.resting ∧ priceOf none .fixed o.leaf = some o.priceLots) ∧
        ∀ l, (sd, Comp.fixed, l) ∈ s.book.resting → ∃ o ∈ G, o.leaf = l := by
    intro sd x hf hx
    obtain ⟨ot, hb⟩ := hr.core.bookOk.ok sd
    have he := Loads.eq hf hx
    refine ⟨_, fixedItems_spec (x := x) hb (by rw [he]) hf, fun o ho => ?_, fun l hl => ?_⟩
    · obtain ⟨l, hl, rfl⟩ := (mem_shown hb x o).mp ho
      exact ⟨mem_resting.mpr hl, rfl⟩
    · exact ⟨shown x l, (mem_shown hb x _).mpr ⟨l, mem_resting.mp hl, rfl⟩, rfl⟩
  unfold slotItems
  rw [hc]
  cases hs : slot.side with
  | bid => exact key .bid bids hfb hb
  | ask => exact key .ask asks hfa ha

/-- What the generator of a slot yields, if it does not throw. -/
theorem slotItems_ok {s : State} (hr : Inv s) {bids asks : BookSide}
    (hfb : SideFits (s.book.side .bid)) (hfa : SideFits (s.book.side .ask)) (hb : Loads s.book .bid bids) (ha : Loads s.book .ask asks)
    {slot : OpenOrder} (hc : slot.comp = .pegged → ∀ l, (slot.side, Comp.pegged, l) ∉ s.book.resting) :
    ∃ G, slotItems bids asks slot = .ok G ∧ (∀ o ∈ G, (slot.side, Comp.fixed, o.leaf) ∈ s.book.resting ∧ priceOf none .fixed o.leaf = some o.priceLots) ∧
      ∀ l, (slot.side, slot.comp, l) ∈ s.book.resting → slot.comp = .fixed ∧ ∃ o ∈ G, o.leaf = l := by
  cases h : slot.comp with
  | fixed =>
    obtain ⟨G, h1, h2, h3⟩ := slotItems_fixed hr hfb hfa hb ha h
    exact ⟨G, h1, h2, fun l hl => ⟨rfl, h3 l hl⟩⟩
  | pegged =>
    have hn := hc h
    have key : ∀ (sd : Side) (x : BookSide), Loads s.book sd x → SideFits (s.book.side sd) → (∀ l, (sd, Comp.pegged, l) ∉ s.book.resting) →
        x.oraclePeggedItems = .ok [] := by
      intro sd x hx hf hn
      obtain ⟨ot, hbk⟩ := hr.core.bookOk.ok sd
      have he := Loads.eq hf hx
      exact peggedItems_none hbk (by rw [he]) (List.eq_nil_iff_forall_not_mem.mpr (fun l hl => hn l (mem_resting.mpr hl)))
    refine ⟨[], ?_, fun o ho => by simp at ho, fun l hl => absurd hl (hn l)⟩
    unfold slotItems
    rw [h]
    cases hs : slot.side with
    | bid => exact key .bid bids hb hfb (hs ▸ hn)
    | ask => exact key .ask asks ha hfa (hs ▸ hn)

/-- The orders found for the slots from `n` on. -/
theorem accountItems_spec {s : State} (hr : Inv s) {bids asks : BookSide}
    (hfb : SideFits (s.book.side .bid)) (hfa : SideFits (s.book.side .ask)) (hb : Loads s.book .bid bids) (ha : Loads s.book .ask asks)
    {k : Pubkey} {a : OOA} (hk : s.g.accts.get? k = some a) (hp : ∀ oo ∈ a.openOrders, oo.isFree = false → oo.comp = .pegged → ∀ l, (oo.side, Comp.pegged, l) ∉ s.book.resting)
    (slots : List OpenOrder) (n : Nat) (hd : a.openOrders.drop n = slots) :
    ∃ L, accountItems bids asks slots = .ok L ∧
      (∀ l, l ∈ L.map (·.leaf) ↔ (∃ sd c, (sd, c, l) ∈ s.book.resting) ∧ l.owner = k ∧ n ≤ l.ownerSlot) ∧
      L.Pairwise (fun o o' => o.leaf.ownerSlot < o'.leaf.ownerSlot) ∧ ∀ o ∈ L, priceOf none .fixed o.leaf = some o.priceLots := by
  induction slots generalizing n with
  | nil =>
    refine ⟨[], rfl, fun l => ?_, List.Pairwise.nil, fun o ho => by simp at ho⟩
    simp only [List.map_nil, List.not_mem_nil, false_iff, not_and, not_le]
    rintro ⟨sd, c, hl⟩ ho
    obtain ⟨oo, h1, _⟩ := slot_of_rest hr hk hl ho
    have h2 := (List.getElem?_eq_some_iff.mp h1).1
    have h3 := List.drop_eq_nil_iff.mp hd
    omega
  | cons slot slots ih =>
    have hget : a.openOrders[n]? = some slot := by
      have := congrArg List.head? hd
      rwa [List.head?_drop] at this
    have hd' : a.openOrders.drop (n + 1) = slots := by
      have := congrArg List.tail hd
      rwa [List.tail_drop] at this
    obtain ⟨L, h1, h2, h3, h4⟩ := ih (n + 1) hd'
    unfold accountItems
    by_cases hu : slot.isFree = true
    · rw [if_pos hu]
      refine ⟨L, h1, fun l => ?_, h3, h4⟩
      rw [h2]
      constructor
      · rintro ⟨hx, ho, hn⟩; exact ⟨hx, ho, by omega⟩
      · rintro ⟨⟨sd, c, hx⟩, ho, hn⟩
        refine ⟨⟨sd, c, hx⟩, ho, ?_⟩
        by_cases e : n = l.ownerSlot
        · obtain ⟨oo, k1, k2, _⟩ := slot_of_rest hr hk hx ho
          rw [← e, hget] at k1
          cases k1
          rw [hu] at k2
          cases k2
        · omega
    · rw [if_neg hu]
      have hu' : slot.isFree = false := by simpa using hu
      have hmem : slot ∈ a.openOrders := List.mem_of_getElem? hget
      obtain ⟨G, g1, g2, g3⟩ := slotItems_ok hr hfb hfa hb ha (hp slot hmem hu')
      rw [g1, h1]
      simp only [bind, Except.bind, pure, Except.pure]
      cases hfind : G.find? (fun o => o.leaf.key = slot.id) with
      | none =>
        refine ⟨L, rfl, fun l => ?_, h3, h4⟩
        rw [h2]
        constructor
        · rintro ⟨hx, ho, hn⟩; exact ⟨hx, ho, by omega⟩
        · rintro ⟨⟨sd, c, hx⟩, ho, hn⟩
          refine ⟨⟨sd, c, hx⟩, ho, ?_⟩
          by_cases e : n = l.ownerSlot
          · obtain ⟨oo, k1, k2, k3, k4, k5⟩ := slot_of_rest hr hk hx ho
            rw [← e, hget] at k1
            cases k1
            rw [← k3, ← k4] at hx
            obtain ⟨_, o, ho', rfl⟩ := g3 l hx
            have := List.find?_eq_none.mp hfind o ho'
            simp only [decide_eq_true_eq] at this
            exact absurd k5.symm this
          · omega
      | some o =>
        have hoG := List.mem_of_find?_eq_some hfind
        have hok := List.find?_some hfind
        simp only [decide_eq_true_eq] at hok
        obtain ⟨hrest, hprice⟩ := g2 o hoG
        obtain ⟨how, hos⟩ := rest_of_slot hr hk hget hu' hrest hok
        refine ⟨o :: L, rfl, fun l => ?_, List.pairwise_cons.mpr ⟨fun o' ho' => ?_, h3⟩, fun o' ho' => ?_⟩
        · rw [List.map_cons, List.mem_cons, h2]
          constructor
          · rintro (rfl | ⟨hx, ho, hn⟩)
            · exact ⟨⟨_, _, hrest⟩, how, by omega⟩
            · exact ⟨hx, ho, by omega⟩
          · rintro ⟨⟨sd, c, hx⟩, ho, hn⟩
            by_cases e : n = l.ownerSlot
            · left
              obtain ⟨oo, k1, k2, k3, k4, k5⟩ := slot_of_rest hr hk hx ho
              rw [← e, hget] at k1
              cases k1
              rw [← k3, ← k4] at hx
              rw [(g3 l hx).1] at hx
              obtain ⟨ot, hbk⟩ := hr.core.bookOk.ok slot.side
              have hso := (hbk.rep .fixed).sorted
              rw [← hbk.orders] at hso
              exact sorted_key_inj hso (mem_resting.mp hx) (mem_resting.mp hrest) (by rw [hok, k5])
            · right; exact ⟨⟨sd, c, hx⟩, ho, by omega⟩
        · have := (h2 o'.leaf).mp (List.mem_map_of_mem ho')
          omega
        · rcases List.mem_cons.mp ho' with rfl | ho'
          · exact hprice
          · exact h4 o' ho'

/-- One pegged order of the account on the book. -/
theorem accountItems_pegged {s : State} (hr : Inv s) {bids asks : BookSide}
    (hfb : SideFits (s.book.side .bid)) (hfa : SideFits (s.book.side .ask)) (hb : Loads s.book .bid bids) (ha : Loads s.book .ask asks)
    (slots : List OpenOrder) (hs : ∃ oo ∈ slots, oo.isFree = false ∧ oo.comp = .pegged ∧ ∃ l, (oo.side, Comp.pegged, l) ∈ s.book.resting) :
    accountItems bids asks slots = .error .notImplemented := by
  have key : ∀ (sd : Side) (x : BookSide), SideFits (s.book.side sd) → Loads s.book sd x →
      x.oraclePeggedItems = .ok [] ∧ (∀ l, (sd, Comp.pegged, l) ∉ s.book.resting) ∨ x.oraclePeggedItems = .error .notImplemented := by
    intro sd x hf hx
    obtain ⟨ot, hbk⟩ := hr.core.bookOk.ok sd
    have he := Loads.eq hf hx
    by_cases h : (s.book.side sd).orders .pegged = []
    · refine .inl ⟨peggedItems_none hbk (by rw [he]) h, fun l hl => ?_⟩
      have := mem_resting.mp hl
      rw [h] at this
      simp at this
    · exact .inr (peggedItems_some hbk (by rw [he]) hf h)
  have tot : ∀ slot : OpenOrder, (∃ G, slotItems bids asks slot = .ok G ∧
      (slot.comp = .pegged → ∀ l, (slot.side, Comp.pegged, l) ∉ s.book.resting)) ∨ slotItems bids asks slot = .error .notImplemented := by
    intro slot
    cases hc : slot.comp with
    | fixed =>
      obtain ⟨G, h1, _⟩ := slotItems_fixed hr hfb hfa hb ha hc
      exact .inl ⟨G, h1, fun h => by cases h⟩
    | pegged =>
      unfold slotItems
      rw [hc]
      cases hsd : slot.side with
      | bid => rcases key .bid bids hfb hb with ⟨h1, h2⟩ | h1; exacts [.inl ⟨[], h1, fun _ => h2⟩, .inr h1]
      | ask => rcases key .ask asks hfa ha with ⟨h1, h2⟩ | h1; exacts [.inl ⟨[], h1, fun _ => h2⟩, .inr h1]
  induction slots with
  | nil => obtain ⟨oo, h, _⟩ := hs; simp at h
  | cons slot slots ih =>
    unfold accountItems
    by_cases hu : slot.isFree = true
    · rw [if_pos hu]
      obtain ⟨oo, hm, h1, h2⟩ := hs
      rcases List.mem_cons.mp hm with rfl | hm
      · rw [hu] at h1; cases h1
      · exact ih ⟨oo, hm, h1, h2⟩
    · rw [if_neg hu]
      rcases tot slot with ⟨G, h1, h2⟩ | h1
      · obtain ⟨oo, hm, k1, k2, l, k3⟩ := hs
        rcases List.mem_cons.mp hm with rfl | hm
        · exact absurd k3 (h2 k2 l)
        · rw [h1, ih ⟨oo, hm, k1, k2, l, k3⟩]
          rfl
      · rw [h1]; rfl

end OB.Ts
