import Verif.Proofs.NewOrder
/-! Making room on the own side of the book and posting the remainder of an order. -/
namespace OB

theorem rankOrders_inv {side : Side} {f p : Option (Nat × LeafNode)} {rw : Bool} {now : Nat} {oracle : Option Int} {w : IterItem}
    (h : rankOrders side f p rw now oracle = .ok (some w)) :
    (w.comp = .fixed ∧ f = some (w.handle, w.leaf) ∧ fixedPriceLots w.leaf.priceData = .ok w.priceLots) ∨
    (w.comp = .pegged ∧ p = some (w.handle, w.leaf) ∧
      ∃ o, oracle = some o ∧ w.priceLots = (oraclePeggedPrice o w.leaf side).2) := by
  have hfix : ∀ {f : Nat × LeafNode} {w : IterItem}, fixedToResult f now = .ok w →
      w.comp = .fixed ∧ some f = some (w.handle, w.leaf) ∧ fixedPriceLots w.leaf.priceData = .ok w.priceLots := by
    intro f w hw
    unfold fixedToResult at hw
    simp only [bind_ok, pure_ok] at hw
    obtain ⟨p, hp, rfl⟩ := hw
    exact ⟨rfl, rfl, hp⟩
  unfold rankOrders at h
  cases oracle with
  | none =>
    cases f with
    | none => cases h
    | some f =>
      simp only [bind_ok, pure_ok] at h
      obtain ⟨w', hw, h⟩ := h; cases h
      exact .inl (hfix hw)
  | some o =>
    cases p with
    | none =>
      cases f with
      | none => cases h
      | some f =>
        simp only [bind_ok, pure_ok] at h
        obtain ⟨w', hw, h⟩ := h; cases h
        exact .inl (hfix hw)
    | some p =>
      obtain ⟨hd, l⟩ := p
      cases f with
      | none => cases h; exact .inr ⟨rfl, rfl, o, rfl, rfl⟩
      | some f =>
        simp only [bind_ok] at h
        obtain ⟨k, _, h⟩ := h
        revert h
        generalize (xor _ rw) = B
        intro h
        cases B with
        | true =>
          simp only [if_true, bind_ok, pure_ok] at h
          obtain ⟨w', hw, h⟩ := h; cases h
          exact .inl (hfix hw)
        | false => cases h; exact .inr ⟨rfl, rfl, o, rfl, rfl⟩

theorem mem_getLast? {α : Type} {L : List α} {x : α} (h : L.getLast? = some x) : x ∈ L := List.mem_of_getLast? h

theorem bs_removeWorst {b b' : BookSide} {ot : Comp → Option T} (h : BSOk b ot) {now : Nat} {oracle : Option Int} {l : LeafNode}
    {p : Int} (hr : b.removeWorst now oracle = .ok (some (l, p, b'))) :
    ∃ c ot' hd, BSOk b' ot' ∧ (OT.lvs (ot c)).Perm (l :: OT.lvs (ot' c)) ∧ ot' c.other = ot c.other ∧ b'.side = b.side ∧
      (OT.ord b.side (ot c)).getLast? = some (hd, l) ∧
      ∃ w, rankOrders b.side (OT.ord b.side (ot .fixed)).getLast? (OT.ord b.side (ot .pegged)).getLast? true now oracle = .ok (some w) ∧
        w.comp = c ∧ w.leaf = l ∧ w.priceLots = p := by
  unfold BookSide.removeWorst at hr
  have e1 := findWorst_spec (h.slabC .fixed) (h.rep .fixed)
  have e2 := findWorst_spec (h.slabC .pegged) (h.rep .pegged)
  change b.nodes.findWorst b.rootFixed = _ at e1
  change b.nodes.findWorst b.rootPegged = _ at e2
  rw [e1, e2] at hr
  simp only [ok_bind] at hr
  rw [bind_ok] at hr
  obtain ⟨w?, hw, hr⟩ := hr
  cases w? with
  | none => cases hr
  | some w =>
    simp only [] at hr
    have key : ∃ hd, (OT.ord b.side (ot w.comp)).getLast? = some (hd, w.leaf) := by
      rcases rankOrders_inv hw with ⟨hc, hf, _⟩ | ⟨hc, hf, _⟩ <;> rw [hc] <;> exact ⟨_, hf⟩
    obtain ⟨hd, hl⟩ := key
    have hm : w.leaf ∈ OT.lvs (ot w.comp) := by
      rw [OT.lvs_eq]
      exact List.mem_map.mpr ⟨(hd, w.leaf), (OT.ord_perm _ _).mem_iff.mp (mem_getLast? hl), rfl⟩
    obtain ⟨b1, ot', g1, g2, g3, g4, g5⟩ := bs_removeByKey_mem h w.comp hm
    rw [g1] at hr
    simp only [ok_bind] at hr
    cases hr
    exact ⟨w.comp, ot', hd, g2, g3, g4, g5, hl, w, hw, rfl, rfl, rfl⟩

theorem other_eq {c c' : Comp} (h : c' ≠ c) : c' = c.other := by cases c <;> cases c' <;> simp_all [Comp.other]

/-- What identifies an order in an out event. -/
def LeafNode.out3 (l : LeafNode) : Pubkey × Nat × Int := (l.owner, l.ownerSlot, l.quantity)
def OutEvent.out3 (e : OutEvent) : Pubkey × Nat × Int := (e.owner, e.ownerSlot, e.quantity)

def tagged (side : Side) (rm : List (Comp × LeafNode)) : Rests := rm.map (fun x => (side, x.1, x.2))

/-- What making room does. -/
structure RoomRes (owner : Pubkey) (rem : List Pubkey) (side : Side) (b : BookSide) (g : Ledger) (L : Rests) (dB dQ : Int) (ex : Pubkey → Int) (n : Nat)
    (b' : BookSide) (g' : Ledger) (outs : List OutEvent) (rm : List (Comp × LeafNode)) : Prop where
  ok : ∃ ot, BSOk b' ot
  bside : b'.side = b.side
  linv : LInv g' (sideRests side b'.orders ++ L) dB dQ ex n
  frame : LFrame g g'
  mkt : g'.market = g.market
  sub : ∀ c, ∀ l ∈ b'.orders c, l ∈ b.orders c
  heap : ∃ E, g'.heap.events = g.heap.events ++ E ∧ (∀ e ∈ E, ∃ o ∈ outs, e = .out o) ∧ E.length ≤ outs.length ∧
    ∀ o ∈ outs, .out o ∈ E ∨ owner = o.owner ∨ o.owner ∈ rem
  perm : (sideRests side b.orders).Perm (tagged side rm ++ sideRests side b'.orders)
  outs3 : outs.map OutEvent.out3 = rm.map (fun x => x.2.out3)
  outsSide : ∀ e ∈ outs, e.side = side

theorem RoomRes.refl {owner : Pubkey} {rem : List Pubkey} {side : Side} {b : BookSide} {g : Ledger} {L : Rests} {dB dQ : Int} {ex : Pubkey → Int} {n : Nat}
    (hb : ∃ ot, BSOk b ot) (hl : LInv g (sideRests side b.orders ++ L) dB dQ ex n) : RoomRes owner rem side b g L dB dQ ex n b g [] [] :=
  ⟨hb, rfl, hl, LFrame.refl _, rfl, fun _ _ h => h, ⟨[], by simp, by simp, by simp, by simp⟩, List.Perm.refl _, rfl, by simp⟩

theorem RoomRes.remove {side : Side} {b b1 b2 : BookSide} {g g1 g2 : Ledger} {L : Rests} {dB dQ : Int} {ex : Pubkey → Int} {n : Nat}
    {outs : List OutEvent} {rm : List (Comp × LeafNode)} {owner : Pubkey} {rem : List Pubkey} (h : RoomRes owner rem side b g L dB dQ ex n b1 g1 outs rm)
    (hbl : 0 < g.market.baseLotSize) (hql : 0 < g.market.quoteLotSize)
    {ot ot' : Comp → Option T} {c : Comp} {l : LeafNode} (h1 : BSOk b1 ot) (h2 : BSOk b2 ot')
    (hp : (OT.lvs (ot c)).Perm (l :: OT.lvs (ot' c))) (ho : ot' c.other = ot c.other) (hs : b2.side = b1.side)
    {ev : OutEvent} (hev : OutOf ev side l) {hasOO : Bool}
    (hx : processOutEvent ev hasOO owner rem g1 = .ok g2) :
    RoomRes owner rem side b g L dB dQ ex n b2 g2 (outs ++ [ev]) (rm ++ [(c, l)]) := by
  have e1 := h1.orders_fun
  have e2 := h2.orders_fun
  have hl := h.linv
  have hpp : (sideRests side b1.orders).Perm ((side, c, l) :: sideRests side b2.orders) := by
    rw [e1, e2]
    refine sideRests_cons (L := fun c => OT.lvs (ot c)) (L' := fun c => OT.lvs (ot' c)) hp ?_
    intro c' hc
    rw [other_eq hc, ho]
  have hl2 := hl.perm (hpp.append_right L)
  rw [List.cons_append] at hl2
  obtain ⟨p1, p2, p3, p4⟩ := hl2.processOut (by rw [h.mkt]; exact hbl) (by rw [h.mkt]; exact hql) hev hx
  refine ⟨⟨_, h2⟩, hs.trans h.bside, p1, h.frame.trans p2, p3.trans h.mkt, ?_, ?_, ?_, ?_, ?_⟩
  · intro c' x hx
    apply h.sub c'
    rw [e1]; rw [e2] at hx
    by_cases hc : c' = c
    · subst hc; exact hp.mem_iff.mpr (List.mem_cons_of_mem _ hx)
    · rw [other_eq hc] at hx ⊢; simp only [ho] at hx; exact hx
  · obtain ⟨E, hE1, hE2, hE3, hE4⟩ := h.heap
    rcases p4 with ⟨p4, hwho⟩ | p4
    · refine ⟨E, by rw [p4]; exact hE1, fun e he => by
        obtain ⟨o, ho, hh⟩ := hE2 e he; exact ⟨o, by simp [ho], hh⟩, by simp; omega, ?_⟩
      intro o ho
      rcases List.mem_append.mp ho with ho | ho
      · exact hE4 o ho
      · rw [List.mem_singleton] at ho; subst ho; exact .inr hwho
    · refine ⟨E ++ [.out ev], by rw [p4, hE1, List.append_assoc], ?_, by simp; omega, ?_⟩
      · intro e he
        rcases List.mem_append.mp he with he | he
        · obtain ⟨o, ho, hh⟩ := hE2 e he; exact ⟨o, by simp [ho], hh⟩
        · simp at he; exact ⟨ev, by simp, he⟩
      · intro o ho
        rcases List.mem_append.mp ho with ho | ho
        · exact (hE4 o ho).imp (fun hm => List.mem_append_left _ hm) id
        · rw [List.mem_singleton] at ho; subst ho; exact .inl (by simp)
  · refine h.perm.trans ?_
    have : tagged side (rm ++ [(c, l)]) ++ sideRests side b2.orders =
        tagged side rm ++ ((side, c, l) :: sideRests side b2.orders) := by
      unfold tagged; simp
    rw [this]
    exact hpp.append_left _
  · rw [List.map_append, List.map_append, h.outs3]
    congr 1
    simp only [List.map_cons, List.map_nil, OutEvent.out3, LeafNode.out3, hev.owner, hev.slot, hev.qty]
  · intro e he
    rcases List.mem_append.mp he with he | he
    · exact h.outsSide e he
    · simp only [List.mem_singleton] at he; rw [he]; exact hev.side

/-- The price at which an order is ranked for eviction. -/
def rankPrice (oracle : Option Int) (c : Comp) (l : LeafNode) : Option Int :=
  match c with
  | .fixed => some l.priceData
  | .pegged => oracle.map (fun o => max (satAddI64 o (oraclePeggedPriceOffset l.priceData)) 1)

/-- The worst order `l` of a side, ranked at `p`. -/
structure Worst (side : Side) (oracle : Option Int) (b : BookSide) (c : Comp) (l : LeafNode) (p : Int) : Prop where
  mem : l ∈ b.orders c
  price : rankPrice oracle c l = some p
  worst : ∀ c' l' p', l' ∈ b.orders c' → rankPrice oracle c' l' = some p' → side.isPriceBetter p p' = false

/-- Which orders are removed to make room. -/
structure MakeRoom (env : Env) (price : Int) (b : BookSide) (rm : List (Comp × LeafNode)) : Prop where
  split : ∃ E W b1, rm = E ++ W ∧ E.length ≤ 1 ∧ W.length ≤ 1 ∧ (∀ x ∈ E, x.2 ∈ b.orders x.1 ∧ x.2.expiry < env.nowTs) ∧
    (E = [] → b1 = b ∧ ∀ c, ∀ l ∈ b.orders c, ¬ l.expiry < env.nowTs) ∧
    (sideRests env.order.side b.orders).Perm (tagged env.order.side E ++ sideRests env.order.side b1.orders) ∧
    (∃ ot, BSOk b1 ot) ∧ (W = [] → b1.isFull = false) ∧
    ∀ x ∈ W, b1.isFull = true ∧ ∃ p, Worst env.order.side env.oracle b1 x.1 x.2 p ∧ env.order.side.isPriceBetter price p = true

theorem getLast_pairwise {α : Type} {R : α → α → Prop} {L : List α} {x y : α} (h : L.Pairwise R) (hl : L.getLast? = some x)
    (hy : y ∈ L) : y = x ∨ R y x := by
  obtain ⟨A, rfl⟩ : ∃ A, L = A ++ [x] := by
    have := List.dropLast_append_getLast? x hl
    exact ⟨_, this.symm⟩
  rw [List.pairwise_append] at h
  rcases List.mem_append.mp hy with hy | hy
  · exact .inr (h.2.2 y hy x (by simp))
  · simp at hy; exact .inl hy

theorem priceData_mono {k k' : LeafNode} (h : k.key ≤ k'.key) (h2 : k'.key < 2 ^ 128) : k.priceData ≤ k'.priceData := by
  unfold LeafNode.priceData two64
  rw [Nat.shiftRight_eq_div_pow, Nat.shiftRight_eq_div_pow]
  omega

theorem rankPrice_mono {oracle : Option Int} {c : Comp} {l l' : LeafNode} {p p' : Int} (h : l.key ≤ l'.key) (h2 : l'.key < 2 ^ 128)
    (hp : rankPrice oracle c l = some p) (hp' : rankPrice oracle c l' = some p') : p ≤ p' := by
  have hm := priceData_mono h h2
  cases c with
  | fixed => cases hp; cases hp'; omega
  | pegged =>
    cases oracle with
    | none => cases hp
    | some o =>
      cases hp; cases hp'
      have a1 : l.priceData < two64 := Nat.mod_lt _ (by decide)
      have a2 : l'.priceData < two64 := Nat.mod_lt _ (by decide)
      rw [oraclePeggedPriceOffset_eq a1, oraclePeggedPriceOffset_eq a2]
      unfold satAddI64 i64Max i64Min
      show max (max _ (min _ _)) _ ≤ max (max _ (min _ _)) _
      omega

theorem notBetter_of_geKey {s : Side} {oracle : Option Int} {c : Comp} {l l' : LeafNode} {p p' : Int}
    (hk : l = l' ∨ betterKey s l'.key l.key = true) (h1 : l.key < 2 ^ 128) (h2 : l'.key < 2 ^ 128)
    (hp : rankPrice oracle c l = some p) (hp' : rankPrice oracle c l' = some p') : s.isPriceBetter p p' = false := by
  rcases hk with hk | hk
  · subst hk; rw [hp] at hp'; injection hp' with hp'; subst hp'
    cases s <;> simp [Side.isPriceBetter]
  · cases s with
    | bid =>
      simp [betterKey] at hk
      have := rankPrice_mono (Nat.le_of_lt hk) h2 hp hp'
      simp [Side.isPriceBetter]; omega
    | ask =>
      simp [betterKey] at hk
      have := rankPrice_mono (Nat.le_of_lt hk) h1 hp' hp
      simp [Side.isPriceBetter]; omega

theorem notBetter_trans {s : Side} {a b c : Int} (h1 : s.isPriceBetter a b = false) (h2 : s.isPriceBetter b c = false) :
    s.isPriceBetter a c = false := by
  cases s <;> (simp [Side.isPriceBetter] at *; omega)

/-- The ranked price of the result, and how the two candidates compare. -/
theorem rankOrders_worst {side : Side} {f p : Option (Nat × LeafNode)} {now : Nat} {oracle : Option Int} {w : IterItem}
    (hf : ∀ x, f = some x → FixedOk x.2)
    (h : rankOrders side f p true now oracle = .ok (some w)) :
    rankPrice oracle w.comp w.leaf = some w.priceLots ∧
    (∀ x q, f = some x → rankPrice oracle .fixed x.2 = some q → side.isPriceBetter w.priceLots q = false) ∧
    (∀ x q, p = some x → rankPrice oracle .pegged x.2 = some q → side.isPriceBetter w.priceLots q = false) := by
  have refl : ∀ x : Int, side.isPriceBetter x x = false := by intro x; cases side <;> simp [Side.isPriceBetter]
  have hrp : ∀ (o : Int) (l : LeafNode), (oraclePeggedPrice o l side).2 =
      max (satAddI64 o (oraclePeggedPriceOffset l.priceData)) 1 := by
    intro o l
    unfold oraclePeggedPrice
    simp only
    split
    · rename_i hx
      split <;> (simp only; omega)
    · rfl
  have hfix : ∀ {f : Nat × LeafNode} {w : IterItem}, FixedOk f.2 → fixedToResult f now = .ok w →
      w.comp = .fixed ∧ w.leaf = f.2 ∧ w.priceLots = f.2.priceData := by
    intro f w hk hw
    unfold fixedToResult fixedPriceLots at hw
    simp only [bind_ok, pure_ok, assertR, req_ok] at hw
    obtain ⟨p, ⟨_, h1, h2⟩, rfl⟩ := hw
    refine ⟨rfl, rfl, ?_⟩
    have hx : ((f.2.priceData : Nat) : Int) = p := by
      rw [← h2]; unfold asI64 i64Max at *; simp only; split <;> omega
    exact hx.symm
  unfold rankOrders at h
  cases oracle with
  | none =>
    cases f with
    | none => cases h
    | some f =>
      simp only [bind_ok, pure_ok] at h
      obtain ⟨w', hw, h⟩ := h; cases h
      obtain ⟨e1, e2, e3⟩ := hfix (hf f rfl) hw
      refine ⟨by rw [e1, e2, e3]; rfl, ?_, ?_⟩
      · intro x q hx hq; injection hx with hx; subst hx; cases hq; rw [e3]; exact refl _
      · intro x q _ hq; cases hq
  | some o =>
    cases p with
    | none =>
      cases f with
      | none => cases h
      | some f =>
        simp only [bind_ok, pure_ok] at h
        obtain ⟨w', hw, h⟩ := h; cases h
        obtain ⟨e1, e2, e3⟩ := hfix (hf f rfl) hw
        refine ⟨by rw [e1, e2, e3]; rfl, ?_, ?_⟩
        · intro x q hx hq; injection hx with hx; subst hx; cases hq; rw [e3]; exact refl _
        · intro x q hx; cases hx
    | some p =>
      obtain ⟨hd, l⟩ := p
      cases f with
      | none =>
        cases h
        refine ⟨by simp [peggedToResult, rankPrice, hrp], (fun _ _ hx => nomatch hx), ?_⟩
        intro x q hx hq
        injection hx with hx; subst hx; cases hq
        show side.isPriceBetter (oraclePeggedPrice o l side).2 _ = false
        rw [hrp]; exact refl _
      | some f =>
        simp only [bind_ok] at h
        obtain ⟨k, hk, h⟩ := h
        have hF := hf f rfl
        have hkey : k = effKey l.key (oraclePeggedPrice o l side).2 := by
          have h1 : 1 ≤ (oraclePeggedPrice o l side).2 := by rw [hrp]; omega
          have h2 : (oraclePeggedPrice o l side).2 ≤ i64Max := by rw [hrp]; unfold satAddI64 i64Max i64Min; omega
          rw [keyForFixedPrice_eq h1 h2] at hk
          injection hk with hk; exact hk.symm
        have hcmp : (f.2.key < k → (f.2.priceData : Int) ≤ (oraclePeggedPrice o l side).2) ∧
            (k < f.2.key → (oraclePeggedPrice o l side).2 ≤ f.2.priceData) := by
          have h1 : 1 ≤ (oraclePeggedPrice o l side).2 := by rw [hrp]; omega
          have hk128 := hF.key
          rw [hkey]
          unfold effKey LeafNode.priceData
          rw [Nat.shiftRight_eq_div_pow]
          unfold two64
          omega
        have hne : f.2.key = k → (oraclePeggedPrice o l side).2 = f.2.priceData := by
          intro he
          have h1 : 1 ≤ (oraclePeggedPrice o l side).2 := by rw [hrp]; omega
          have hk128 := hF.key
          rw [hkey] at he
          unfold LeafNode.priceData
          rw [Nat.shiftRight_eq_div_pow]
          unfold effKey at he
          unfold two64 at *
          omega
        have hpf : (side.isPriceBetter (f.2.priceData : Int) (oraclePeggedPrice o l side).2 = false ∨
            ((if side = .bid then decide (f.2.key > k) else decide (f.2.key < k)) = true)) ∧
            (side.isPriceBetter (oraclePeggedPrice o l side).2 (f.2.priceData : Int) = false ∨
            ((if side = .bid then decide (f.2.key > k) else decide (f.2.key < k)) = false)) := by
          rcases Nat.lt_trichotomy f.2.key k with h1 | h1 | h1 <;> cases side <;> simp [Side.isPriceBetter] <;> omega
        revert h
        generalize (if side = .bid then decide (f.2.key > k) else decide (f.2.key < k)) = B at hpf
        intro h
        cases B with
        | false =>
          simp only [Bool.false_xor, if_true, bind_ok, pure_ok] at h
          obtain ⟨w', hw, h⟩ := h; cases h
          obtain ⟨e1, e2, e3⟩ := hfix hF hw
          refine ⟨by rw [e1, e2, e3]; rfl, ?_, ?_⟩
          · intro x q hx hq; injection hx with hx; subst hx; cases hq; rw [e3]; exact refl _
          · intro x q hx hq; injection hx with hx; subst hx; cases hq
            show side.isPriceBetter w.priceLots (max (satAddI64 o (oraclePeggedPriceOffset l.priceData)) 1) = false
            rw [e3, ← hrp]
            rcases hpf.1 with hh | hh
            · exact hh
            · cases hh
        | true =>
          cases h
          refine ⟨by simp [peggedToResult, rankPrice, hrp], ?_, ?_⟩
          · intro x q hx hq; injection hx with hx; subst hx; cases hq
            rcases hpf.2 with hh | hh
            · exact hh
            · cases hh
          · intro x q hx hq; injection hx with hx; subst hx; cases hq
            show side.isPriceBetter (oraclePeggedPrice o l side).2 _ = false
            rw [hrp]; exact refl _

theorem removeWorst_worst {b b' : BookSide} {ot : Comp → Option T} (h : BSOk b ot) {now : Nat} {oracle : Option Int} {l : LeafNode}
    {p : Int} (hF : ∀ l ∈ b.orders .fixed, FixedOk l) (hK : ∀ c, ∀ l ∈ b.orders c, l.key < 2 ^ 128)
    (hr : b.removeWorst now oracle = .ok (some (l, p, b'))) :
    ∃ c ot', BSOk b' ot' ∧ (OT.lvs (ot c)).Perm (l :: OT.lvs (ot' c)) ∧ ot' c.other = ot c.other ∧ b'.side = b.side ∧
      Worst b.side oracle b c l p := by
  obtain ⟨c, ot', hd, h1, h2, h3, h4, h5, w, h6, h7, h8, h9⟩ := bs_removeWorst h hr
  have hmem : ∀ c' x, x ∈ OT.ord b.side (ot c') → x.2 ∈ b.orders c' := by
    intro c' x hx
    rw [h.orders, OT.lvs_eq]
    exact List.mem_map_of_mem ((OT.ord_perm _ _).mem_iff.mp hx)
  obtain ⟨k1, k2, k3⟩ := rankOrders_worst (by
    intro x hx
    exact hF _ (hmem .fixed x (mem_getLast? hx))) h6
  rw [h7, h8, h9] at k1
  rw [h9] at k2 k3
  have hml : l ∈ b.orders c := hmem c _ (mem_getLast? h5)
  refine ⟨c, ot', h1, h2, h3, h4, hml, k1, ?_⟩
  intro c' l' p' hl' hp'
  have hl'' := hl'
  rw [h.orders, OT.lvs_eq] at hl'
  obtain ⟨x, hx, rfl⟩ := List.mem_map.mp hl'
  have hx' : x ∈ OT.ord b.side (ot c') := (OT.ord_perm _ _).mem_iff.mpr hx
  have hso := ord_sorted (h.rep c') b.side
  cases hla : (OT.ord b.side (ot c')).getLast? with
  | none => rw [List.getLast?_eq_none_iff] at hla; rw [hla] at hx'; cases hx'
  | some y =>
    have hym := hmem c' y (mem_getLast? hla)
    have hyp : ∃ q, rankPrice oracle c' y.2 = some q := by
      cases c' with
      | fixed => exact ⟨_, rfl⟩
      | pegged =>
        cases oracle with
        | none => cases hp'
        | some o => exact ⟨_, rfl⟩
    obtain ⟨q, hq⟩ := hyp
    have a1 : b.side.isPriceBetter q p' = false := by
      refine notBetter_of_geKey (l := y.2) (l' := x.2) ?_ (hK _ _ hym) (hK _ _ hl'') hq hp'
      rcases getLast_pairwise hso hla hx' with e | e
      · left; rw [e]
      · exact .inr e
    have a2 : b.side.isPriceBetter p q = false := by
      cases c' with
      | fixed => exact k2 y q hla hq
      | pegged => exact k3 y q hla hq
    exact notBetter_trans a2 a1

theorem makeRoom_res {env : Env} {price : Int} {target : Comp} {b b' : BookSide} {g g' : Ledger} {outs : List OutEvent}
    {L : Rests} {dB dQ : Int} {ex : Pubkey → Int} {n : Nat} {ot : Comp → Option T} (hb : BSOk b ot)
    (hbs : b.side = env.order.side)
    (hl : LInv g (sideRests env.order.side b.orders ++ L) dB dQ ex n)
    (hbl : 0 < g.market.baseLotSize) (hql : 0 < g.market.quoteLotSize)
    (h : makeRoom env price target b g = .ok (b', g', outs)) :
    ∃ rm, RoomRes env.owner env.rem env.order.side b g L dB dQ ex n b' g' outs rm ∧ MakeRoom env price b rm := by
  unfold makeRoom at h
  simp only [bind_ok] at h
  obtain ⟨r, hr, ⟨b1, g1, outs1⟩, h1, h⟩ := h
  have hr0 := RoomRes.refl (owner := env.owner) (rem := env.rem) ⟨ot, hb⟩ hl
  have hord := hb.orders
  have key : ∃ E, RoomRes env.owner env.rem env.order.side b g L dB dQ ex n b1 g1 outs1 E ∧ E.length ≤ 1 ∧
      (∀ x ∈ E, x.2 ∈ b.orders x.1 ∧ x.2.expiry < env.nowTs) ∧
      (E = [] → b1 = b ∧ ∀ c, ∀ l ∈ b.orders c, ¬ l.expiry < env.nowTs) := by
    rcases bs_removeOneExpired hb target env.nowTs with ⟨k1, k2⟩ | ⟨c', l, b2, ot', k1, k2, k3, k4, k5, k6, k7, k8⟩
    · rw [k1] at hr; cases hr; cases h1; exact ⟨[], hr0, by simp, by simp, fun _ => ⟨rfl, fun c l hm => k2 c l (by rw [← hord]; exact hm)⟩⟩
    · rw [k1] at hr; cases hr
      simp only [bind_ok, pure_ok] at h1
      obtain ⟨g2, hg, h1⟩ := h1
      cases h1
      have := hr0.remove hbl hql hb k5 k6 k7 k8 ⟨rfl, rfl, rfl, rfl⟩ hg
      refine ⟨_, this, by simp, ?_, by simp⟩
      intro x hx
      simp only [List.nil_append, List.mem_singleton] at hx
      subst hx
      refine ⟨?_, k2⟩
      show l ∈ b.orders c'
      rw [hord]; exact k6.mem_iff.mpr (by simp)
  obtain ⟨E, key, hE1, hE2, hE3⟩ := key
  split at h
  · rename_i hfull
    simp only [bind_ok, pure_ok, req_ok] at h
    obtain ⟨w, hw, ⟨l, p, b2⟩, hu, _, hbet, g2, hg, h⟩ := h
    cases h
    cases w with
    | none => cases hu
    | some w =>
      cases hu
      obtain ⟨ot1, hot1⟩ := key.ok
      have hrest : ∀ c, ∀ l ∈ b1.orders c, l.key < 2 ^ 128 ∧ (c = .fixed → FixedOk l) := by
        intro c l hm
        have hm' : (env.order.side, c, l) ∈ sideRests env.order.side b1.orders ++ L := by
          refine List.mem_append_left _ ?_
          unfold sideRests
          cases c with
          | fixed => exact List.mem_append_left _ (List.mem_map.mpr ⟨l, hm, rfl⟩)
          | pegged => exact List.mem_append_right _ (List.mem_map.mpr ⟨l, hm, rfl⟩)
        obtain ⟨oo, a, hok, _⟩ := key.linv.restOk hm'
        have hr := hok.rest _ _ _ _ rfl
        refine ⟨hr.key, ?_⟩
        intro hc
        obtain ⟨q1, q2, _⟩ := hr.fixed hc
        exact ⟨hr.key, q1, q2⟩
      obtain ⟨c, ot', w1, w2, w3, w4, w5⟩ := removeWorst_worst hot1 (fun l hm => (hrest _ l hm).2 rfl) (fun c l hm => (hrest c l hm).1) hw
      have hres := key.remove hbl hql hot1 w1 w2 w3 w4 ⟨rfl, rfl, rfl, rfl⟩ hg
      refine ⟨_, hres, ⟨E, [(c, l)], b1, rfl, hE1, by simp, hE2, hE3, key.perm, ⟨_, hot1⟩, (fun hx => nomatch hx), ?_⟩⟩
      intro x hx
      simp only [List.mem_singleton] at hx
      subst hx
      rw [key.bside, hbs] at w5
      exact ⟨hfull, p, w5, hbet⟩
  · rename_i hfull
    cases h
    exact ⟨E, key, ⟨E, [], b1, by simp, hE1, by simp, hE2, hE3, key.perm, key.ok, fun _ => by simpa using hfull, by simp⟩⟩

theorem nextOrderSlot_inv {a : OOA} {slot : Nat} (h : a.nextOrderSlot = .ok slot) :
    ∃ old, a.openOrders[slot]? = some old ∧ old.isFree = true ∧ slot < a.openOrders.length := by
  unfold OOA.nextOrderSlot okOr at h
  split at h
  · rename_i x hx
    cases h
    rw [List.findIdx?_eq_some_iff_getElem] at hx
    obtain ⟨h1, h2, _⟩ := hx
    exact ⟨_, List.getElem?_eq_getElem h1, h2, h1⟩
  · cases h

/-- The order put on the book. -/
def newLeaf (env : Env) (orderId : Nat) (qty : Int) (slot : Nat) : LeafNode :=
  { ownerSlot := slot, timeInForce := env.order.timeInForce, key := orderId, owner := env.owner, quantity := qty,
    timestamp := env.nowTs, pegLimit := env.order.pegLimit, clientOrderId := env.order.clientOrderId }

def newOO (env : Env) (target : Comp) (orderId : Nat) (price : Int) : OpenOrder :=
  { isFree := false, side := env.order.side, comp := target, id := orderId, clientId := env.order.clientOrderId,
    lockedPrice := price }

/-- What posting does. -/
structure PostRes (env : Env) (orderId : Nat) (priceLots price qty : Int) (target : Comp) (b : BookSide) (g : Ledger) (L : Rests)
    (dB dQ : Int) (n : Nat) (b' : BookSide) (g' : Ledger) (pb pq mf : Int) (outs : List OutEvent) : Prop where
  hasOO : env.hasOO = true
  pbEq : pb = qty * g.market.baseLotSize
  pqEq : pq = qty * price * g.market.quoteLotSize
  mfEq : mf = if env.order.side = .bid then ceilFee g.market.makerFee (qty * price * g.market.quoteLotSize) else 0
  pbLe : pb ≤ i64Max
  pqLe : pq ≤ i64Max
  ql : qty * price ≤ g.market.maxQuoteLots
  ok : ∃ ot, BSOk b' ot
  bside : b'.side = b.side
  linv : LInv g' (sideRests env.order.side b'.orders ++ L) (dB + if env.order.side = .ask then pb else 0)
    (dQ + (if env.order.side = .bid then pq else 0) + mf) (fun _ => 0) (n + 1)
  frame : LFrame g g'
  mkt : g'.market = g.market
  new : ∃ leaf : LeafNode, leaf.key = orderId ∧ leaf.owner = env.owner ∧ leaf.quantity = qty ∧ leaf.timestamp = env.nowTs ∧
    leaf.timeInForce = env.order.timeInForce ∧ leaf.pegLimit = env.order.pegLimit ∧ leaf.clientOrderId = env.order.clientOrderId ∧
    leaf ∈ b'.orders target ∧ ∀ c, ∀ l ∈ b'.orders c, (c = target ∧ l = leaf) ∨ l ∈ b.orders c
  heap : ∃ E, g'.heap.events = g.heap.events ++ E ∧ (∀ e ∈ E, ∃ o ∈ outs, e = .out o) ∧ E.length ≤ outs.length ∧
    ∀ o ∈ outs, .out o ∈ E ∨ env.owner = o.owner ∨ o.owner ∈ env.rem
  outsSide : ∀ e ∈ outs, e.side = env.order.side
  room : ∃ rm b1 slot, MakeRoom env priceLots b rm ∧ outs.map OutEvent.out3 = rm.map (fun x => x.2.out3) ∧
    (sideRests env.order.side b.orders).Perm (tagged env.order.side rm ++ sideRests env.order.side b1) ∧
    (sideRests env.order.side b'.orders).Perm ((env.order.side, target, newLeaf env orderId qty slot) :: sideRests env.order.side b1)

theorem postOrder_res {env : Env} {orderId : Nat} {priceLots price qty : Int} {target : Comp} {b b' : BookSide} {g g' : Ledger}
    {pb pq mf : Int} {outs : List OutEvent}
    {L : Rests} {dB dQ : Int} {n : Nat} {ot : Comp → Option T} (hb : BSOk b ot)
    (hbs : b.side = env.order.side)
    (hl : LInv g (sideRests env.order.side b.orders ++ L) dB dQ (fun _ => 0) n)
    (hbl : 0 < g.market.baseLotSize) (hql : 0 < g.market.quoteLotSize)
    (hkey : orderId < 2 ^ 128) (hseq : seqOf env.order.side orderId = n + 1) (hqty : 1 ≤ qty) (hprice : 1 ≤ price)
    (hfix : target = .fixed → 1 ≤ (orderId >>> 64) % two64 ∧ ((orderId >>> 64) % two64 : Nat) ≤ i64Max ∧ env.order.pegLimit = -1 ∧
      price = ((orderId >>> 64) % two64 : Nat))
    (hpeg : target = .pegged → 1 ≤ env.order.pegLimit ∧ (env.order.side = .bid → price = env.order.pegLimit))
    (h : postOrder env orderId priceLots price qty target b g = .ok (b', g', pb, pq, mf, outs)) :
    PostRes env orderId priceLots price qty target b g L dB dQ n b' g' pb pq mf outs := by
  unfold postOrder at h
  simp only [bind_ok, pure_ok, ckI64_ok, req_ok, assertR, Accts.get_ok] at h
  obtain ⟨_, ⟨r1, rfl⟩, _, hmq, _, ⟨r2, rfl⟩, _, ⟨r3, rfl⟩, _, hoo, a, ha, ⟨mf', a1⟩, hfee, ⟨b1, g2, outs1⟩, hroom, a2, ha2,
    slot, hslot, ⟨hd, old, b2⟩, hins, a3, hadd, h⟩ := h
  cases h
  have q0 : 0 ≤ qty * price := Int.mul_nonneg (by omega) (by omega)
  have pb0 : 0 ≤ qty * g.market.baseLotSize := Int.mul_nonneg (by omega) (by omega)
  have pq0 : 0 ≤ qty * price * g.market.quoteLotSize := Int.mul_nonneg q0 (by omega)
  have epb : asU64 (qty * g.market.baseLotSize) = qty * g.market.baseLotSize :=
    asU64_eq pb0 (by have := r2.2; unfold i64Max at this; unfold u64Max; omega)
  have epq : asU64 (qty * price * g.market.quoteLotSize) = qty * price * g.market.quoteLotSize :=
    asU64_eq pq0 (by have := r3.2; unfold i64Max at this; unfold u64Max; omega)
  rw [epb, epq]
  obtain ⟨u1, u2, u3, u4, _⟩ := hl.acctOk ha
  -- lock the maker fee
  have hfee' : mf' = (if env.order.side = .bid then ceilFee g.market.makerFee (qty * price * g.market.quoteLotSize) else 0) ∧ 0 ≤ mf' ∧
      a1 = { a with position := { a.position with lockedMakerFees := a.position.lockedMakerFees + mf' } } ∧
      inU64 (a.position.lockedMakerFees + mf') := by
    cases hs : env.order.side with
    | bid =>
      rw [hs] at hfee
      simp only [bind_ok, ckU64_ok, pure_ok] at hfee
      obtain ⟨f, hf, _, ⟨hf0, rfl⟩, _, ⟨hl', rfl⟩, hx⟩ := hfee
      cases hx
      exact ⟨by rw [if_pos rfl]; exact makerFeesCeilI_inv pq0 hf, hf0.1, rfl, hl'⟩
    | ask =>
      rw [hs] at hfee
      cases hfee
      exact ⟨by simp, Int.le_refl _, by simp, by simpa using u3⟩
  obtain ⟨f1, f2, f3, f4⟩ := hfee'
  have hl1 : LInv { g with accts := g.accts.set env.owner a1 } (sideRests env.order.side b.orders ++ L) dB (dQ + mf')
      (fun k => if k = env.owner then mf' else 0) n := by
    have := hl.setFree (a' := a1) (ex' := fun k => if k = env.owner then mf' else 0) (m' := g.market) (dB' := dB)
      (dQ' := dQ + mf') ha ⟨by rw [f3], by rw [f3], by rw [f3], by rw [f3]⟩ (fun j hj => by simp [hj])
      (by rw [f3]; simp) (by rw [f3]; exact u1) (by rw [f3]; exact u2) (by rw [f3]; exact f4) (by rw [f3]; exact u4)
      ⟨rfl, rfl, rfl⟩ (by rw [f3]) (by rw [f3]; simp only; omega) (by rw [f3])
    exact this
  have fr1 : LFrame g { g with accts := g.accts.set env.owner a1 } := by
    refine LFrame.setAcct ha ?_ ?_ ?_ ?_ ?_ ?_ rfl (by omega) ⟨Int.le_refl _, Int.le_refl _⟩ <;> rw [f3] <;> first | exact Int.le_refl _ | (refine ⟨Int.le_refl _, fun x => ⟨x.bids, x.asks, x.quote⟩, Int.le_refl _, fun hm => ?_⟩; show a.position.lockedMakerFees + mf' = _; rw [f1]; simp [ceilFee_zero hm])
  obtain ⟨rm, hr, hmr⟩ := makeRoom_res hb hbs hl1 hbl hql hroom
  have hmk : g2.market = g.market := hr.mkt
  obtain ⟨ot1, hb1⟩ := hr.ok
  obtain ⟨oldo, hs1, hs2, hs3⟩ := nextOrderSlot_inv hslot
  have hlen := (hr.linv.acctOk ha2).2.2.2.2
  have hmod : slot % 256 = slot := Nat.mod_eq_of_lt (by omega)
  rw [hmod] at hins hadd
  change b1.insertLeaf target (newLeaf env orderId qty slot) = _ at hins
  change a2.addOrder env.order.side target (newLeaf env orderId qty slot) _ _ = _ at hadd
  have hso := hb1.orders_fun
  -- the key is new
  have hfresh : ∀ c, ∀ l ∈ OT.lvs (ot1 c), l.key ≠ orderId := by
    intro c l hm he
    have hm' : (env.order.side, c, l) ∈ sideRests env.order.side b1.orders ++ L := by
      refine List.mem_append_left _ ?_
      rw [hso]; unfold sideRests
      cases c with
      | fixed => exact List.mem_append_left _ (List.mem_map.mpr ⟨l, hm, rfl⟩)
      | pegged => exact List.mem_append_right _ (List.mem_map.mpr ⟨l, hm, rfl⟩)
    obtain ⟨_, _, _, _, _, hle⟩ := hr.linv.restOk hm'
    rw [he] at hle
    omega
  have hbside : b2.side = b1.side ∧ ∃ ot2, BSOk b2 ot2 ∧ (OT.lvs (ot2 target)).Perm
      ((newLeaf env orderId qty slot) :: OT.lvs (ot1 target)) ∧
      ot2 target.other = ot1 target.other := by
    rcases bs_insertLeaf hb1 target (leaf := (newLeaf env orderId qty slot)) hkey (hfresh target) with ⟨_, k⟩ | ⟨_, b3, ot2, k1, k2, k3, k4, k5⟩
    · rw [k] at hins; cases hins
    · rw [k1] at hins; cases hins
      exact ⟨k5, ot2, k2, k3, k4⟩
  obtain ⟨hb2s, ot2, hb2, hperm, hother⟩ := hbside
  have hso2 := hb2.orders_fun
  have hadd' := addOrder_inv hadd
  obtain ⟨O, q, hw⟩ := hr.linv
  have hnid : (env.order.side, orderId) ∉ termIds O := by
    intro hm
    have := hw.seq _ hm
    simp only [] at this
    omega
  have hobl : OblOk g2.market (.rest env.order.side target (newLeaf env orderId qty slot) (newOO env target orderId price)) := by
    refine ⟨hqty, hprice, by rw [hmk]; exact r3.2, by rw [hmk]; exact r2.2, fun _ => rfl, fun _ => rfl, ?_, (fun _ _ hx => nomatch hx)⟩
    intro s c l oo hx
    cases hx
    refine ⟨hkey, rfl, rfl, rfl, ?_, ?_⟩
    · intro hc
      obtain ⟨k1, k2, k3, k4⟩ := hfix hc
      exact ⟨k1, k2, k3, k4⟩
    · intro hc
      exact hpeg hc
  have hG := hw.ginv.add (ex' := fun _ => 0) ha2 hadd' hs1 hs2 hobl hnid (fun j hj => (if_neg (show ¬ j = env.owner from hj)).symm)
    (by
      have e : (if (newLeaf env orderId qty slot).owner = env.owner then mf' else 0) = mf' := if_pos rfl
      rw [e, f1, hmk]
      show 0 + (if env.order.side = .bid then ceilFee g.market.makerFee (qty * price * g.market.quoteLotSize) else 0) ≤ _
      omega)
  have hfr : LFrame g { g2 with accts := g2.accts.set env.owner a3 } := by
    refine (fr1.trans hr.frame).trans ?_
    have e := hadd'.res
    refine LFrame.setAcct ha2 ?_ ?_ ?_ ?_ ?_ ?_ rfl (by simp only; omega) ⟨Int.le_refl _, Int.le_refl _⟩
    · rw [e]
    · rw [e]
    · rw [e]; cases env.order.side <;> exact Int.le_refl _
    · rw [e]; cases env.order.side <;> exact Int.le_refl _
    · rw [e]; cases env.order.side <;> rfl
    · have hg := hadd'.range
      rw [e]
      cases hs : env.order.side with
      | bid => rw [hs] at hg; exact ⟨Int.le_refl _, fun x => ⟨hg.1.2, x.asks, hg.2.2.2⟩, Int.le_refl _, fun _ => rfl⟩
      | ask => rw [hs] at hg; exact ⟨Int.le_refl _, fun x => ⟨x.bids, hg.2, x.quote⟩, Int.le_refl _, fun _ => rfl⟩
  have hP : (sideRests env.order.side b2.orders).Perm ((env.order.side, target, (newLeaf env orderId qty slot)) :: sideRests env.order.side b1.orders) := by
    rw [hso2, hso]
    refine sideRests_cons (L := fun c => OT.lvs (ot2 c)) (L' := fun c => OT.lvs (ot1 c)) hperm ?_
    intro c' hc
    rw [other_eq hc, hother]
  refine ⟨hoo, rfl, rfl, f1, r2.2, r3.2, hmq, ⟨ot2, hb2⟩, hb2s.trans hr.bside, ?_, hfr, hmk, ?_, ?_, hr.outsSide,
    ⟨rm, b1.orders, slot, hmr, hr.outs3, hr.perm, hP⟩⟩
  · refine LInv.perm ?_ ((hP.append_right L).symm)
    rw [List.cons_append]
    refine ⟨.rest env.order.side target (newLeaf env orderId qty slot) (newOO env target orderId price) :: O, q, hw.heap, ?_, ?_, ?_⟩
    rotate_left
    · have e1 : dB + (if env.order.side = .ask then qty * g2.market.baseLotSize else 0) =
          dB + (if env.order.side = .ask then qty * g.market.baseLotSize else 0) := by rw [hmk]
      have e2 : dQ + mf' + (if env.order.side = .bid then qty * price * g2.market.quoteLotSize else 0) =
          dQ + (if env.order.side = .bid then qty * price * g.market.quoteLotSize else 0) + mf' := by rw [hmk]; omega
      rw [← e1, ← e2]
      exact hG
    · intro x hx
      rw [termIds_cons, if_pos (show (Obl.rest _ _ _ _).term = true from rfl)] at hx
      rcases List.mem_cons.mp hx with rfl | hx
      · exact ⟨by show 1 ≤ seqOf env.order.side orderId; omega, Nat.le_of_eq hseq⟩
      · exact ⟨(hw.seq x hx).1, Nat.le_succ_of_le (hw.seq x hx).2⟩
    · simp only [List.map_cons, Obl.k, restKs, List.cons_append]
      exact (List.perm_cons _).mpr hw.kinds
  · refine ⟨(newLeaf env orderId qty slot), rfl, rfl, rfl, rfl, rfl, rfl, rfl, ?_, ?_⟩
    · rw [hso2]; exact hperm.mem_iff.mpr (by simp)
    · intro c l hm
      rw [hso2] at hm
      by_cases hc : c = target
      · subst hc
        rcases List.mem_cons.mp (hperm.mem_iff.mp hm) with hx | hx
        · exact .inl ⟨rfl, hx⟩
        · refine .inr (hr.sub _ _ ?_); rw [hso]; exact hx
      · refine .inr (hr.sub _ _ ?_)
        rw [hso]; rw [other_eq hc] at hm ⊢; simp only [hother] at hm; exact hm
  · obtain ⟨E, hE1, hE2, hE3⟩ := hr.heap
    exact ⟨E, hE1, hE2, hE3⟩

end OB
