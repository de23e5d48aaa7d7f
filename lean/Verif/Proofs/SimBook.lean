import Verif.Proofs.SimMatch
import Verif.Proofs.Inv
/-! `new_order` and the cancellations on two books with the same orders. -/
namespace OB

def BookSim (b b' : Book) : Prop := ∀ s, SideSim (b.side s) (b'.side s)

theorem BookSim.set {b b' : Book} (h : BookSim b b') {s : Side} {x x' : BookSide} (hx : SideSim x x') :
    BookSim (b.setSide s x) (b'.setSide s x') := by
  intro s'
  cases s <;> cases s'
  · exact hx
  · exact h .ask
  · exact h .bid
  · exact hx

/-- A limit price is an `i64`. -/
def PriceTyped (o : Order) : Prop :=
  ∀ p, o.params = .immediateOrCancel p ∨ o.params = .fillOrKill p ∨ (∃ t, o.params = .fixed p t) → p ≤ i64Max

theorem PriceTyped.le {o : Order} (ho : PriceTyped o) {now : Nat} {oracle : Option Int} {book : Book} {p : Int}
    (h : o.priceLots now oracle book = .ok p) : p ≤ i64Max := by
  unfold Order.priceLots at h
  split at h
  · cases h; unfold marketOrderLimitForSide; cases o.side <;> decide
  · rename_i q hq; cases h; exact ho _ (.inl hq)
  · rename_i q hq; cases h; exact ho _ (.inr (.inl hq))
  · rename_i q t hq; exact priceForOrderType_le (ho _ (.inr (.inr ⟨t, hq⟩))) h
  · split at h
    · cases h
    · simp only [bind_ok, req_ok] at h
      obtain ⟨_, hr, h⟩ := h
      exact priceForOrderType_le hr.2 h

theorem BookSim.price {b b' : Book} (h : BookSim b b') (o : Order) (now : Nat) (oracle : Option Int) :
    o.price now oracle b' = o.price now oracle b := by
  have e : ∀ p t, priceForOrderType o.side now oracle p t b' = priceForOrderType o.side now oracle p t b := by
    intro p t
    unfold priceForOrderType
    obtain ⟨ot, ot', hs⟩ := h o.side.invert
    rw [hs.bestPrice]
  unfold Order.price Order.priceLots
  simp only [e]

theorem BSim.makeRoom {b b' : BookSide} {ot ot' : Comp → Option T} (h : BSim b b' ot ot') (env : Env) (p : Int) (c : Comp) (g : Ledger) :
    RSim (fun x y => SideSim x.1 y.1 ∧ y.2 = x.2) (makeRoom env p c b g) (makeRoom env p c b' g) := by
  unfold OB.makeRoom
  refine RSim.bind (h.removeOneExpired c env.nowTs) ?_
  intro x y hxy
  refine RSim.bind (P := fun (x y : BookSide × Ledger × List OutEvent) => SideSim x.1 y.1 ∧ y.2 = x.2) ?_ ?_
  · cases x with
    | none =>
      cases y with
      | none => exact ⟨⟨ot, ot', h⟩, rfl⟩
      | some y => exact hxy.elim
    | some x =>
      cases y with
      | none => exact hxy.elim
      | some y =>
        obtain ⟨l, b1⟩ := x
        obtain ⟨l', b1'⟩ := y
        obtain ⟨e, hs⟩ := hxy
        subst e
        exact RSim.same fun g1 _ => ⟨hs, rfl⟩
  · rintro ⟨b1, g1, o1⟩ ⟨b1', g1', o1'⟩ ⟨⟨ot1, ot1', hs⟩, e⟩
    injection e with e1 e2
    simp only at e1 e2 hs ⊢
    subst e1 e2
    rw [hs.full]
    split
    · refine (hs.removeWorst env.nowTs env.oracle).bind ?_
      intro x y hxy
      cases x with
      | none =>
        cases y with
        | none => exact rfl
        | some y => exact hxy.elim
      | some x =>
        cases y with
        | none => exact hxy.elim
        | some y =>
          obtain ⟨l, p1, b2⟩ := x
          obtain ⟨l', p1', b2'⟩ := y
          obtain ⟨e1, e2, hs2⟩ := hxy
          subst e1 e2
          simp only [unwrapR, ok_bind]
          exact RSim.same fun _ _ => RSim.same fun _ _ => ⟨hs2, rfl⟩
    · exact ⟨⟨ot1, ot1', hs⟩, rfl⟩

theorem SideSim.postOrder {b b' : BookSide} (h : SideSim b b') (env : Env) {id : Nat} (p q r : Int) {c : Comp} (g : Ledger)
    (hk : id < 2 ^ 128) (hx : c = .fixed → 1 ≤ (id >>> 64) % two64 ∧ (((id >>> 64) % two64 : Nat) : Int) ≤ i64Max) :
    RSim (fun x y => SideSim x.1 y.1 ∧ y.2 = x.2) (postOrder env id p q r c b g) (postOrder env id p q r c b' g) := by
  obtain ⟨ot, ot', h⟩ := h
  unfold OB.postOrder
  refine RSim.same fun _ _ => RSim.same fun _ _ => RSim.same fun _ _ => RSim.same fun _ _ => RSim.same fun _ _ => RSim.same fun _ _ =>
    RSim.same fun x _ => ?_
  refine (h.makeRoom env p c _).bind ?_
  rintro ⟨b1, g1, o1⟩ ⟨b1', g1', o1'⟩ ⟨⟨ot1, ot1', hs⟩, e⟩
  injection e with e1 e2
  simp only at e1 e2 hs ⊢
  subst e1 e2
  refine RSim.same fun _ _ => RSim.same fun _ _ => ?_
  refine RSim.bind (hs.insertLeaf c hk (fun hc => ⟨hk, (hx hc).1, (hx hc).2⟩)) ?_
  rintro ⟨u1, u2, u3⟩ ⟨v1, v2, v3⟩ ⟨_, huv⟩
  exact RSim.same fun _ _ => ⟨huv, rfl⟩

/-- The loop only withdraws the intention to post. -/
theorem foldItems_target {env : Env} {price : Int} (L : List IterItem) (s s' : MatchSt) (h : foldItems env price L s = .ok s') :
    s'.postTarget = s.postTarget ∨ s'.postTarget = none := by
  have key : ∀ i u go v, (u.postTarget = s.postTarget ∨ u.postTarget = none) → StepOut env price i u go v →
      (v.postTarget = s.postTarget ∨ v.postTarget = none) := by
    intro i u go v hu h
    cases h with
    | block => exact .inr rfl
    | _ => exact hu
  exact foldItems_induct (env := env) (price := price) (I := fun _ _ u => u.postTarget = s.postTarget ∨ u.postTarget = none)
    (J := fun u => u.postTarget = s.postTarget ∨ u.postTarget = none) (fun _ _ h => h) (fun _ i _ u v hI hst => key i u true v hI hst)
    (fun _ i _ u v hI hst => key i u false v hI hst) L [] s s' (.inl rfl) h

theorem BookSim.newOrder {b b' : Book} (h : BookSim b b') {env : Env} (ho : PriceTyped env.order) (g : Ledger) :
    RSim (fun x y => y.1 = x.1 ∧ BookSim x.2.1 y.2.1 ∧ y.2.2 = x.2.2) (newOrder env b g) (newOrder env b' g) := by
  unfold OB.newOrder
  simp only [h.price, ite_bind]
  refine RSim.same ?_
  rintro ⟨priceLots, priceData⟩ hprice
  refine RSim.same fun _ hseq => RSim.same fun maxQ _ => RSim.same fun _ _ => RSim.same fun _ _ => ?_
  obtain ⟨ot, ot', hs⟩ := h env.order.side.invert
  obtain ⟨it, hi1, hi2⟩ := hs.loop
  obtain ⟨it', hi1', hi2'⟩ := hs.symm.loop
  rw [hi1, hi1']
  simp only [ok_bind]
  rw [hi2, hi2']
  obtain ⟨ρ, hr⟩ := hs.renames
  rw [hs.side, hr.ord, hr.ord, items_ren]
  have hkey : newNodeKey env.order.side priceData (g.market.seqNum + 1) < 2 ^ 128 ∧ (env.order.postTarget = some .fixed →
      1 ≤ (newNodeKey env.order.side priceData (g.market.seqNum + 1) >>> 64) % two64 ∧
      (((newNodeKey env.order.side priceData (g.market.seqNum + 1) >>> 64) % two64 : Nat) : Int) ≤ i64Max) := by
    have hseq' : g.market.seqNum < 18446744073709551615 := by
      have := hseq; simp only [assertR, req_ok] at this; exact this
    have hn64 : g.market.seqNum + 1 < two64 := by unfold two64; omega
    unfold Order.price at hprice
    simp only [bind_ok, pure_ok, req_ok] at hprice
    obtain ⟨p, hp, _, hp1, d, hd, e⟩ := hprice
    injection e with e1 e2
    subst e1 e2
    obtain ⟨d1, d2⟩ := priceData_facts hp1 (ho.le hp) hd
    refine ⟨newNodeKey_lt d1 hn64, fun hf => ?_⟩
    have := d2 hf
    have hp2 := ho.le hp
    rw [newNodeKey_div d1 hn64]
    omega
  refine RSim.bindE (foldItems_ren ρ env priceLots _ _) ?_
  intro s s' es _ e
  subst e
  have hch := foldItems_changes (H := fun x => x ∈ (allLeaves ot).map (·.1)) _ _ _ (by
    intro i hi
    rcases (items_ok _ _ i hi).2 with ⟨_, hm⟩ | ⟨_, hm⟩
    · have := (OT.ord_perm _ _).mem_iff.mp hm
      exact mem_allLeaves (c := .fixed) this
    · have := (OT.ord_perm _ _).mem_iff.mp hm
      exact mem_allLeaves (c := .pegged) this) (by intro x hx; cases hx) es
  have htg := foldItems_target _ _ _ es
  refine RSim.same (x := takerAccounting env maxQ s) ?_
  rintro ⟨baseN, quoteN, fees, ref, quoteTaken, g1⟩ _
  refine RSim.same fun _ _ => RSim.same fun _ _ => RSim.same fun _ _ => RSim.same fun _ _ => ?_
  refine (hs.applyChanges hr hch).bind ?_
  intro o1 o1' ho1
  refine (ho1.applyDeletes).bind ?_
  intro o2 o2' ho2
  refine RSim.same ?_
  rintro ⟨target, qty⟩ hdec
  simp only
  cases target with
  | none => exact ⟨rfl, h.set ho2, rfl⟩
  | some c =>
    simp only
    have hb1 := h.set (s := env.order.side.invert) ho2
    have hc : c = .fixed → env.order.postTarget = some .fixed := by
      intro hc
      subst hc
      obtain ⟨_, ht, _⟩ := postDecision_inv hdec
      rcases ht with ht | ⟨ht, _⟩
      · cases ht
      · rcases htg with e | e
        · rw [e] at ht; exact ht.symm
        · rw [e] at ht; cases ht
    refine RSim.bind ((hb1 env.order.side).postOrder env priceLots _ qty g1 hkey.1 (fun e => hkey.2 (hc e))) ?_
    rintro ⟨w1, w2⟩ ⟨w1', w2'⟩ ⟨hw1, hw2⟩
    simp only at hw1 hw2
    subst hw2
    exact ⟨rfl, hb1.set hw1, rfl⟩

theorem BookSim.cancelOrderOnBook {b b' : Book} (h : BookSim b b') (a : OOA) (m : Market) (id : Nat) (side : Side) (c : Comp)
    (eo : Option Pubkey) : RSim (fun x y => y.1 = x.1 ∧ BookSim x.2.1 y.2.1 ∧ y.2.2 = x.2.2)
      (cancelOrderOnBook b a m id side c eo) (cancelOrderOnBook b' a m id side c eo) := by
  unfold OB.cancelOrderOnBook
  obtain ⟨ot, ot', hs⟩ := h side
  refine (hs.removeByKey c id).bind ?_
  intro x y hxy
  cases x with
  | none =>
    cases y with
    | none => exact rfl
    | some y => exact hxy.elim
  | some x =>
    cases y with
    | none => exact hxy.elim
    | some y =>
      obtain ⟨l, b1⟩ := x
      obtain ⟨l', b1'⟩ := y
      obtain ⟨e, hs1⟩ := hxy
      subst e
      simp only
      cases eo with
      | none => exact RSim.same fun _ _ => RSim.same fun _ _ => ⟨rfl, h.set hs1, rfl⟩
      | some o => exact RSim.same fun _ _ => RSim.same fun _ _ => ⟨rfl, h.set hs1, rfl⟩

theorem BookSim.cancelAllLoop {m : Market} {so : Option Side} {co : Option Nat} (n i limit : Nat) {b b' : Book} (h : BookSim b b') (a : OOA)
    (total : Int) : RSim (fun x y => y.1 = x.1 ∧ BookSim x.2.1 y.2.1 ∧ y.2.2 = x.2.2)
      (cancelAllLoop m so co n i limit b a total) (cancelAllLoop m so co n i limit b' a total) := by
  induction n generalizing i limit b b' a total with
  | zero => exact ⟨rfl, h, rfl⟩
  | succ n ih =>
    simp only [OB.cancelAllLoop]
    refine RSim.same fun oo _ => ?_
    split
    · exact ih _ _ h _ _
    split
    · exact ih _ _ h _ _
    split
    · exact ih _ _ h _ _
    split
    · exact ⟨rfl, h, rfl⟩
    have hc := h.cancelOrderOnBook a m oo.id oo.side oo.comp none
    cases e1 : OB.cancelOrderOnBook b a m oo.id oo.side oo.comp none with
    | error e =>
      cases e2 : OB.cancelOrderOnBook b' a m oo.id oo.side oo.comp none with
      | ok x => rw [e1, e2] at hc; exact hc.elim
      | error e' =>
        rw [e1, e2] at hc
        have hc : e = e' := hc
        subst hc
        cases e <;> first | exact ih _ _ h _ _ | exact rfl
    | ok x =>
      cases e2 : OB.cancelOrderOnBook b' a m oo.id oo.side oo.comp none with
      | error e' => rw [e1, e2] at hc; exact hc.elim
      | ok y =>
        rw [e1, e2] at hc
        obtain ⟨l, b1, a1⟩ := x
        obtain ⟨l', b1', a1'⟩ := y
        obtain ⟨k1, k2, k3⟩ := hc
        simp only at k1 k2 k3
        subst k1 k3
        exact RSim.same fun _ _ => ih _ _ k2 _ _

theorem BookSim.isEmpty {b b' : Book} (h : BookSim b b') (s : Side) : (b'.side s).isEmpty = (b.side s).isEmpty := by
  obtain ⟨ot, ot', hs⟩ := h s
  exact hs.isEmpty

end OB
