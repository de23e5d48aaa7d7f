import Verif.Proofs.Wealth
import Verif.Proofs.Call
/-!
What is due to an account, along a call of the matching engine.
-/
namespace OB
open Spec

/-! ### the matching loop -/

section
variable {env : Env} {price : Int} {E : Comp → HL} {own : Rests} {g0 : Ledger} {maxB maxQ B0 Q0 : Int} {n : Nat}

theorem LoopI.fillOf {i : IterItem} {todo : List IterItem} {s : MatchSt} (hE : LoopEnv env E g0 maxQ)
    (h : LoopI env price E own g0 maxB maxQ B0 Q0 n (i :: todo) s) (hm : Matchable env price i s) :
    FillOf s.g.market (mkFill env s.g.market.seqNum i (i.leaf.quantity - matchQty i s = 0) (matchQty i s)) i.comp i.leaf := by
  have hq := h.qtyOk hE hm
  have hi := h.items i (by simp)
  obtain ⟨oo, ho, _⟩ := h.head hE
  have hr := ho.rest _ _ _ _ rfl
  have hquote : matchQty i s * i.priceLots * s.g.market.quoteLotSize ≤ i64Max := by
    rw [h.frame.qls]
    refine Int.le_trans (Int.mul_le_mul_of_nonneg_right (Int.le_trans hq.leQuote h.quoteLe) ?_) hE.maxQ
    have := hE.qls; omega
  refine ⟨rfl, rfl, rfl, hq.qty, hq.leLeaf, ?_, hi.fixed, ?_, hquote⟩
  · simp only [mkFill, decide_eq_true_eq]; omega
  · intro hc
    obtain ⟨o, _, _, hp1, _, hv⟩ := hi.pegged hc
    refine ⟨hp1, ?_⟩
    intro hts
    have hs : env.order.side = .ask := hts
    rcases hv hm.valid with hl | hl
    · have := (hr.pegged hc).1; omega
    · rw [hs] at hl
      simp only [Side.isPriceBetter, Side.invert, decide_eq_false_iff_not, Int.not_lt] at hl
      show i.priceLots ≤ _
      omega

/-- The side after a fill. -/
theorem LoopI.restPerm {i : IterItem} {todo : List IterItem} {s : MatchSt} (hE : LoopEnv env E g0 maxQ)
    (h : LoopI env price E own g0 maxB maxQ B0 Q0 n (i :: todo) s) :
    (restAfter (mkFill env s.g.market.seqNum i (i.leaf.quantity - matchQty i s = 0) (matchQty i s)) env.order.side.invert i.comp i.leaf ++
      (sideRests env.order.side.invert (virt E s.changes (s.deletes ++ [(i.comp, i.leaf.key)])) ++ own)).Perm
    (sideRests env.order.side.invert (virt E
      (if i.leaf.quantity - matchQty i s = 0 then s.changes else s.changes ++ [(i.handle, i.leaf.quantity - matchQty i s)])
      (if i.leaf.quantity - matchQty i s = 0 then s.deletes ++ [(i.comp, i.leaf.key)] else s.deletes)) ++ own) := by
  have hfr := h.fresh i (by simp)
  unfold restAfter
  by_cases hz : i.leaf.quantity - matchQty i s = 0
  · rw [if_pos hz, if_pos hz, if_pos (by simp [mkFill, hz])]
    exact List.Perm.refl _
  · rw [if_neg hz, if_neg hz, if_neg (by simp [mkFill, hz])]
    obtain ⟨R, r1, r2, r3⟩ := virt_change hE.entries hfr (i.leaf.quantity - matchQty i s)
    obtain ⟨d1, d2⟩ := virt_delete hE.entries hfr
    have hR : R.Perm (virt E s.changes (s.deletes ++ [(i.comp, i.leaf.key)]) i.comp) := (r1.symm.trans d1).cons_inv
    have hp := sideRests_cons (s := env.order.side.invert) (c := i.comp)
      (L := virt E (s.changes ++ [(i.handle, i.leaf.quantity - matchQty i s)]) s.deletes)
      (L' := virt E s.changes (s.deletes ++ [(i.comp, i.leaf.key)]))
      (r2.trans (hR.cons _)) (fun c' hc => (r3 c' hc).trans (d2 c' hc).symm)
    refine List.Perm.trans ?_ ((hp.append_right own).symm)
    exact List.Perm.refl _

theorem LoopI.headL {i : IterItem} {todo : List IterItem} {s : MatchSt} (hE : LoopEnv env E g0 maxQ)
    (h : LoopI env price E own g0 maxB maxQ B0 Q0 n (i :: todo) s) :
    (sideRests env.order.side.invert (virt E s.changes s.deletes) ++ own).Perm
      ((env.order.side.invert, i.comp, i.leaf) ::
        (sideRests env.order.side.invert (virt E s.changes (s.deletes ++ [(i.comp, i.leaf.key)])) ++ own)) := by
  obtain ⟨h1, h2⟩ := virt_delete hE.entries (h.fresh i (by simp))
  exact (sideRests_cons (s := env.order.side.invert) h1 (fun c' hc => (h2 c' hc).symm)).append_right own

/-- Since the start of the loop. -/
def LoopShift (env : Env) (E : Comp → HL) (own : Rests) (g0 : Ledger) (L0 : Rests) (s : MatchSt) : Prop :=
  Shift g0.market g0 L0 s.g (sideRests env.order.side.invert (virt E s.changes s.deletes) ++ own) s.fills (fun _ => 0) (fun _ => 0)

theorem LoopI.shiftStep {i : IterItem} {todo : List IterItem} {s s' : MatchSt} {L0 : Rests} (hE : LoopEnv env E g0 maxQ)
    (h : LoopI env price E own g0 maxB maxQ B0 Q0 n (i :: todo) s) (hd : LoopShift env E own g0 L0 s)
    (hs : StepOut env price i s true s') : LoopShift env E own g0 L0 s' := by
  have hbls : 0 < s.g.market.baseLotSize := by rw [h.frame.bls]; exact hE.bls
  have hqls : 0 < s.g.market.quoteLotSize := by rw [h.frame.qls]; exact hE.qls
  have hl := h.headPerm hE
  have hp := h.headL hE
  have hm0 := h.frame.lots
  have hfill : ∀ (g : Ledger) (processed : Nat), Matchable env price i s → Filled env i s g processed →
      LoopShift env E own g0 L0 (afterFill env i s g processed) := by
    intro g processed hm hf
    have := (hl.processFillShift hbls hqls (h.fillOf hE hm) rfl hf.proc).lots hm0
    exact (hd.trans (this.perm hp.symm (h.restPerm hE))).ext (fun _ => rfl) (fun _ => rfl)
  cases hs with
  | drop g rb rq hs hdr hx =>
    have := (hl.processOutShift hbls hqls (ev := dropEvent env i s) ⟨rfl, rfl, rfl, rfl⟩ hx).lots hm0
    have := (hd.trans (this.perm hp.symm (List.Perm.refl _))).ext (fun _ => rfl) (fun _ => rfl)
    rw [List.append_nil] at this
    exact this
  | ignore rb rq hs hd' => exact hd
  | cancelOwn a a' hm hself hb ha hc =>
    rw [Accts.get_ok, hself.2] at ha
    have := (hl.cancelShift hbls hqls ha hc).lots hm0
    rw [← hself.2] at this
    have := (hd.trans (this.perm hp.symm (List.Perm.refl _))).ext (fun _ => rfl) (fun _ => rfl)
    rw [List.append_nil] at this
    exact this
  | fillSelf g processed hm hself hb hdr hf => exact hfill g processed hm hf
  | fill g processed rb hm hself hqr hrb hr hf => exact hfill g processed hm hf

theorem LoopI.shift {todo : List IterItem} {s s' : MatchSt} {L0 : Rests} (hE : LoopEnv env E g0 maxQ)
    (h : LoopI env price E own g0 maxB maxQ B0 Q0 n todo s) (hd : LoopShift env E own g0 L0 s)
    (hf : foldItems env price todo s = .ok s') : LoopShift env E own g0 L0 s' := by
  refine foldItems_induct (I := fun _ todo s => LoopI env price E own g0 maxB maxQ B0 Q0 n todo s ∧ LoopShift env E own g0 L0 s)
    (J := fun s => LoopShift env E own g0 L0 s) ?_ ?_ ?_ todo [] s s' ⟨h, hd⟩ hf
  · exact fun _ _ h => h.2
  · exact fun _ _ _ _ _ h hs => ⟨h.1.step hE hs, h.1.shiftStep hE h.2 hs⟩
  · intro _ _ _ s s' h hs
    cases hs with
    | done => exact h.2
    | stop => exact h.2
    | block => exact h.2
end

/-! ### posting -/

theorem makeRoom_shift {env : Env} {price : Int} {target : Comp} {b b' : BookSide} {g g' : Ledger} {outs : List OutEvent}
    {L : Rests} {dB dQ : Int} {ex : Pubkey → Int} {n : Nat} {ot : Comp → Option T} (hb : BSOk b ot)
    (hl : LInv g (sideRests env.order.side b.orders ++ L) dB dQ ex n)
    (hbl : 0 < g.market.baseLotSize) (hql : 0 < g.market.quoteLotSize)
    (h : makeRoom env price target b g = .ok (b', g', outs)) :
    Shift g.market g (sideRests env.order.side b.orders ++ L) g' (sideRests env.order.side b'.orders ++ L) [] (fun _ => 0) (fun _ => 0) := by
  unfold makeRoom at h
  simp only [bind_ok] at h
  obtain ⟨r, hr, ⟨b1, g1, outs1⟩, h1, h⟩ := h
  have one : ∀ {b b2 : BookSide} {g g2 : Ledger} {ot ot' : Comp → Option T} {c : Comp} {l : LeafNode} {ev : OutEvent} {hasOO : Bool},
      BSOk b ot → BSOk b2 ot' → (OT.lvs (ot c)).Perm (l :: OT.lvs (ot' c)) → ot' c.other = ot c.other →
      LInv g (sideRests env.order.side b.orders ++ L) dB dQ ex n → 0 < g.market.baseLotSize → 0 < g.market.quoteLotSize →
      OutOf ev env.order.side l → processOutEvent ev hasOO env.owner env.rem g = .ok g2 →
      Shift g.market g (sideRests env.order.side b.orders ++ L) g2 (sideRests env.order.side b2.orders ++ L) [] (fun _ => 0) (fun _ => 0) ∧
      LInv g2 (sideRests env.order.side b2.orders ++ L) dB dQ ex n ∧ g2.market = g.market := by
    intro b b2 g g2 ot ot' c l ev hasOO h1 h2 hp ho hl hbl hql hev hx
    have hpp : (sideRests env.order.side b.orders).Perm ((env.order.side, c, l) :: sideRests env.order.side b2.orders) := by
      rw [h1.orders_fun, h2.orders_fun]
      refine sideRests_cons (L := fun c => OT.lvs (ot c)) (L' := fun c => OT.lvs (ot' c)) hp ?_
      intro c' hc
      rw [other_eq hc, ho]
    have hl2 := hl.perm (hpp.append_right L)
    rw [List.cons_append] at hl2
    obtain ⟨p1, p2, p3, p4⟩ := hl2.processOut hbl hql hev hx
    refine ⟨?_, p1, p3⟩
    have := hl2.processOutShift hbl hql hev hx
    rw [← List.cons_append] at this
    exact this.perm ((hpp.append_right L).symm) (List.Perm.refl _)
  have key : Shift g.market g (sideRests env.order.side b.orders ++ L) g1 (sideRests env.order.side b1.orders ++ L) [] (fun _ => 0) (fun _ => 0) ∧
      LInv g1 (sideRests env.order.side b1.orders ++ L) dB dQ ex n ∧ g1.market = g.market ∧ ∃ ot1, BSOk b1 ot1 := by
    rcases bs_removeOneExpired hb target env.nowTs with ⟨k1, k2⟩ | ⟨c', l, b2, ot', k1, k2, k3, k4, k5, k6, k7, k8⟩
    · rw [k1] at hr; cases hr; cases h1; exact ⟨Shift.refl _ _ _, hl, rfl, ot, hb⟩
    · rw [k1] at hr; cases hr
      simp only [bind_ok, pure_ok] at h1
      obtain ⟨g2, hg, h1⟩ := h1
      cases h1
      obtain ⟨q1, q2, q3⟩ := one hb k5 k6 k7 hl hbl hql ⟨rfl, rfl, rfl, rfl⟩ hg
      exact ⟨q1, q2, q3, ot', k5⟩
  obtain ⟨k1, k2, k3, ot1, k4⟩ := key
  split at h
  · simp only [bind_ok, pure_ok, req_ok] at h
    obtain ⟨w, hw, ⟨l, p, b2⟩, hu, _, hbet, g2, hg, h⟩ := h
    cases h
    cases w with
    | none => cases hu
    | some w =>
      cases hu
      obtain ⟨c, ot', _, w1, w2, w3, _⟩ := bs_removeWorst k4 hw
      obtain ⟨q1, q2, q3⟩ := one k4 w1 w2 w3 k2 (by rw [k3]; exact hbl) (by rw [k3]; exact hql) ⟨rfl, rfl, rfl, rfl⟩ hg
      rw [k3] at q1
      have := (k1.trans q1).ext (fun _ => rfl) (fun _ => rfl)
      exact this
  · cases h
    exact k1

/-- The funds a posted order holds are due to its owner. -/
theorem postOrder_shift {env : Env} {orderId : Nat} {priceLots price qty : Int} {target : Comp} {b b' : BookSide} {g g' : Ledger}
    {pb pq mf : Int} {outs : List OutEvent}
    {L : Rests} {dB dQ : Int} {n : Nat} {ot : Comp → Option T} (hb : BSOk b ot)
    (hl : LInv g (sideRests env.order.side b.orders ++ L) dB dQ (fun _ => 0) n)
    (hbl : 0 < g.market.baseLotSize) (hql : 0 < g.market.quoteLotSize)
    (hbs : b.side = env.order.side) (hR : PostRes env orderId priceLots price qty target b g L dB dQ n b' g' pb pq mf outs)
    (hkey : orderId < 2 ^ 128) (hseq : seqOf env.order.side orderId = n + 1)
    (hlp : env.order.side = .bid → ∀ slot, lockedAt target (newLeaf env orderId qty slot) = price)
    (h : postOrder env orderId priceLots price qty target b g = .ok (b', g', pb, pq, mf, outs)) :
    Shift g.market g (sideRests env.order.side b.orders ++ L) g' (sideRests env.order.side b'.orders ++ L) []
      (fun k => if k = env.owner ∧ env.order.side = .ask then pb else 0)
      (fun k => if k = env.owner ∧ env.order.side = .bid then pq + mf else 0) := by
  have hpb := hR.pbEq
  have hpq := hR.pqEq
  have hmf := hR.mfEq
  unfold postOrder at h
  simp only [bind_ok, pure_ok, ckI64_ok, req_ok, assertR, Accts.get_ok] at h
  obtain ⟨_, ⟨r1, rfl⟩, _, hmq, _, ⟨r2, rfl⟩, _, ⟨r3, rfl⟩, _, hoo, a, ha, ⟨mf', a1⟩, hfee, ⟨b1, g2, outs1⟩, hroom, a2, ha2,
    slot, hslot, ⟨hd, old, b2⟩, hins, a3, hadd, h⟩ := h
  have e1 : b2 = b' := by cases h; rfl
  have e2 : g' = { g2 with accts := g2.accts.set env.owner a3 } := by cases h; rfl
  have e3 : mf' = mf := by cases h; rfl
  clear h
  subst e1; subst e2; subst e3
  -- lock the maker fee
  obtain ⟨u1, u2, u3, u4, _⟩ := hl.acctOk ha
  have hfee' : 0 ≤ mf' ∧ a1 = { a with position := { a.position with lockedMakerFees := a.position.lockedMakerFees + mf' } } ∧
      inU64 (a.position.lockedMakerFees + mf') := by
    cases hs : env.order.side with
    | bid =>
      rw [hs] at hfee
      simp only [bind_ok, ckU64_ok, pure_ok] at hfee
      obtain ⟨f, hf, _, ⟨hf0, rfl⟩, _, ⟨hl', rfl⟩, hx⟩ := hfee
      cases hx
      exact ⟨hf0.1, rfl, hl'⟩
    | ask =>
      rw [hs] at hfee
      cases hfee
      exact ⟨Int.le_refl _, by simp, by simpa using u3⟩
  obtain ⟨f2, f3, f4⟩ := hfee'
  have hl1 : LInv { g with accts := g.accts.set env.owner a1 } (sideRests env.order.side b.orders ++ L) dB (dQ + mf')
      (fun k => if k = env.owner then mf' else 0) n := by
    have := hl.setFree (a' := a1) (ex' := fun k => if k = env.owner then mf' else 0) (m' := g.market) (dB' := dB)
      (dQ' := dQ + mf') ha ⟨by rw [f3], by rw [f3], by rw [f3], by rw [f3]⟩ (fun j hj => by simp [hj])
      (by rw [f3]; simp) (by rw [f3]; exact u1) (by rw [f3]; exact u2) (by rw [f3]; exact f4) (by rw [f3]; exact u4)
      ⟨rfl, rfl, rfl⟩ (by rw [f3]) (by rw [f3]; simp only; omega) (by rw [f3])
    exact this
  have s1 : Shift g.market g (sideRests env.order.side b.orders ++ L) { g with accts := g.accts.set env.owner a1 }
      (sideRests env.order.side b.orders ++ L) [] (fun _ => 0) (fun _ => 0) := by
    refine shift_set (k0 := env.owner) (a0 := a) (a0' := a1) rfl rfl ha ?_ ?_ 0 (Int.le_refl _) (Int.le_refl _) ?_ ?_
    · intro e _ _; rw [f3]; cases e <;> rfl
    · exact fun k _ => ⟨rfl, rfl, rfl, rfl, rfl, rfl⟩
    · rw [f3, sumMaker_nil]; simp
    · rw [f3, sumMaker_nil]; simp
  have s2 := makeRoom_shift hb hl1 hbl hql hroom
  obtain ⟨rm, hr, hmr⟩ := makeRoom_res hb hbs hl1 hbl hql hroom
  have hmk : g2.market = g.market := hr.mkt
  obtain ⟨ot1, hb1⟩ := hr.ok
  obtain ⟨oldo, hs1, hs2, hs3⟩ := nextOrderSlot_inv hslot
  have hlen := (hr.linv.acctOk ha2).2.2.2.2
  have hmod : slot % 256 = slot := Nat.mod_eq_of_lt (by omega)
  rw [hmod] at hins hadd
  change b1.insertLeaf target (newLeaf env orderId qty slot) = _ at hins
  change a2.addOrder env.order.side target (newLeaf env orderId qty slot) _ _ = _ at hadd
  have hso := hb1.orders_fun
  have hfresh : ∀ c, ∀ l ∈ OT.lvs (ot1 c), l.key ≠ orderId := by
    intro c l hm he
    have hm' : (env.order.side, c, l) ∈ sideRests env.order.side b1.orders ++ L := by
      refine List.mem_append_left _ ?_
      rw [hso]; unfold sideRests
      cases c with
      | fixed => exact List.mem_append_left _ (List.mem_map.mpr ⟨l, hm, rfl⟩)
      | pegged => exact List.mem_append_right _ (List.mem_map.mpr ⟨l, hm, rfl⟩)
    obtain ⟨_, _, _, _, _, hle⟩ := hr.linv.restOk hm'
    rw [he] at hle
    omega
  have hbside : ∃ ot2, BSOk b2 ot2 ∧ (OT.lvs (ot2 target)).Perm
      ((newLeaf env orderId qty slot) :: OT.lvs (ot1 target)) ∧
      ot2 target.other = ot1 target.other := by
    rcases bs_insertLeaf hb1 target (leaf := (newLeaf env orderId qty slot)) hkey (hfresh target) with ⟨_, k⟩ | ⟨_, b3, ot2, k1, k2, k3, k4, k5⟩
    · rw [k] at hins; cases hins
    · rw [k1] at hins; cases hins
      exact ⟨ot2, k2, k3, k4⟩
  obtain ⟨ot2, hb2, hperm, hother⟩ := hbside
  have hso2 := hb2.orders_fun
  have hP : (sideRests env.order.side b2.orders).Perm ((env.order.side, target, (newLeaf env orderId qty slot)) :: sideRests env.order.side b1.orders) := by
    rw [hso2, hso]
    refine sideRests_cons (L := fun c => OT.lvs (ot2 c)) (L' := fun c => OT.lvs (ot1 c)) hperm ?_
    intro c' hc
    rw [other_eq hc, hother]
  have hadd' := addOrder_inv hadd
  have hres := hadd'.res
  have s3 : Shift g.market g2 (sideRests env.order.side b1.orders ++ L) { g2 with accts := g2.accts.set env.owner a3 }
      ((env.order.side, target, newLeaf env orderId qty slot) :: (sideRests env.order.side b1.orders ++ L)) []
      (fun k => if k = env.owner ∧ env.order.side = .ask then pb else 0)
      (fun k => if k = env.owner ∧ env.order.side = .bid then pq + mf' else 0) := by
    refine shift_set (k0 := env.owner) (a0 := a2) (a0' := a3) rfl rfl ha2 ?_ ?_ 0 (Int.le_refl _) (Int.le_refl _) ?_ ?_
    · intro e he hk
      cases e with
      | fill f => rfl
      | out ev =>
        obtain ⟨O, q, hw⟩ := hr.linv
        obtain ⟨o1, ho1, hk1⟩ := hw.mem_ev he
        cases o1 with
        | rest s c l oo => cases hk1
        | fill f oo => cases hk1
        | out ev' oo =>
          have e1 : ev' = ev := by cases hk1; rfl
          subst e1
          have l1 : a2.openOrders[ev'.ownerSlot]? = some oo := hw.ginv.link _ ho1 rfl a2 (by rw [show Obl.acct (.out ev' oo) = env.owner from hk]; exact ha2)
          have hu : oo.isFree = false := (hw.ginv.ok _ ho1).used rfl
          have hne : slot ≠ ev'.ownerSlot := by
            intro hx
            rw [hx, l1] at hs1
            injection hs1 with hs1
            rw [← hs1, hu] at hs2; cases hs2
          have : a3.openOrders[ev'.ownerSlot]? = some oo := by
            rw [hres]
            show (a2.openOrders.set slot _)[ev'.ownerSlot]? = _
            rw [List.getElem?_set, if_neg hne]; exact l1
          simp only [eventLockedAt, this, l1]
    · intro k hk
      refine ⟨rfl, rfl, rfl, if_neg (fun h => hk h.1), if_neg (fun h => hk h.1), ?_⟩
      rw [List.filter_cons_of_neg]
      simp only [decide_eq_true_eq]
      exact fun h => hk h.symm
    · rw [filter_owner_cons, if_pos (show (newLeaf env orderId qty slot).owner = env.owner from rfl), sumMaker_nil]
      have hfree : a3.position.baseFreeNative = a2.position.baseFreeNative := by rw [hres]; cases env.order.side <;> rfl
      rw [hfree]
      cases hs : env.order.side with
      | bid => simp [lockedBase]
      | ask =>
        simp only [lockedBase, if_true, and_self]
        show _ + (qty * g.market.baseLotSize + _) = _
        rw [hpb]; omega
    · rw [filter_owner_cons, if_pos (show (newLeaf env orderId qty slot).owner = env.owner from rfl), sumMaker_nil]
      have hfree : a3.position.quoteFreeNative = a2.position.quoteFreeNative := by rw [hres]; cases env.order.side <;> rfl
      rw [hfree]
      cases hs : env.order.side with
      | ask => simp [heldQuote, heldFee]
      | bid =>
        simp only [heldQuote, heldFee, if_true, and_self, hlp hs slot, bidFee, bidValue]
        rw [hs] at hmf
        simp only [if_true, ceilFee] at hmf
        show _ + (qty * price * g.market.quoteLotSize + (qty * price * g.market.quoteLotSize * max g.market.makerFee 0 + 999999) / 1000000 + _) = _
        rw [hpq]; omega
  have := ((s1.trans s2).trans s3).perm (List.Perm.refl _) ((hP.append_right L).symm)
  exact this.ext (fun k => by simp) (fun k => by simp)

/-! ### a call -/

/-- What a call changes for the account placing the order, beyond the orders it made. -/
def callB (env : Env) (r : OrderResult) (k : Pubkey) : Int :=
  if k = env.owner ∧ env.hasOO = true then
    (match env.order.side with | .bid => r.totalBaseTakenNative | .ask => r.postedBaseNative) else 0

def callQ (env : Env) (r : OrderResult) (k : Pubkey) : Int :=
  if k = env.owner ∧ env.hasOO = true then
    (match env.order.side with
      | .bid => r.postedQuoteNative + r.makerFees
      | .ask => r.totalQuoteTakenNative - r.takerFees) else 0

theorem CallRun.shift {env : Env} {book book' : Book} {g g' : Ledger} {r : OrderResult} (C : CallRun env book g r book' g') :
    Shift g.market g book.resting g' book'.resting r.fills (callB env r) (callQ env r) := by
  have P := C.P
  have hT := P.taker
  obtain ⟨ot2, hb2, hs2, hperm2⟩ := P.opp2
  -- the loop
  have s1 : LoopShift env (oppL C.ot) (book.sideRest env.order.side)
      { g with market := { g.market with seqNum := g.market.seqNum + 1 } } book.resting C.R.s := by
    refine P.loop0.shift P.loopEnv ?_ P.fold
    have hp : book.resting.Perm (sideRests env.order.side.invert (virt (oppL C.ot) [] []) ++ book.sideRest env.order.side) := by
      have e : (book.side env.order.side.invert).orders = virt (oppL C.ot) [] [] := by
        funext c; rw [virt_nil, P.opp.orders, OT.lvs_eq]; rfl
      have := book.resting_perm env.order.side
      rw [← e]
      exact this
    unfold LoopShift
    exact (Shift.refl _ _ _).perm (List.Perm.refl _) hp
  have s1' : Shift g.market g book.resting C.R.s.g
      (sideRests env.order.side.invert C.R.opp2.orders ++ book.sideRest env.order.side) C.R.s.fills (fun _ => 0) (fun _ => 0) := by
    have : Shift g.market g book.resting C.R.s.g
      (sideRests env.order.side.invert (virt (oppL C.ot) C.R.s.changes C.R.s.deletes) ++ book.sideRest env.order.side) C.R.s.fills
      (fun _ => 0) (fun _ => 0) := Shift.lots (m := { g.market with seqNum := g.market.seqNum + 1 }) s1 ⟨rfl, rfl, rfl⟩
    exact this.perm (List.Perm.refl _) ((sideRests_perm hperm2).symm.append_right _)
  -- the taker
  have s2 : Shift g.market C.R.s.g (sideRests env.order.side.invert C.R.opp2.orders ++ book.sideRest env.order.side) C.R.g1
      (sideRests env.order.side.invert C.R.opp2.orders ++ book.sideRest env.order.side) []
      (fun k => if k = env.owner ∧ env.hasOO = true then (match env.order.side with | .bid => r.totalBaseTakenNative | .ask => 0) else 0)
      (fun k => if k = env.owner ∧ env.hasOO = true then
        (match env.order.side with | .bid => 0 | .ask => r.totalQuoteTakenNative - r.takerFees) else 0) := by
    intro k a ha
    by_cases hk : k = env.owner ∧ env.hasOO = true
    · obtain ⟨rfl, hoo⟩ := hk
      obtain ⟨a', ha', h1, h2, _, h3, _⟩ := hT.owner hoo a ha
      refine ⟨a', 0, ha', ?_, ?_, Int.le_refl _, Int.le_refl _⟩
      · unfold ldB
        rw [hT.heap, h1, sumMaker_nil]; beta_reduce; rw [if_pos ⟨rfl, hoo⟩]; cases env.order.side <;> simp only <;> omega
      · unfold ldQ
        have e : total (C.R.s.g.heap.events.filter (fun e => eventAccount e = env.owner)) (creditQuote g.market a') =
            total (C.R.s.g.heap.events.filter (fun e => eventAccount e = env.owner)) (creditQuote g.market a) := by
          congr 1
          funext e
          cases e with
          | fill f => rfl
          | out e => simp only [creditQuote, eventLockedAt, h3.orders]
        rw [hT.heap, h2, e, sumMaker_nil]; beta_reduce; rw [if_pos ⟨rfl, hoo⟩]; cases env.order.side <;> simp only <;> omega
    · have ha' : C.R.g1.accts.get? k = some a := by
        by_cases hk' : k = env.owner
        · rw [hT.noOO (by cases h : env.hasOO with | false => rfl | true => exact absurd ⟨hk', h⟩ hk)]; exact ha
        · rw [hT.others k hk']; exact ha
      refine ⟨a, 0, ha', ?_, ?_, Int.le_refl _, Int.le_refl _⟩
      · unfold ldB; rw [hT.heap, sumMaker_nil]; beta_reduce; rw [if_neg hk]; omega
      · unfold ldQ; rw [hT.heap, sumMaker_nil]; beta_reduce; rw [if_neg hk]; omega
  have s12 := s1'.trans s2
  rw [List.append_nil, ← C.R.fills] at s12
  have cg : ∀ {b c : Book}, b = c → ∀ L : Rests, L.Perm c.resting → L.Perm b.resting := by
    intro b c h L hp; rw [h]; exact hp
  rcases C.R.post with ⟨hn, hid, h1, h2, h3, h4, h5, h6⟩ | ⟨c', own, outs, hc', hid, hpo, houts, hbk⟩
  · have hp : (sideRests env.order.side.invert C.R.opp2.orders ++ book.sideRest env.order.side).Perm book'.resting := by
      refine cg h5 _ ?_
      refine List.Perm.trans ?_ ((Book.resting_perm (book.setSide env.order.side.invert C.R.opp2) env.order.side).symm)
      unfold Book.sideRest
      rw [Book.side_setSide, Book.side_setSide_invert]
    have := s12.perm (List.Perm.refl _) hp
    rw [← h6] at this
    refine this.ext ?_ ?_
    · intro k; unfold callB; split <;> cases env.order.side <;> first | omega | (simp only; omega)
    · intro k; unfold callQ; split <;> cases env.order.side <;> first | omega | (simp only; omega)
  · obtain ⟨own', outs', htg, hq1, hbk', houts', hP⟩ := P.posted c' hc'
    have hos : own' = own := by
      have := hbk'.symm.trans hbk
      have h' := congrArg (fun b => Book.side b env.order.side) this
      simpa only [Book.side_setSide] using h'
    have hou : outs' = outs := List.append_cancel_left (houts'.symm.trans houts)
    subst hos; subst hou
    rw [Book.side_setSide_invert] at hpo
    obtain ⟨oto, hoto⟩ := C.core.bookOk.ok env.order.side
    have hlots : SameLots C.R.g1.market g.market := by
      have h1 := hT.frame.lots
      have h2 := P.loop.frame.lots
      exact h1.trans (h2.trans ⟨rfl, rfl, rfl⟩)
    have hl1 : LInv C.R.g1 (sideRests env.order.side (book.side env.order.side).orders ++ sideRests env.order.side.invert C.R.opp2.orders)
        (takeB C.dB env.order.side env.hasOO r.totalBaseTakenNative)
        (takeQ C.dQ env.order.side env.hasOO r.totalQuoteTakenNative r.takerFees r.referrerAmount) (fun _ => 0) g.market.seqNum :=
      hT.linv.perm (((sideRests_perm hperm2).symm.append_right _).trans List.perm_append_comm)
    have hlock := P.postLock c' hc'
    have s3 := postOrder_shift hoto hl1 (by rw [hlots.base]; exact C.core.bls) (by rw [hlots.quote]; exact C.core.qls)
      (C.core.bookOk.side _) hP P.postKey.1 P.postKey.2 (by
        intro hs slot
        cases c' with
        | fixed => exact (hlock.1 rfl).symm
        | pegged => exact (hlock.2 rfl hs).symm) hpo
    have s3' := s3.lots hlots
    have hp : (sideRests env.order.side own'.orders ++ sideRests env.order.side.invert C.R.opp2.orders).Perm book'.resting := by
      refine cg hbk _ ?_
      refine List.Perm.trans ?_ ((Book.resting_perm ((book.setSide env.order.side.invert C.R.opp2).setSide env.order.side own')
        env.order.side).symm)
      unfold Book.sideRest
      rw [Book.side_setSide, Book.side_setSide_invert', Book.side_setSide]
      exact List.perm_append_comm
    have := s12.trans (s3'.perm (L2 := sideRests env.order.side.invert C.R.opp2.orders ++ book.sideRest env.order.side)
      List.perm_append_comm hp)
    rw [List.append_nil] at this
    have hoo := hP.hasOO
    refine this.ext ?_ ?_
    · intro k; unfold callB
      by_cases hk : k = env.owner <;> cases env.order.side <;> simp [hk, hoo]
    · intro k; unfold callQ
      by_cases hk : k = env.owner <;> cases env.order.side <;> simp [hk, hoo]

end OB
