import Verif.Spec.Group
import Verif.Proofs.WealthIx
import Verif.Proofs.TakeIx
/-!
What an account has on the books, along the steps of the engine and the instructions.
-/
namespace OB
open Spec

/-- `stakeQuote` with its ingredients. -/
def stQ (m : Market) (g : Ledger) (k : Pubkey) (a : OOA) : Int :=
  acctQ m a + total (g.heap.events.filter (fun e => eventAccount e = k)) (queuedWorth m)

theorem stakeQuote_st (s : State) (k : Pubkey) (a : OOA) : stakeQuote s k a = stQ s.g.market s.g k a := rfl

theorem SameLots.makerWorth {m m' : Market} (h : SameLots m m') : makerWorth m = makerWorth m' := by
  funext f; simp [Spec.makerWorth, h.fillQuote, h.fillRebate]
theorem SameLots.queuedWorth {m m' : Market} (h : SameLots m m') : queuedWorth m = queuedWorth m' := by
  funext e; cases e <;> simp [Spec.queuedWorth, h.makerWorth]
theorem SameLots.acctQ {m m' : Market} (h : SameLots m m') (a : OOA) : acctQ m a = acctQ m' a := by simp [OB.acctQ, h.quote]
theorem SameLots.stQ {m m' : Market} (h : SameLots m m') (g : Ledger) (k : Pubkey) (a : OOA) : stQ m g k a = stQ m' g k a := by
  simp only [OB.stQ, h.acctQ, h.queuedWorth]

/-- From `g` to `g'` every account stays, and what it has on the books changes by the fills `fs` it made, and by `x`. -/
def Gross (m : Market) (g g' : Ledger) (fs : List FillEvent) (x : Pubkey → Int) : Prop :=
  ∀ k a, g.accts.get? k = some a → ∃ a', g'.accts.get? k = some a' ∧
    stQ m g' k a' = stQ m g k a + sumMaker fs k (makerWorth m) + x k

theorem Gross.refl (m : Market) (g : Ledger) : Gross m g g [] (fun _ => 0) := fun _ a ha => ⟨a, ha, by simp [sumMaker_nil]⟩

theorem Gross.trans {m : Market} {g1 g2 g3 : Ledger} {f1 f2 : List FillEvent} {x1 x2 : Pubkey → Int}
    (h1 : Gross m g1 g2 f1 x1) (h2 : Gross m g2 g3 f2 x2) : Gross m g1 g3 (f1 ++ f2) (fun k => x1 k + x2 k) := by
  intro k a ha
  obtain ⟨a1, ha1, e1⟩ := h1 k a ha
  obtain ⟨a2, ha2, e2⟩ := h2 k a1 ha1
  exact ⟨a2, ha2, by rw [e2, e1, sumMaker_append]; simp only; omega⟩

theorem Gross.lots {m m' : Market} {g g' : Ledger} {fs : List FillEvent} {x : Pubkey → Int}
    (h : Gross m g g' fs x) (hm : SameLots m m') : Gross m' g g' fs x := by
  intro k a ha
  obtain ⟨a', h1, h2⟩ := h k a ha
  rw [hm.stQ, hm.stQ, hm.makerWorth] at h2
  exact ⟨a', h1, h2⟩

theorem Gross.ext {m : Market} {g g' : Ledger} {fs : List FillEvent} {x x' : Pubkey → Int}
    (h : Gross m g g' fs x) (hx : ∀ k, x k = x' k) : Gross m g g' fs x' := by
  intro k a ha
  obtain ⟨a', h1, h2⟩ := h k a ha
  exact ⟨a', h1, by rw [← hx]; exact h2⟩

/-- One account is replaced, the queue stays. -/
theorem gross_set {m : Market} {g g' : Ledger} {k0 : Pubkey} {a0 a0' : OOA} {fs : List FillEvent} {x : Pubkey → Int}
    (hset : g'.accts = g.accts.set k0 a0') (hheap : g'.heap = g.heap) (ha0 : g.accts.get? k0 = some a0)
    (hoth : ∀ k, k ≠ k0 → sumMaker fs k (makerWorth m) = 0 ∧ x k = 0)
    (hQ : acctQ m a0' = acctQ m a0 + sumMaker fs k0 (makerWorth m) + x k0) : Gross m g g' fs x := by
  intro k a ha
  by_cases hk : k = k0
  · subst hk
    rw [ha0] at ha; injection ha with ha; subst ha
    exact ⟨a0', by rw [hset]; exact Accts.get?_set_self _ ha0, by unfold stQ; rw [hheap]; omega⟩
  · obtain ⟨h1, h2⟩ := hoth k hk
    exact ⟨a, by rw [hset, Accts.get?_set_ne _ hk]; exact ha, by unfold stQ; rw [hheap]; omega⟩

/-- An event is queued. -/
theorem gross_push {m : Market} {g g' : Ledger} {e : Event} {fs : List FillEvent}
    (hset : g'.accts = g.accts) (hheap : g'.heap.events = g.heap.events ++ [e])
    (h : ∀ k, sumMaker fs k (makerWorth m) = if eventAccount e = k then queuedWorth m e else 0) :
    Gross m g g' fs (fun _ => 0) := by
  intro k a ha
  refine ⟨a, by rw [hset]; exact ha, ?_⟩
  have hts : total (g'.heap.events.filter (fun x => decide (eventAccount x = k))) (queuedWorth m) =
      total (g.heap.events.filter (fun x => decide (eventAccount x = k))) (queuedWorth m) +
        (if eventAccount e = k then queuedWorth m e else 0) := by
    rw [hheap, List.filter_append]; by_cases hk : eventAccount e = k <;> simp [hk, total]
  unfold stQ
  rw [hts, h k]; simp only; omega

theorem Spec.Released.acctQ {m : Market} {s : Side} {c : Comp} {l : LeafNode} {a a' : OOA} (h : Released m [(s, c, l)] a a') :
    acctQ m a' = acctQ m a := by
  have h1 := h.quote; have h2 := h.bidsQuote; have h3 := h.fees; have h4 := h.rebates
  rw [sumOver_cons, sumOver_nil] at h1 h2 h3
  unfold OB.acctQ
  rw [h1, h2, h3, h4, Int.sub_mul]
  by_cases hs : s = .bid
  · simp only [hs, if_true, heldQuote, heldFee, bidValue, Int.add_zero]; omega
  · simp only [hs, if_false, heldQuote, heldFee, Int.add_zero, Int.zero_mul]; omega

theorem Spec.Credited.acctQ {m : Market} {k : Pubkey} {es : List Event} {a a' : OOA} (h : Credited m k es a a') :
    acctQ m a' = acctQ m a + total es (queuedWorth m) := by
  have h1 := h.quote; have h2 := h.bidsQuote; have h3 := h.fees; have h4 := h.rebates
  have key : total es (creditQuote m a) - total es (fun e => if eventSide e = .bid then eventQuantity e * eventLockedAt a e else 0) * m.quoteLotSize -
      total es (releasedFee m a) + total es (eventRebate m) = total es (queuedWorth m) := by
    clear h h1 h2 h3 h4
    induction es with
    | nil => simp [total]
    | cons e es ih =>
      unfold total at ih ⊢
      simp only [List.map_cons, List.sum_cons]
      rw [← ih, Int.add_mul]
      have : creditQuote m a e - (if eventSide e = .bid then eventQuantity e * eventLockedAt a e else 0) * m.quoteLotSize -
          releasedFee m a e + eventRebate m e = queuedWorth m e := by
        cases e with
        | out ev =>
          simp only [creditQuote, releasedFee, eventRebate, queuedWorth, eventSide, eventQuantity, bidValue]
          by_cases hs : ev.side = .bid
          · simp only [hs, if_true]; omega
          · simp only [hs, if_false, Int.zero_mul]; omega
        | fill f =>
          simp only [creditQuote, releasedFee, eventRebate, queuedWorth, eventSide, eventQuantity, eventLockedAt, makerWorth]
          have hts : f.takerSide = .bid ∨ f.takerSide = .ask := by cases f.takerSide <;> simp
          rcases hts with hts | hts
          · simp only [hts, Side.invert, reduceCtorEq, if_false, Int.zero_mul]; omega
          · simp only [hts, Side.invert, if_true, fillLocked, fillQuote]
            split <;> omega
      omega
  unfold OB.acctQ
  rw [h1, h2, h3, h4, Int.sub_mul]
  omega

/-! ### a resting order leaves or is filled -/

theorem LInv.cancelGross {g : Ledger} {s : Side} {c : Comp} {l : LeafNode} {L : Rests} {dB dQ : Int} {ex : Pubkey → Int} {n : Nat}
    (h : LInv g ((s, c, l) :: L) dB dQ ex n) (hb : 0 < g.market.baseLotSize) (hq : 0 < g.market.quoteLotSize)
    {a a' : OOA} (ha : g.accts.get? l.owner = some a) (hc : a.cancelOrder l.ownerSlot l.quantity g.market = .ok a') :
    Gross g.market g { g with accts := g.accts.set l.owner a' } [] (fun _ => 0) := by
  refine gross_set (k0 := l.owner) (a0 := a) (a0' := a') rfl rfl ha (fun _ _ => ⟨rfl, rfl⟩) ?_
  rw [(h.released hb hq ha hc).acctQ, sumMaker_nil]; simp

theorem LInv.processOutGross {g g' : Ledger} {s : Side} {c : Comp} {l : LeafNode} {L : Rests} {dB dQ : Int} {ex : Pubkey → Int} {n : Nat}
    (h : LInv g ((s, c, l) :: L) dB dQ ex n) (hb : 0 < g.market.baseLotSize) (hq : 0 < g.market.quoteLotSize)
    {ev : OutEvent} (he : OutOf ev s l) {hasOO : Bool} {owner : Pubkey} {rem : List Pubkey}
    (hp : processOutEvent ev hasOO owner rem g = .ok g') : Gross g.market g g' [] (fun _ => 0) := by
  have cancel : ∀ g'', (do
      let a ← g.accts.get ev.owner
      let a' ← a.cancelOrder ev.ownerSlot ev.quantity g.market
      return { g with accts := g.accts.set ev.owner a' } : R Ledger) = .ok g'' →
      Gross g.market g g'' [] (fun _ => 0) := by
    intro g'' hx
    simp only [bind_ok, pure_ok, Accts.get_ok] at hx
    obtain ⟨a, ha, a', hc, rfl⟩ := hx
    rw [he.owner] at ha ⊢
    rw [he.slot, he.qty] at hc
    exact h.cancelGross hb hq ha hc
  unfold processOutEvent at hp
  split at hp
  · rename_i hc; rw [hc.2] at hp; exact cancel _ hp
  split at hp
  · exact cancel _ hp
  · simp only [bind_ok, pure_ok] at hp
    obtain ⟨h', hpush, rfl⟩ := hp
    obtain ⟨oo, R, q, hw, hk⟩ := h.takeRest
    obtain ⟨slot, _, hr', _⟩ := pushBack_inv hw.heap hpush
    refine gross_push (e := .out ev) rfl (by show h'.events = _; rw [hr'.events, hw.heap.events]; simp) (fun k => ?_)
    rw [sumMaker_nil]; simp [queuedWorth]

theorem LInv.processFillGross {g g' : Ledger} {s : Side} {c : Comp} {l : LeafNode} {L : Rests} {dB dQ : Int} {ex : Pubkey → Int} {n : Nat}
    (h : LInv g ((s, c, l) :: L) dB dQ ex n) (hb : 0 < g.market.baseLotSize) (hq : 0 < g.market.quoteLotSize)
    {f : FillEvent} (hf : FillOf g.market f c l) (hs : s = f.takerSide.invert) {hasOO : Bool} {owner : Pubkey} {rem : List Pubkey}
    {p p' : Nat} (hp : processFillEvent f hasOO owner rem g p = .ok (g', p')) :
    Gross g.market g g' [f] (fun _ => 0) := by
  obtain ⟨oo, R, q, hw, hk⟩ := h.takeRest
  have hok := hw.ginv.ok (.rest s c l oo) (by simp)
  have hg := hw.ginv.replace (fillRepl hok hf hs hb hq)
  unfold processFillEvent at hp
  split at hp
  · split at hp
    · cases hp
    · simp only [bind_ok, pure_ok, Accts.get_ok] at hp
      obtain ⟨a, ha, ⟨a', m'⟩, hm, hp⟩ := hp
      cases hp
      rw [List.cons_append] at hg
      obtain ⟨hcr, _⟩ := GInv.deliver_credit hg hb hq ha hm
      refine gross_set (k0 := f.maker) (a0 := a) (a0' := a') rfl rfl ha (fun k hk => ⟨?_, rfl⟩) ?_
      · rw [sumMaker_one, if_neg (fun h => hk h.symm)]
      · rw [hcr.acctQ, total_one, sumMaker_one, if_pos rfl]; simp only [queuedWorth]; omega
  · simp only [bind_ok, pure_ok] at hp
    obtain ⟨h', hpush, hp⟩ := hp
    cases hp
    obtain ⟨slot, _, hr', _⟩ := pushBack_inv hw.heap hpush
    refine gross_push (e := .fill f) rfl (by show h'.events = _; rw [hr'.events, hw.heap.events]; simp) (fun k => ?_)
    rw [sumMaker_one]; rfl

/-! ### the matching loop -/

section
variable {env : Env} {price : Int} {E : Comp → HL} {own : Rests} {g0 : Ledger} {maxB maxQ B0 Q0 : Int} {n : Nat}

theorem LoopI.grossStep {i : IterItem} {todo : List IterItem} {s s' : MatchSt} (hE : LoopEnv env E g0 maxQ)
    (h : LoopI env price E own g0 maxB maxQ B0 Q0 n (i :: todo) s) (hd : Gross g0.market g0 s.g s.fills (fun _ => 0))
    (hs : StepOut env price i s true s') : Gross g0.market g0 s'.g s'.fills (fun _ => 0) := by
  have hbls : 0 < s.g.market.baseLotSize := by rw [h.frame.bls]; exact hE.bls
  have hqls : 0 < s.g.market.quoteLotSize := by rw [h.frame.qls]; exact hE.qls
  have hl := h.headPerm hE
  have hm0 := h.frame.lots
  have hfill : ∀ (g : Ledger) (processed : Nat), Matchable env price i s → Filled env i s g processed →
      Gross g0.market g0 (afterFill env i s g processed).g (afterFill env i s g processed).fills (fun _ => 0) := by
    intro g processed hm hf
    have := (hl.processFillGross hbls hqls (h.fillOf hE hm) rfl hf.proc).lots hm0
    exact (hd.trans this).ext (fun _ => rfl)
  cases hs with
  | drop g rb rq hs hdr hx =>
    have := (hl.processOutGross hbls hqls (ev := dropEvent env i s) ⟨rfl, rfl, rfl, rfl⟩ hx).lots hm0
    have := (hd.trans this).ext (x' := fun _ => 0) (fun _ => rfl)
    rw [List.append_nil] at this
    exact this
  | ignore rb rq hs hd' => exact hd
  | cancelOwn a a' hm hself hb ha hc =>
    rw [Accts.get_ok, hself.2] at ha
    have := (hl.cancelGross hbls hqls ha hc).lots hm0
    rw [← hself.2] at this
    have := (hd.trans this).ext (x' := fun _ => 0) (fun _ => rfl)
    rw [List.append_nil] at this
    exact this
  | fillSelf g processed hm hself hb hdr hf => exact hfill g processed hm hf
  | fill g processed rb hm hself hqr hrb hr hf => exact hfill g processed hm hf

theorem LoopI.gross {todo : List IterItem} {s s' : MatchSt} (hE : LoopEnv env E g0 maxQ)
    (h : LoopI env price E own g0 maxB maxQ B0 Q0 n todo s) (hd : Gross g0.market g0 s.g s.fills (fun _ => 0))
    (hf : foldItems env price todo s = .ok s') : Gross g0.market g0 s'.g s'.fills (fun _ => 0) := by
  refine foldItems_induct (I := fun _ todo s => LoopI env price E own g0 maxB maxQ B0 Q0 n todo s ∧ Gross g0.market g0 s.g s.fills (fun _ => 0))
    (J := fun s => Gross g0.market g0 s.g s.fills (fun _ => 0)) ?_ ?_ ?_ todo [] s s' ⟨h, hd⟩ hf
  · exact fun _ _ h => h.2
  · exact fun _ _ _ _ _ h hs => ⟨h.1.step hE hs, h.1.grossStep hE h.2 hs⟩
  · intro _ _ _ s s' h hs
    cases hs with
    | done => exact h.2
    | stop => exact h.2
    | block => exact h.2
end

/-! ### posting -/

theorem makeRoom_gross {env : Env} {price : Int} {target : Comp} {b b' : BookSide} {g g' : Ledger} {outs : List OutEvent}
    {L : Rests} {dB dQ : Int} {ex : Pubkey → Int} {n : Nat} {ot : Comp → Option T} (hb : BSOk b ot)
    (hl : LInv g (sideRests env.order.side b.orders ++ L) dB dQ ex n)
    (hbl : 0 < g.market.baseLotSize) (hql : 0 < g.market.quoteLotSize)
    (h : makeRoom env price target b g = .ok (b', g', outs)) : Gross g.market g g' [] (fun _ => 0) := by
  unfold makeRoom at h
  simp only [bind_ok] at h
  obtain ⟨r, hr, ⟨b1, g1, outs1⟩, h1, h⟩ := h
  have one : ∀ {b b2 : BookSide} {g g2 : Ledger} {ot ot' : Comp → Option T} {c : Comp} {l : LeafNode} {ev : OutEvent} {hasOO : Bool},
      BSOk b ot → BSOk b2 ot' → (OT.lvs (ot c)).Perm (l :: OT.lvs (ot' c)) → ot' c.other = ot c.other →
      LInv g (sideRests env.order.side b.orders ++ L) dB dQ ex n → 0 < g.market.baseLotSize → 0 < g.market.quoteLotSize →
      OutOf ev env.order.side l → processOutEvent ev hasOO env.owner env.rem g = .ok g2 →
      Gross g.market g g2 [] (fun _ => 0) ∧
      LInv g2 (sideRests env.order.side b2.orders ++ L) dB dQ ex n ∧ g2.market = g.market := by
    intro b b2 g g2 ot ot' c l ev hasOO h1 h2 hp ho hl hbl hql hev hx
    have hpp : (sideRests env.order.side b.orders).Perm ((env.order.side, c, l) :: sideRests env.order.side b2.orders) := by
      rw [h1.orders_fun, h2.orders_fun]
      refine sideRests_cons (L := fun c => OT.lvs (ot c)) (L' := fun c => OT.lvs (ot' c)) hp ?_
      intro c' hc
      rw [other_eq hc, ho]
    have hl2 := hl.perm (hpp.append_right L)
    rw [List.cons_append] at hl2
    obtain ⟨p1, p2, p3, p4⟩ := hl2.processOut hbl hql hev hx
    exact ⟨hl2.processOutGross hbl hql hev hx, p1, p3⟩
  have key : Gross g.market g g1 [] (fun _ => 0) ∧
      LInv g1 (sideRests env.order.side b1.orders ++ L) dB dQ ex n ∧ g1.market = g.market ∧ ∃ ot1, BSOk b1 ot1 := by
    rcases bs_removeOneExpired hb target env.nowTs with ⟨k1, k2⟩ | ⟨c', l, b2, ot', k1, k2, k3, k4, k5, k6, k7, k8⟩
    · rw [k1] at hr; cases hr; cases h1; exact ⟨Gross.refl _ _, hl, rfl, ot, hb⟩
    · rw [k1] at hr; cases hr
      simp only [bind_ok, pure_ok] at h1
      obtain ⟨g2, hg, h1⟩ := h1
      cases h1
      obtain ⟨q1, q2, q3⟩ := one hb k5 k6 k7 hl hbl hql ⟨rfl, rfl, rfl, rfl⟩ hg
      exact ⟨q1, q2, q3, ot', k5⟩
  obtain ⟨k1, k2, k3, ot1, k4⟩ := key
  split at h
  · simp only [bind_ok, pure_ok, req_ok] at h
    obtain ⟨w, hw, ⟨l, p, b2⟩, hu, _, hbet, g2, hg, h⟩ := h
    cases h
    cases w with
    | none => cases hu
    | some w =>
      cases hu
      obtain ⟨c, ot', _, w1, w2, w3, _⟩ := bs_removeWorst k4 hw
      obtain ⟨q1, q2, q3⟩ := one k4 w1 w2 w3 k2 (by rw [k3]; exact hbl) (by rw [k3]; exact hql) ⟨rfl, rfl, rfl, rfl⟩ hg
      rw [k3] at q1
      exact (k1.trans q1).ext (fun _ => rfl)
  · cases h
    exact k1

/-- The funds that a posted bid locks go on the books of its owner. -/
theorem postOrder_gross {env : Env} {orderId : Nat} {priceLots price qty : Int} {target : Comp} {b b' : BookSide} {g g' : Ledger}
    {pb pq mf : Int} {outs : List OutEvent}
    {L : Rests} {dB dQ : Int} {n : Nat} {ot : Comp → Option T} (hb : BSOk b ot)
    (hl : LInv g (sideRests env.order.side b.orders ++ L) dB dQ (fun _ => 0) n)
    (hbl : 0 < g.market.baseLotSize) (hql : 0 < g.market.quoteLotSize)
    (hbs : b.side = env.order.side) (hR : PostRes env orderId priceLots price qty target b g L dB dQ n b' g' pb pq mf outs)
    (h : postOrder env orderId priceLots price qty target b g = .ok (b', g', pb, pq, mf, outs)) :
    Gross g.market g g' [] (fun k => if k = env.owner ∧ env.order.side = .bid then pq + mf else 0) := by
  have hpq := hR.pqEq
  have hmf := hR.mfEq
  unfold postOrder at h
  simp only [bind_ok, pure_ok, ckI64_ok, req_ok, assertR, Accts.get_ok] at h
  obtain ⟨_, ⟨r1, rfl⟩, _, hmq, _, ⟨r2, rfl⟩, _, ⟨r3, rfl⟩, _, hoo, a, ha, ⟨mf', a1⟩, hfee, ⟨b1, g2, outs1⟩, hroom, a2, ha2,
    slot, hslot, ⟨hd, old, b2⟩, hins, a3, hadd, h⟩ := h
  have e2 : g' = { g2 with accts := g2.accts.set env.owner a3 } := by cases h; rfl
  have e3 : mf' = mf := by cases h; rfl
  clear h
  subst e2; subst e3
  obtain ⟨u1, u2, u3, u4, _⟩ := hl.acctOk ha
  have hfee' : 0 ≤ mf' ∧ a1 = { a with position := { a.position with lockedMakerFees := a.position.lockedMakerFees + mf' } } ∧
      inU64 (a.position.lockedMakerFees + mf') ∧ (env.order.side = .ask → mf' = 0) := by
    cases hs : env.order.side with
    | bid =>
      rw [hs] at hfee
      simp only [bind_ok, ckU64_ok, pure_ok] at hfee
      obtain ⟨f, hf, _, ⟨hf0, rfl⟩, _, ⟨hl', rfl⟩, hx⟩ := hfee
      cases hx
      exact ⟨hf0.1, rfl, hl', fun h => by cases h⟩
    | ask =>
      rw [hs] at hfee
      cases hfee
      exact ⟨Int.le_refl _, by simp, by simpa using u3, fun _ => rfl⟩
  obtain ⟨f2, f3, f4, f5⟩ := hfee'
  have hl1 : LInv { g with accts := g.accts.set env.owner a1 } (sideRests env.order.side b.orders ++ L) dB (dQ + mf')
      (fun k => if k = env.owner then mf' else 0) n := by
    have := hl.setFree (a' := a1) (ex' := fun k => if k = env.owner then mf' else 0) (m' := g.market) (dB' := dB)
      (dQ' := dQ + mf') ha ⟨by rw [f3], by rw [f3], by rw [f3], by rw [f3]⟩ (fun j hj => by simp [hj])
      (by rw [f3]; simp) (by rw [f3]; exact u1) (by rw [f3]; exact u2) (by rw [f3]; exact f4) (by rw [f3]; exact u4)
      ⟨rfl, rfl, rfl⟩ (by rw [f3]) (by rw [f3]; simp only; omega) (by rw [f3])
    exact this
  have s1 : Gross g.market g { g with accts := g.accts.set env.owner a1 } [] (fun k => if k = env.owner then mf' else 0) := by
    refine gross_set (k0 := env.owner) (a0 := a) (a0' := a1) rfl rfl ha (fun k hk => ⟨rfl, if_neg hk⟩) ?_
    rw [f3, sumMaker_nil, if_pos rfl]; unfold acctQ; simp only; omega
  have s2 := makeRoom_gross hb hl1 hbl hql hroom
  have hres := (addOrder_inv hadd).res
  have s3 : Gross g.market g2 { g2 with accts := g2.accts.set env.owner a3 } []
      (fun k => if k = env.owner ∧ env.order.side = .bid then pq else 0) := by
    refine gross_set (k0 := env.owner) (a0 := a2) (a0' := a3) rfl rfl ha2 (fun k hk => ⟨rfl, if_neg (fun h => hk h.1)⟩) ?_
    rw [hres, sumMaker_nil]
    unfold acctQ
    cases hs : env.order.side with
    | ask => simp [addPos]
    | bid =>
      simp only [addPos, if_true, and_self, Int.add_mul]
      rw [hpq]; omega
  refine ((s1.trans s2).trans s3).ext (fun k => ?_)
  by_cases hk : k = env.owner
  · cases hs : env.order.side with
    | bid => simp [hk]; omega
    | ask => simp [hk, f5 hs]
  · simp [hk]

/-! ### a call -/

/-- What a call puts on the books of the account placing the order, beyond the orders it made. -/
def callG (env : Env) (r : OrderResult) (k : Pubkey) : Int :=
  if k = env.owner ∧ env.hasOO = true then
    (match env.order.side with
      | .bid => r.postedQuoteNative + r.makerFees + r.referrerAmount
      | .ask => r.totalQuoteTakenNative - r.takerFees + r.referrerAmount) else 0

theorem CallRun.gross {env : Env} {book book' : Book} {g g' : Ledger} {r : OrderResult} (C : CallRun env book g r book' g') :
    Gross g.market g g' r.fills (callG env r) := by
  have P := C.P
  have hT := P.taker
  obtain ⟨ot2, hb2, hs2, hperm2⟩ := P.opp2
  have s1 : Gross g.market g C.R.s.g C.R.s.fills (fun _ => 0) := by
    have : Gross { g.market with seqNum := g.market.seqNum + 1 } { g with market := { g.market with seqNum := g.market.seqNum + 1 } }
        C.R.s.g C.R.s.fills (fun _ => 0) := P.loop0.gross P.loopEnv (Gross.refl _ _) P.fold
    exact Gross.lots (m := { g.market with seqNum := g.market.seqNum + 1 }) this ⟨rfl, rfl, rfl⟩
  have s2 : Gross g.market C.R.s.g C.R.g1 []
      (fun k => if k = env.owner ∧ env.hasOO = true then
        (match env.order.side with | .bid => 0 | .ask => r.totalQuoteTakenNative - r.takerFees) + r.referrerAmount else 0) := by
    intro k a ha
    by_cases hk : k = env.owner ∧ env.hasOO = true
    · obtain ⟨rfl, hoo⟩ := hk
      obtain ⟨a', ha', h1, h2, h3, h4, h5⟩ := hT.owner hoo a ha
      refine ⟨a', ha', ?_⟩
      unfold stQ
      rw [hT.heap, sumMaker_nil]; beta_reduce; rw [if_pos ⟨rfl, hoo⟩]
      unfold acctQ
      rw [h2, h3, h4.quote, h5]
      cases env.order.side <;> simp only <;> omega
    · have ha' : C.R.g1.accts.get? k = some a := by
        by_cases hk' : k = env.owner
        · rw [hT.noOO (by cases h : env.hasOO with | false => rfl | true => exact absurd ⟨hk', h⟩ hk)]; exact ha
        · rw [hT.others k hk']; exact ha
      exact ⟨a, ha', by unfold stQ; rw [hT.heap, sumMaker_nil]; beta_reduce; rw [if_neg hk]; omega⟩
  have s12 := s1.trans s2
  rw [List.append_nil, ← C.R.fills] at s12
  rcases C.R.post with ⟨hn, hid, h1, h2, h3, h4, h5, h6⟩ | ⟨c', own, outs, hc', hid, hpo, houts, hbk⟩
  · rw [← h6] at s12
    refine s12.ext (fun k => ?_)
    unfold callG; split <;> cases env.order.side <;> first | omega | (simp only; omega)
  · obtain ⟨own', outs', htg, hq1, hbk', houts', hP⟩ := P.posted c' hc'
    have hos : own' = own := by
      have := hbk'.symm.trans hbk
      have h' := congrArg (fun b => Book.side b env.order.side) this
      simpa only [Book.side_setSide] using h'
    have hou : outs' = outs := List.append_cancel_left (houts'.symm.trans houts)
    subst hos; subst hou
    rw [Book.side_setSide_invert] at hpo
    obtain ⟨oto, hoto⟩ := C.core.bookOk.ok env.order.side
    have hlots : SameLots C.R.g1.market g.market := by
      have h1 := hT.frame.lots
      have h2 := P.loop.frame.lots
      exact h1.trans (h2.trans ⟨rfl, rfl, rfl⟩)
    have hl1 : LInv C.R.g1 (sideRests env.order.side (book.side env.order.side).orders ++ sideRests env.order.side.invert C.R.opp2.orders)
        (takeB C.dB env.order.side env.hasOO r.totalBaseTakenNative)
        (takeQ C.dQ env.order.side env.hasOO r.totalQuoteTakenNative r.takerFees r.referrerAmount) (fun _ => 0) g.market.seqNum :=
      hT.linv.perm (((sideRests_perm hperm2).symm.append_right _).trans List.perm_append_comm)
    have s3 := postOrder_gross hoto hl1 (by rw [hlots.base]; exact C.core.bls) (by rw [hlots.quote]; exact C.core.qls)
      (C.core.bookOk.side _) hP hpo
    have s3' := s3.lots hlots
    have := s12.trans s3'
    rw [List.append_nil] at this
    have hoo := hP.hasOO
    refine this.ext (fun k => ?_)
    unfold callG
    by_cases hk : k = env.owner
    · cases env.order.side <;> simp [hk, hoo]; omega
    · simp [hk]

end OB
