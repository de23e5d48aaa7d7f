import Verif.Proofs.WealthCall
import Verif.Proofs.Asked
import Verif.Proofs.Amounts
/-!
What is due to an account, along an instruction.
-/
namespace OB
open Spec

theorem sumFills_nil (v : FillEvent → Int) : sumFills [] v = 0 := rfl
theorem sumFills_append (l1 l2 : List FillEvent) (v : FillEvent → Int) : sumFills (l1 ++ l2) v = sumFills l1 v + sumFills l2 v := by
  simp [sumFills]

theorem tradesOf_cons (x : Env × OrderResult) (cs : List (Env × OrderResult)) : tradesOf (x :: cs) = x.2.fills ++ tradesOf cs := by
  simp [tradesOf]

section
variable {m m' : Market} (h : SameLots m m')
include h
theorem SameLots.takerBase : takerBase m = takerBase m' := by funext f; simp [Spec.takerBase, h.base]
theorem SameLots.takerQuote : takerQuote m = takerQuote m' := by funext f; simp [Spec.takerQuote, h.fillQuote]
end

/-! ### calls of the engine -/

def callsB (cs : List (Env × OrderResult)) (k : Pubkey) : Int := (cs.map (fun x => callB x.1 x.2 k)).sum
def callsQ (cs : List (Env × OrderResult)) (k : Pubkey) : Int := (cs.map (fun x => callQ x.1 x.2 k)).sum

theorem CallRun.lots {env : Env} {book book' : Book} {g g' : Ledger} {r : OrderResult} (C : CallRun env book g r book' g') :
    SameLots g'.market g.market := C.P.frame.lots

theorem Spec.Calls.lots {book book' : Book} {g g' : Ledger} {cs : List (Env × OrderResult)} (h : Calls book g cs book' g') :
    SameLots g'.market g.market := by
  induction h with
  | nil => exact SameLots.refl _
  | cons env r cs book book1 book' g g1 g' h hs ih =>
    obtain ⟨C⟩ := callRun h
    exact ih.trans C.lots

theorem Spec.Calls.shift {book book' : Book} {g g' : Ledger} {cs : List (Env × OrderResult)} (h : Calls book g cs book' g') :
    Shift g.market g book.resting g' book'.resting (tradesOf cs) (callsB cs) (callsQ cs) := by
  induction h with
  | nil => exact Shift.refl _ _ _
  | cons env r cs book book1 book' g g1 g' h hs ih =>
    obtain ⟨C⟩ := callRun h
    rw [tradesOf_cons]
    exact (C.shift.trans (ih.lots C.lots)).ext (fun k => by simp [callsB]) (fun k => by simp [callsQ])

theorem sumFills_takerBase {m : Market} {fs : List FillEvent} {sd : Side} (h : ∀ f ∈ fs, f.takerSide = sd) :
    sumFills fs (takerBase m) = if sd = .bid then sumQty fs * m.baseLotSize else -(sumQty fs * m.baseLotSize) := by
  unfold sumFills sumQty
  induction fs with
  | nil => simp
  | cons f fs ih =>
    have h1 := ih (fun x hx => h x (List.mem_cons_of_mem _ hx))
    have h2 := h f (by simp)
    simp only [List.map_cons, List.sum_cons]
    rw [h1]
    unfold takerBase
    rw [h2, Int.add_mul]
    split <;> omega

theorem sumFills_takerQuote {m : Market} {fs : List FillEvent} {sd : Side} (h : ∀ f ∈ fs, f.takerSide = sd) :
    sumFills fs (takerQuote m) = if sd = .bid then -(sumQuote fs * m.quoteLotSize) else sumQuote fs * m.quoteLotSize := by
  unfold sumFills sumQuote
  induction fs with
  | nil => simp
  | cons f fs ih =>
    have h1 := ih (fun x hx => h x (List.mem_cons_of_mem _ hx))
    have h2 := h f (by simp)
    simp only [List.map_cons, List.sum_cons]
    rw [h1]
    unfold takerQuote fillQuote
    rw [h2, Int.add_mul]
    split <;> omega

/-- What the account of the taker is credited, less what it is charged. -/
theorem CallRun.net {env : Env} {book book' : Book} {g g' : Ledger} {r : OrderResult} (C : CallRun env book g r book' g')
    (ho : env.hasOO = true) :
    callB env r env.owner - (if env.order.side = .ask then r.totalBaseTakenNative + r.postedBaseNative else 0) =
      sumFills r.fills (takerBase g.market) ∧
    callQ env r env.owner - (if env.order.side = .bid then
        r.totalQuoteTakenNative + r.postedQuoteNative + r.takerFees + r.makerFees else 0) =
      sumFills r.fills (takerQuote g.market) - r.takerFees := by
  have hsd : ∀ f ∈ r.fills, f.takerSide = env.order.side := fun f hf => by
    obtain ⟨_, _, _, h⟩ := C.fill_visit hf
    exact h.taker.1
  rw [sumFills_takerBase hsd, sumFills_takerQuote hsd, ← C.takenBase, ← C.takenQuote]
  unfold callB callQ
  simp only [ho, and_self, if_true]
  cases env.order.side <;> simp <;> omega

theorem Spec.Calls.net {book book' : Book} {g g' : Ledger} {cs : List (Env × OrderResult)} (h : Calls book g cs book' g') {k : Pubkey}
    (ho : ∀ x ∈ cs, x.1.owner = k ∧ x.1.hasOO = true) :
    callsB cs k - chargedBase cs = sumFills (tradesOf cs) (takerBase g.market) ∧
    callsQ cs k - chargedQuote cs = sumFills (tradesOf cs) (takerQuote g.market) - takerFeesOf cs := by
  induction h with
  | nil => exact ⟨rfl, rfl⟩
  | cons env r cs book book1 book' g g1 g' h hs ih =>
    obtain ⟨C⟩ := callRun h
    obtain ⟨h1, h2⟩ := ih (fun x hx => ho x (List.mem_cons_of_mem _ hx))
    obtain ⟨h3, h4⟩ := ho (env, r) (by simp)
    simp only at h3 h4
    obtain ⟨h5, h6⟩ := C.net h4
    rw [h3] at h5 h6
    rw [C.lots.takerBase] at h1
    rw [C.lots.takerQuote] at h2
    rw [tradesOf_cons, sumFills_append, sumFills_append]
    unfold callsB callsQ chargedBase chargedQuote takerFeesOf at *
    simp only [List.map_cons, List.sum_cons]
    constructor <;> omega

theorem Spec.Calls.nobody {book book' : Book} {g g' : Ledger} {cs : List (Env × OrderResult)} (h : Calls book g cs book' g') {j k : Pubkey}
    (hj : ∀ x ∈ cs, ¬ (k = x.1.owner ∧ x.1.hasOO = true)) : callsB cs k = 0 ∧ callsQ cs k = 0 := by
  clear h
  unfold callsB callsQ
  induction cs with
  | nil => exact ⟨rfl, rfl⟩
  | cons x cs ih =>
    obtain ⟨h1, h2⟩ := ih (fun y hy => hj y (List.mem_cons_of_mem _ hy))
    have h3 := hj x (by simp)
    simp only [List.map_cons, List.sum_cons, h1, h2]
    unfold callB callQ
    rw [if_neg h3, if_neg h3]
    exact ⟨rfl, rfl⟩

/-! ### placing -/

theorem Spec.Calls.taker {book book' : Book} {g g' : Ledger} {cs : List (Env × OrderResult)} (h : Calls book g cs book' g') :
    g'.market.takerFee = g.market.takerFee := by
  induction h with
  | nil => rfl
  | cons env r cs book book1 book' g g1 g' h hs ih =>
    obtain ⟨C⟩ := callRun h
    exact ih.trans C.P.frame.taker

theorem Spec.Placement.market1 {s s1 s' : State} {p : Placer} {cs : List (Env × OrderResult)} {g1 : Ledger}
    (h : Placement s s1 s' p cs g1) (hr : Reachable s) : s1.g.market = s.g.market := by
  rcases h.first hr with e | ⟨_, _, _, ls, hc⟩
  · rw [e]
  · exact hc.market

theorem Spec.Placement.due {s s1 s' : State} {p : Placer} {cs : List (Env × OrderResult)} {g1 : Ledger} (h : Placement s s1 s' p cs g1)
    (hr : Reachable s) (hm : SameLots s'.g.market s.g.market) (k : Pubkey) (a : OOA) (ha : s.g.accts.get? k = some a) :
    ∃ a' loss, s'.g.accts.get? k = some a' ∧ 0 ≤ loss ∧ loss ≤ sumMaker (tradesOf cs) k (makerSlack s.g.market) ∧
      dueBase s' k a' = dueBase s k a + sumMaker (tradesOf cs) k (makerBase s.g.market) +
        (if k = p.owner ∧ p.hasOO = true then sumFills (tradesOf cs) (takerBase s.g.market) +
          (tokens s' s.g.market.marketBaseVault - tokens s s.g.market.marketBaseVault) else 0) ∧
      dueQuote s' k a' = dueQuote s k a + sumMaker (tradesOf cs) k (makerQuote s.g.market) - loss +
        (if k = p.owner ∧ p.hasOO = true then sumFills (tradesOf cs) (takerQuote s.g.market) - takerFeesOf cs +
          (tokens s' s.g.market.marketQuoteVault - tokens s s.g.market.marketQuoteVault) else 0) := by
  -- cancellations
  have hs1 : DueKept s s1 k ∧ s1.g.market = s.g.market := by
    rcases h.first hr with e | ⟨_, hr1, _, ls, hc⟩
    · rw [e]; exact ⟨DueKept.refl _ _, rfl⟩
    · exact ⟨hc.due (reachable_Inv hr1) k, hc.market⟩
  obtain ⟨a1, ha1, _, d1, d2⟩ := hs1.1 a ha
  -- calls
  have hsh := h.calls.shift
  rw [hs1.2] at hsh
  obtain ⟨a2, loss, ha2, e1, e2, e3, e4⟩ := hsh k a1 ha1
  rw [dueBase_ld s1, hs1.2] at d1
  rw [dueQuote_ld s1, hs1.2] at d2
  by_cases hk : k = p.owner ∧ p.hasOO = true
  · obtain ⟨b, b', hb, hb', _, p1, p2, p3, p4, p5⟩ := h.pays.account hk.2
    rw [← hk.1] at hb hb'
    rw [ha2] at hb; injection hb with hb; subst hb
    obtain ⟨n1, n2⟩ := h.calls.net (k := k) (fun x hx => by
      obtain ⟨c1, c2, _⟩ := h.ctx x hx
      exact ⟨by rw [c1, hk.1], by rw [c2, hk.2]⟩)
    rw [hs1.2] at n1 n2
    refine ⟨b', loss, hb', e3, e4, ?_, ?_⟩
    · rw [if_pos hk, dueBase_ld, hm.ldB]
      rw [d1] at e1
      unfold ldB at e1 ⊢
      rw [h.heap, p2, p4]
      omega
    · rw [if_pos hk, dueQuote_ld, hm.ldQ]
      rw [d2] at e2
      unfold ldQ at e2 ⊢
      have hcr : creditQuote s.g.market b' = creditQuote s.g.market a2 := by
        funext e; cases e <;> simp only [creditQuote, eventLockedAt, p1]
      rw [h.heap, hcr, p3, p5]
      omega
  · have hk' : p.hasOO = false ∨ k ≠ p.owner := by
      by_cases hc : k = p.owner
      · left; cases hv : p.hasOO with
        | false => rfl
        | true => exact absurd ⟨hc, hv⟩ hk
      · exact .inr hc
    obtain ⟨z1, z2⟩ := h.calls.nobody (j := k) (k := k) (fun x hx c => by
      obtain ⟨c1, c2, _⟩ := h.ctx x hx
      rw [c1, c2] at c
      exact hk c)
    refine ⟨a2, loss, by rw [h.pays.others k hk']; exact ha2, e3, e4, ?_, ?_⟩
    · rw [if_neg hk, dueBase_ld, hm.ldB]
      rw [d1, z1] at e1
      unfold ldB at e1 ⊢
      rw [h.heap]
      exact e1
    · rw [if_neg hk, dueQuote_ld, hm.ldQ]
      rw [d2, z2] at e2
      unfold ldQ at e2 ⊢
      rw [h.heap]
      exact e2

theorem SameCfg.lots {m m' : Market} (h : SameCfg m m') : SameLots m' m := ⟨h.bls, h.qls, h.maker⟩

/-! ### everything else -/

theorem total_perm {A B : List Event} (h : A.Perm B) (f : Event → Int) : total A f = total B f := by
  unfold total
  induction h with
  | nil => rfl
  | cons x _ ih => simp only [List.map_cons, List.sum_cons, ih]
  | swap x y l => simp only [List.map_cons, List.sum_cons]; omega
  | trans _ _ ih1 ih2 => rw [ih1, ih2]

/-- Delivering some events changes nothing of what is due. -/
theorem Spec.Delivered.due_part {s s' : State} {es : List Event} (h : Delivered s s' es) (hi' : Inv s')
    (he : s.g.heap.events.Perm (es ++ s'.g.heap.events)) (k : Pubkey) : DueKept s s' k := by
  intro a ha
  obtain ⟨a', ha', cr⟩ := h.accts k a ha
  have ho : ordersOf s' k = ordersOf s k := by unfold ordersOf; rw [h.book]
  have hm : SameLots s'.g.market s.g.market := by rw [h.market]; exact ⟨rfl, rfl, rfl⟩
  have hp : (eventsOf s k).Perm (es.filter (fun e => eventAccount e = k) ++ eventsOf s' k) := by
    have := he.filter (fun e => decide (eventAccount e = k))
    rw [List.filter_append] at this
    exact this
  have tot : ∀ f : Event → Int, total (eventsOf s k) f = total (es.filter (fun e => eventAccount e = k)) f + total (eventsOf s' k) f := by
    intro f
    rw [total_perm hp]
    simp [total]
  refine ⟨a', ha', cr.owner, ?_, ?_⟩
  · unfold dueBase
    rw [ho, cr.base, tot, hm.creditBase, hm.lockedBase]
    omega
  · unfold dueQuote
    have : total (eventsOf s' k) (creditQuote s.g.market a') = total (eventsOf s' k) (creditQuote s.g.market a) := by
      refine total_congr (fun e he => ?_)
      simp only [eventsOf, List.mem_filter, decide_eq_true_eq] at he
      have := locked_kept hi' he.1 (by rw [he.2]; exact ha') cr.slots
      cases e <;> simp only [creditQuote, this]
    rw [ho, cr.quote, tot, hm.creditQuote, hm.heldQuote, hm.heldFee, this]
    omega

theorem consume_perm {s s' : State} {admin : Pubkey} {limit : Nat} {rem : List Pubkey} (hi : Inv s)
    (h : consumeEvents s admin limit [] rem = .ok s') :
    s.g.heap.events.Perm ((s.g.heap.events.take (min limit 8)).filter (fun e => eventAccount e ∈ rem) ++ s'.g.heap.events) := by
  rw [(consumeEvents_front hi h).1, ← List.append_assoc]
  conv_lhs => rw [← List.take_append_drop (min limit 8) s.g.heap.events]
  refine List.Perm.append_right _ ?_
  have := (List.filter_append_perm (fun e => decide (eventAccount e ∈ rem)) (s.g.heap.events.take (min limit 8))).symm
  refine this.trans (List.Perm.append_left _ ?_)
  have : (fun e : Event => !decide (eventAccount e ∈ rem)) = (fun e => decide (eventAccount e ∉ rem)) := by funext e; simp
  rw [this]

/-- The free balances of an account change, nothing else. -/
theorem due_free {s s' : State} {k : Pubkey} {a a' : OOA} {b q : Int} (ha : s.g.accts.get? k = some a) (ha' : s'.g.accts.get? k = some a')
    (ho : a'.owner = a.owner) (hoo : a'.openOrders = a.openOrders) (hb : a'.position.baseFreeNative = a.position.baseFreeNative + b)
    (hq : a'.position.quoteFreeNative = a.position.quoteFreeNative + q) (hbk : s'.book = s.book) (hh : s'.g.heap = s.g.heap)
    (hm : SameLots s'.g.market s.g.market) : DueMoves s s' k b q := by
  intro a0 ha0
  rw [ha] at ha0; injection ha0 with e; subst e
  have hcr : creditQuote s.g.market a' = creditQuote s.g.market a := by
    funext e; cases e <;> simp only [creditQuote, eventLockedAt, hoo]
  refine ⟨a', ha', ho, ?_, ?_⟩
  · unfold dueBase ordersOf eventsOf
    rw [hbk, hh, hb, hm.creditBase, hm.lockedBase]; omega
  · unfold dueQuote ordersOf eventsOf
    rw [hbk, hh, hq, hm.creditQuote, hm.heldQuote, hm.heldFee, hcr]; omega

theorem Spec.DueMoves.kept {s s' : State} {k : Pubkey} (h : DueMoves s s' k 0 0) : DueKept s s' k := by
  intro a ha
  obtain ⟨a', h1, h2, h3, h4⟩ := h a ha
  exact ⟨a', h1, h2, by omega, by omega⟩

theorem DepositRun.due {s s' : State} {signer k ub uq : Pubkey} {now b q : Int} (P : DepositRun s signer k ub uq now b q s') (hi : Inv s) :
    DueMoves s s' k b q ∧ b = tokens s' s.g.market.marketBaseVault - tokens s s.g.market.marketBaseVault ∧
      q = tokens s' s.g.market.marketQuoteVault - tokens s s.g.market.marketQuoteVault ∧ ∀ j, j ≠ k → DueKept s s' j := by
  obtain ⟨_, hA, b0, q0, _, _, a, hk, _, t1, tr1, t2, tr2, _, _, _, _, rfl⟩ := P
  have hne := hi.vaults
  have tB := transfer_in (k := s.g.market.marketBaseVault) tr1 b0 (by rw [hi.vb.owner]; exact hA)
  have tQ := transfer_in (k := s.g.market.marketQuoteVault) tr1 b0 (by rw [hi.vq.owner]; exact hA)
  have uB := transfer_in (k := s.g.market.marketBaseVault) tr2 q0 (by rw [tB.2, hi.vb.owner]; exact hA)
  have uQ := transfer_in (k := s.g.market.marketQuoteVault) tr2 q0 (by rw [tQ.2, hi.vq.owner]; exact hA)
  rw [if_pos rfl] at tB uQ
  rw [if_neg (Ne.symm hne)] at tQ
  rw [if_neg hne] at uB
  refine ⟨?_, ?_, ?_, ?_⟩
  · exact due_free (a' := { a with position := { a.position with
      baseFreeNative := a.position.baseFreeNative + b, quoteFreeNative := a.position.quoteFreeNative + q } }) hk
      (Accts.get?_set_self _ hk) rfl rfl rfl rfl rfl rfl ⟨rfl, rfl, rfl⟩
  · unfold tokens; simp only; omega
  · unfold tokens; simp only; omega
  · intro j hj
    exact due_same (by simp [Accts.get?_set, hj]) (List.Perm.refl _) rfl rfl rfl rfl

theorem EmptyPos.due {s : State} (hi : Inv s) {k : Pubkey} {a : OOA} (ha : s.g.accts.get? k = some a) (he : EmptyPos a.position) :
    ordersOf s k = [] ∧ eventsOf s k = [] ∧ dueBase s k a = 0 ∧ dueQuote s k a = 0 := by
  obtain ⟨O, q, hw⟩ := hi.core.linv
  have hno := hw.ginv.noObl ha he.bids he.asks
  have h1 : ordersOf s k = [] := by
    refine List.filter_eq_nil_iff.mpr (fun x hx hc => ?_)
    obtain ⟨oo, hm⟩ := hw.mem_rest hx
    exact hno _ hm (of_decide_eq_true hc)
  have h2 : eventsOf s k = [] := by
    refine List.filter_eq_nil_iff.mpr (fun x hx hc => ?_)
    obtain ⟨o, hm, e⟩ := hw.mem_ev hx
    refine hno _ hm ?_
    rw [decide_eq_true_eq] at hc
    cases o with
    | rest s c l oo => cases e
    | out ev oo => injection e with e; rw [← e] at hc; exact hc
    | fill f oo => injection e with e; rw [← e] at hc; exact hc
  obtain ⟨h3, h4⟩ := due_idle (a := a) h1 h2
  exact ⟨h1, h2, by rw [h3, he.base], by rw [h4, he.quote]⟩

end OB
