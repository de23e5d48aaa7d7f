import Verif.Proofs.Solvent
import Verif.Proofs.Again
/-! How one instruction can change one open orders account. -/
namespace OB

/-- Paying for an order out of the free balances of an account. -/
structure PayFrame (g : Ledger) (k : Pubkey) (g' : Ledger) : Prop where
  heap : g'.heap = g.heap
  market : ∃ b q, g'.market = { g.market with baseDepositTotal := b, quoteDepositTotal := q }
  other : ∀ j, j ≠ k → g'.accts.get? j = g.accts.get? j
  self : ∀ a, g.accts.get? k = some a → ∃ x y z, a.position.penaltyHeapCount ≤ z ∧
    g'.accts.get? k = some { a with position := { a.position with
      baseFreeNative := x, quoteFreeNative := y, penaltyHeapCount := z } }
  gone : g.accts.get? k = none → g'.accts.get? k = none

theorem PayFrame.refl (g : Ledger) (k : Pubkey) : PayFrame g k g :=
  ⟨rfl, ⟨_, _, rfl⟩, fun _ _ => rfl, fun a h => ⟨_, _, _, Int.le_refl _, h⟩, id⟩

theorem PayFrame.same {g g' : Ledger} {k : Pubkey} (h : PayFrame g k g') {a a' : OOA} (ha : g.accts.get? k = some a)
    (ha' : g'.accts.get? k = some a') : a' = { a with position := { a.position with
      baseFreeNative := a'.position.baseFreeNative, quoteFreeNative := a'.position.quoteFreeNative
      penaltyHeapCount := a'.position.penaltyHeapCount } } := by
  obtain ⟨x, y, z, _, e⟩ := h.self a ha
  rw [ha'] at e; injection e with e
  rw [e]

theorem PayFrame.trans {g1 g2 g3 : Ledger} {k : Pubkey} (h1 : PayFrame g1 k g2) (h2 : PayFrame g2 k g3) : PayFrame g1 k g3 := by
  refine ⟨h2.heap.trans h1.heap, ?_, fun j hj => (h2.other j hj).trans (h1.other j hj), ?_, fun h => h2.gone (h1.gone h)⟩
  · obtain ⟨b, q, e⟩ := h1.market
    obtain ⟨b', q', e'⟩ := h2.market
    exact ⟨b', q', by rw [e', e]⟩
  · intro a ha
    obtain ⟨x, y, z, hz, e⟩ := h1.self a ha
    obtain ⟨x', y', z', hz', e'⟩ := h2.self _ e
    exact ⟨x', y', z', Int.le_trans hz hz', e'⟩

theorem lockBid_pay {g g' : Ledger} {k : Pubkey} {amt dep : Int} (h : lockBid g k amt = .ok (g', dep)) : PayFrame g k g' := by
  obtain ⟨a, hl⟩ := lockBid_inv h
  rw [hl.res]
  refine ⟨rfl, ⟨g.market.baseDepositTotal, _, rfl⟩, fun j hj => Accts.get?_set_ne _ hj, ?_, fun h => by rw [hl.acct] at h; cases h⟩
  intro b hb
  rw [hl.acct] at hb; injection hb with hb; subst hb
  exact ⟨_, _, a.position.penaltyHeapCount, Int.le_refl _, Accts.get?_set_self _ hl.acct⟩

theorem lockAsk_pay {g g' : Ledger} {k : Pubkey} {amt dep : Int} (h : lockAsk g k amt = .ok (g', dep)) : PayFrame g k g' := by
  obtain ⟨a, hl⟩ := lockAsk_inv h
  rw [hl.res]
  refine ⟨rfl, ⟨_, g.market.quoteDepositTotal, rfl⟩, fun j hj => Accts.get?_set_ne _ hj, ?_, fun h => by rw [hl.acct] at h; cases h⟩
  intro b hb
  rw [hl.acct] at hb; injection hb with hb; subst hb
  exact ⟨_, _, a.position.penaltyHeapCount, Int.le_refl _, Accts.get?_set_self _ hl.acct⟩

theorem addPenalty_pay {g g' : Ledger} {k : Pubkey} {n : Nat} (h : addPenalty g k n = .ok g') : PayFrame g k g' := by
  rcases addPenalty_inv h with rfl | ⟨a, ha, _, _, rfl⟩
  · exact .refl _ _
  · refine ⟨rfl, ⟨_, _, rfl⟩, fun j hj => Accts.get?_set_ne _ hj, ?_, fun h => by rw [ha] at h; cases h⟩
    intro b hb
    rw [ha] at hb; injection hb with hb; subst hb
    exact ⟨_, _, _, (by show a.position.penaltyHeapCount ≤ a.position.penaltyHeapCount + 1; omega), Accts.get?_set_self _ ha⟩

/-- The account an instruction may pay for an order from. -/
def Op.payer : Op → Option Pubkey
  | .placeOrder c _ | .placeOrderPegged c _ | .editOrder c _ _ _ | .editOrderPegged c _ _ _ => some c.ooKey
  | .placeOrders c _ _ _ _ _ => some c.ooKey
  | _ => none

/-- How an existing account changes. -/
inductive AcctStep (m : Market) (op : Op) (k : Pubkey) (a a' : OOA) : Prop
  | kept (own : a'.owner = a.owner) (del : a'.delegate = a.delegate)
      (base : a.position.baseFreeNative ≤ a'.position.baseFreeNative) (quote : a.position.quoteFreeNative ≤ a'.position.quoteFreeNative)
      (pen : a'.position.penaltyHeapCount = a.position.penaltyHeapCount) (up : RefsUp m.makerFee a.position a'.position)
  | paid (hop : op.payer = some k) (own : a'.owner = a.owner) (del : a'.delegate = a.delegate)
      (pen : a.position.penaltyHeapCount ≤ a'.position.penaltyHeapCount) (up : RefsUp m.makerFee a.position a'.position)
  | settled (c : SettleCtx) (hop : op = .settleFunds c ∨ ∃ admin now, op = .settleFundsExpired admin c now) (hk : c.ooKey = k)
      (res : a' = a.settled m)
  | delegate (d : Pubkey) (hop : op = .setDelegate k a.owner d) (res : a' = { a with delegate := d })

/-- How the accounts change in one instruction. -/
structure AcctsStep (m : Market) (op : Op) (A A' : Accts) : Prop where
  old : ∀ k a, A.get? k = some a → (∃ a', A'.get? k = some a' ∧ AcctStep m op k a a') ∨
    (A'.get? k = none ∧ op = .closeOO k a.owner ∧ EmptyPos a.position)
  new : ∀ k a', A.get? k = none → A'.get? k = some a' → ∃ o d, op = .createOO k o d ∧ a' = OOA.fresh o d

theorem LFrame.get?_none {g g' : Ledger} (h : LFrame g g') {k : Pubkey} (hn : g.accts.get? k = none) : g'.accts.get? k = none := by
  cases h' : g'.accts.get? k with
  | none => rfl
  | some a =>
    have := (Accts.isSome_get? (as := g'.accts) (k := k)).mp (by rw [h']; rfl)
    rw [h.keys] at this
    have := (Accts.isSome_get? (as := g.accts) (k := k)).mpr this
    rw [hn] at this; cases this

theorem LFrame.acctsStep {g g' : Ledger} (h : LFrame g g') (op : Op) : AcctsStep g.market op g.accts g'.accts := by
  refine ⟨fun k a ha => ?_, fun k a' h1 h2 => ?_⟩
  · obtain ⟨a', ha', b1, b2, b3, b4, b5⟩ := h.accts k a ha
    exact .inl ⟨a', ha', .kept b1 b2 b3 b4 b5 (h.refs k a a' ha ha')⟩
  · rw [h.get?_none h1] at h2; cases h2

theorem PayFrame.acctsStep {g g1 g' : Ledger} {k : Pubkey} (h1 : LFrame g g1) (h2 : PayFrame g1 k g') {op : Op}
    (hop : op.payer = some k) : AcctsStep g.market op g.accts g'.accts := by
  refine ⟨fun j a ha => ?_, fun j a' e1 e2 => ?_⟩
  · obtain ⟨b, hb, b1, b2, b3, b4, b5⟩ := h1.accts j a ha
    have hr := h1.refs j a b ha hb
    by_cases hj : j = k
    · subst hj
      obtain ⟨x, y, z, hz, e⟩ := h2.self b hb
      refine .inl ⟨_, e, .paid hop b1 b2 (by rw [← b5]; exact hz) ⟨hr.refs, fun hl => ?_, hr.vol, hr.locked⟩⟩
      exact ⟨(hr.lots hl).bids, (hr.lots hl).asks, (hr.lots hl).quote⟩
    · exact .inl ⟨b, by rw [h2.other j hj]; exact hb, .kept b1 b2 b3 b4 b5 hr⟩
  · have e := h1.get?_none e1
    by_cases hj : j = k
    · subst hj; rw [h2.gone e] at e2; cases e2
    · rw [h2.other j hj, e] at e2; cases e2

theorem PlaceRun.pay {s s' : State} {c : PlaceCtx} {order : Order} {limit : Nat} {r : OrderResult}
    (P : PlaceRun s c order limit r s') : PayFrame P.g1 c.ooKey s'.g := by
  rw [congrArg State.g P.res]
  show PayFrame P.g1 c.ooKey P.g3
  have hl := P.lock
  refine PayFrame.trans ?_ (addPenalty_pay P.pen)
  cases hs : order.side with
  | bid => rw [hs] at hl; exact lockBid_pay hl
  | ask => rw [hs] at hl; exact lockAsk_pay hl

theorem MultiRun.pay {s s' : State} {c : MultiCtx} {cancel : Bool} {orders : List Order} {limit : Nat} {rs : List OrderResult}
    (P : MultiRun s c cancel orders limit rs s') : PayFrame P.g1 c.ooKey s'.g := by
  rw [congrArg State.g P.res]
  exact ((lockAsk_pay P.lockB).trans (lockBid_pay P.lockQ)).trans (addPenalty_pay P.pen)

theorem Asks.payer {s : State} {op : Op} {c : PlaceCtx} {o : Order} {l : Nat} (h : Asks s op c o l) : op.payer = some c.ooKey := by
  cases h <;> rfl

theorem AsksEdit.payer {s : State} {op : Op} {c : PlaceCtx} {n : Nat} {e : Int} {o : Order} {l : Nat} (h : AsksEdit s op c n e o l) :
    op.payer = some c.ooKey := by
  cases h <;> rfl

/-- One account replaced. -/
theorem AcctsStep.set {A : Accts} {m : Market} {op : Op} {k : Pubkey} {a a' : OOA} (ha : A.get? k = some a) (h : AcctStep m op k a a') :
    AcctsStep m op A (A.set k a') := by
  refine ⟨fun j b hb => ?_, fun j b e1 e2 => ?_⟩
  · by_cases hj : j = k
    · subst hj
      rw [ha] at hb; injection hb with hb; subst hb
      exact .inl ⟨a', Accts.get?_set_self _ ha, h⟩
    · exact .inl ⟨b, by rw [Accts.get?_set_ne _ hj]; exact hb, .kept rfl rfl (Int.le_refl _) (Int.le_refl _) rfl (.refl _ _)⟩
  · by_cases hj : j = k
    · subst hj; rw [ha] at e1; cases e1
    · rw [Accts.get?_set_ne _ hj, e1] at e2; cases e2

theorem settled_step {s s' : State} {c : SettleCtx} (P : SettleRun s c s') {op : Op}
    (hop : op = .settleFunds c ∨ ∃ admin now, op = .settleFundsExpired admin c now) :
    AcctsStep s.g.market op s.g.accts s'.g.accts := by
  rw [congrArg State.g P.res]
  exact AcctsStep.set P.acct (.settled c hop rfl rfl)

/-- An edit is a cancellation, then possibly a placement. -/
theorem EditRun.split {s s' : State} {c : PlaceCtx} {client : Nat} {e : Int} {o : Order} {limit : Nat} {r : Option OrderResult}
    (P : EditRun s c client e o limit r s') (hi : Inv s) (ho : OrderTyped o) :
    (LFrame s.g s'.g) ∨ ∃ g1, LFrame s.g g1 ∧ PayFrame g1 c.ooKey s'.g := by
  obtain ⟨q, s1, h1, _, h2⟩ := P.run
  obtain ⟨_, h3⟩ := cancelByClientId_inv h1
  obtain ⟨_, _, _, _, _, _, _, _, _, hi1⟩ := cancelAllFor_res hi h3
  obtain ⟨_, f1, m1, _, _⟩ := cancelAllFor_frame hi h3
  rcases h2 with ⟨e1, e2, r1, _, h4⟩ | ⟨_, _, rfl⟩
  · obtain ⟨P⟩ := placeOrder_inv h4
    have ho : OrderTyped { o with maxBaseLots := o.maxBaseLots - (e - q) } :=
      ⟨by have := ho.base1; show o.maxBaseLots - (e - q) ≤ _; omega, ho.quote1, ho.price, ho.peg⟩
    exact .inr ⟨P.g1, f1.trans (P.fx hi1 ho).frame1, P.pay⟩
  · exact .inl f1

theorem cancelOrderIx_frame {s s' : State} {signer k : Pubkey} {id : Nat} (hi : Inv s) (h : cancelOrderIx s signer k id = .ok s') :
    LFrame s.g s'.g := by
  obtain ⟨_, _, _, _, _, _, _, _, h1, _, h2⟩ := cancelOrderIx_res hi h
  rw [h1]; exact h2

theorem step_accts {s s' : State} {op : Op} (hi : Inv s) (h : step s op = .ok s') :
    AcctsStep s.g.market op s.g.accts s'.g.accts := by
  have same : s'.g.accts = s.g.accts → AcctsStep s.g.market op s.g.accts s'.g.accts := by
    intro h; rw [h]; exact (LFrame.refl s.g).acctsStep _
  cases step_run h with
  | idle _ _ _ _ h => exact same (by rw [h])
  | place op c o l r hop P => exact P.pay.acctsStep (P.fx hi hop.typed).frame1 hop.payer
  | edit op c client e o l r hop P =>
    rcases P.split hi hop.typed with h | ⟨g1, h1, h2⟩
    · exact h.acctsStep _
    · exact h2.acctsStep h1 hop.payer
  | multi c cancel t bids asks l now bs as rs hn hb ha P =>
    obtain ⟨hi1, f1⟩ := P.start hi
    have f2 := (multiLoop_res hi1.core (multiTyped hb ha) (Int.le_refl _) (Int.le_refl _) P.loop).2.1
    exact P.pay.acctsStep (f1.trans f2) rfl
  | take c a o r ho P =>
    have hfx := P.fx hi (takeOrder_typed ho)
    have := hfx.frame1.acctsStep (.placeTakeOrder c a)
    rw [congrArg State.g P.res]
    show AcctsStep _ _ _ P.g2.accts
    rw [congrArg Ledger.accts hfx.amts.res]
    exact this
  | consume op admin limit slots rem hop h => exact (consumeEvents_Inv hi h).2.acctsStep _
  | cancelOne signer k id h => exact (cancelOrderIx_frame hi h).acctsStep _
  | cancel op signer k limit so co a q hop auth h => exact (cancelAllFor_frame hi h).2.1.acctsStep _
  | prune admin k now limit q auth exp hc => exact (cancelAllFor_frame hi hc).2.1.acctsStep _
  | deposit op signer k ub uq now b q b0 q0 hop P =>
    rw [congrArg State.g P.res]
    exact AcctsStep.set P.acct (.kept rfl rfl (by have := P.b0; show _ ≤ P.a.position.baseFreeNative + b; omega)
      (by have := P.q0; show _ ≤ P.a.position.quoteFreeNative + q; omega) rfl (.same (Int.le_refl _) rfl rfl rfl rfl rfl))
  | settle c h P => exact settled_step P (.inl rfl)
  | settleExpired admin c now h P => exact settled_step P (.inr ⟨_, _, rfl⟩)
  | sweep admin receiver h =>
    obtain ⟨_, _, _, t, _, h⟩ := sweepFees_inv h
    exact same (by rw [h])
  | setExpired admin now auth live res => exact same (by rw [res])
  | close admin now P => exact same (by rw [P.res])
  | createOO k owner d _ _ hn res =>
    rw [res]
    refine ⟨fun j a ha => .inl ⟨a, ?_, .kept rfl rfl (Int.le_refl _) (Int.le_refl _) rfl (.refl _ _)⟩, fun j a h1 h2 => ?_⟩
    · simp only [Accts.get?_append, ha, Option.some_or]
    · simp only [Accts.get?_append, h1, Option.none_or, Accts.get?_cons, Accts.get?_nil] at h2
      by_cases hj : k = j
      · rw [if_pos hj] at h2; injection h2 with h2
        exact ⟨owner, d, by rw [hj], h2.symm⟩
      · rw [if_neg hj] at h2; cases h2
  | closeOO k owner a ha hown hp res =>
    rw [res]
    obtain ⟨O, qs, hw⟩ := hi.core.linv
    refine ⟨fun j b hb => ?_, fun j b h1 h2 => ?_⟩
    · simp only [Accts.get?_del hw.ginv.nodup]
      by_cases hj : j = k
      · subst hj
        rw [ha] at hb; injection hb with hb; subst hb
        exact .inr ⟨by simp, by rw [hown], hp⟩
      · exact .inl ⟨b, by rw [if_neg hj]; exact hb, .kept rfl rfl (Int.le_refl _) (Int.le_refl _) rfl (.refl _ _)⟩
    · simp only [Accts.get?_del hw.ginv.nodup] at h2
      by_cases hj : j = k
      · rw [if_pos hj] at h2; cases h2
      · rw [if_neg hj, h1] at h2; cases h2
  | delegate k owner d a ha hown res =>
    rw [res]
    exact AcctsStep.set ha (.delegate d (by rw [hown]) rfl)
  | token k t _ _ res => exact same (by rw [res])
  | lamports k x _ _ res => exact same (by rw [res])

end OB
