import Verif.Proofs.LogsStep
import Verif.Proofs.OOLife
import Verif.Proofs.Call
import Verif.Proofs.Fees
import Verif.Proofs.Amounts
import Verif.Proofs.WealthIx
/-! What the instructions write to the log. -/
namespace OB
open Spec

/-! ### fills are never negative -/

theorem queued_nonneg {s : State} (hr : Reachable s) {f : FillEvent} (hf : f ∈ queuedFills s.g) : 0 ≤ f.quantity ∧ 0 ≤ f.price := by
  obtain ⟨O, q, hw⟩ := (reachable_Inv hr).core.linv
  unfold queuedFills at hf
  obtain ⟨e, he, hx⟩ := List.mem_filterMap.mp hf
  cases e with
  | out o => cases hx
  | fill f' =>
    injection hx with hx
    subst hx
    obtain ⟨o, ho, hk⟩ := hw.mem_ev he
    cases o with
    | rest s c l oo => cases hk
    | out ev oo => cases hk
    | fill f2 oo =>
      have e : f2 = f' := by cases hk; rfl
      subst e
      have hok := hw.ginv.ok (.fill f2 oo) ho
      have h1 : 1 ≤ f2.quantity := hok.qty
      obtain ⟨p1, _⟩ := hok.fill f2 oo rfl
      omega

theorem created_nonneg {book book' : Book} {g g' : Ledger} {cs : List (Env × OrderResult)} (h : Calls book g cs book' g') {f : FillEvent}
    (hf : f ∈ tradesOf cs) : 0 ≤ f.quantity ∧ 0 ≤ f.price := by
  induction h with
  | nil => cases hf
  | cons env r cs book book1 book' g g1 g' hc _ ih =>
    have e : tradesOf ((env, r) :: cs) = r.fills ++ tradesOf cs := by simp [tradesOf]
    rw [e] at hf
    rcases List.mem_append.mp hf with h | h
    · obtain ⟨C⟩ := callRun hc
      obtain ⟨v, _, _, hi⟩ := C.fill_visit h
      have hq := hi.quantity
      refine ⟨by omega, ?_⟩
      have hp := hi.tradable.price
      have hg := hi.tradable.range
      cases hv : v.item.comp with
      | fixed =>
        rw [hv] at hp
        simp only [priceOf, Option.some.injEq] at hp
        omega
      | pegged => have := hg hv; omega
    · exact ih h

theorem FeesOk.valid {m : Market} (h : FeesOk m) : ValidFees m :=
  ⟨⟨by have := h.t1; have := h.m0; omega, h.m1⟩, ⟨h.t0, h.t1⟩, fun _ => by have := h.m0; omega⟩

theorem raw_value {m : Market} {f : FillEvent} {l : FillLog} (hq : 0 < m.quoteLotSize) (hf : 0 ≤ f.quantity ∧ 0 ≤ f.price) (w : Written m l f) :
    rawQuote m f = reportedValue m l ∧ 0 ≤ f.quantity * f.price * m.quoteLotSize ∧ f.quantity * f.price * m.quoteLotSize ≤ i64Max := by
  have h0 : 0 ≤ f.quantity * f.price * m.quoteLotSize := Int.mul_nonneg (Int.mul_nonneg hf.1 hf.2) (by omega)
  have h1 := w.range.2
  refine ⟨?_, h0, h1⟩
  unfold rawQuote reportedValue
  rw [asU64_eq h0 (by simp only [i64Max, u64Max] at *; omega)]
  have e1 : l.quantity = f.quantity := by rw [w.res]
  have e2 : l.price = f.price := by rw [w.res]
  rw [e1, e2]

theorem Written.reports {m : Market} {f : FillEvent} {l : FillLog} (hq : 0 < m.quoteLotSize) (hv : ValidFees m)
    (hf : 0 ≤ f.quantity ∧ 0 ≤ f.price) (w : Written m l f) : Reports m l f := by
  obtain ⟨_, h0, h1⟩ := raw_value hq hf w
  have hu : f.quantity * f.price * m.quoteLotSize ≤ u64Max := by simp only [i64Max, u64Max] at *; omega
  have er : rawQuote m f = f.quantity * f.price * m.quoteLotSize := asU64_eq h0 hu
  have hr := w.res
  have hfe := w.fee
  have htk := w.taker
  rw [er] at hfe htk
  refine ⟨by rw [hr], by rw [hr], by rw [hr], by rw [hr], by rw [hr], by rw [hr], by rw [hr], by rw [hr], by rw [hr], by rw [hr], by rw [hr],
    by rw [hr], ?_, ?_, ?_⟩
  · intro he
    rw [if_pos he] at hfe
    rw [if_neg (by simp [he])] at htk
    injection hfe with hfe
    injection htk with htk
    exact ⟨hfe.symm, htk.symm⟩
  · intro he
    rw [if_neg he] at hfe
    obtain ⟨x, hx, hs⟩ := makerFeesFloor_spec hv h0 hu
    rw [hx] at hfe
    injection hfe with hfe
    rw [← hfe]; exact hs
  · intro he
    obtain ⟨x, hx, hs⟩ := takerFeesCeil_spec hv h0 hu
    by_cases hp : f.quantity * f.price * m.quoteLotSize > 0
    · rw [if_pos ⟨hp, he⟩, hx] at htk
      injection htk with htk
      rw [← htk]; exact hs
    · rw [if_neg (fun h => hp h.1)] at htk
      injection htk with htk
      have : f.quantity * f.price * m.quoteLotSize = 0 := by omega
      rw [← htk, this]
      exact ⟨by simp, fun g hg => by omega⟩

theorem sum_reported {m : Market} {ls : List FillLog} {fs : List FillEvent} (hq : 0 < m.quoteLotSize) (hf : ∀ f ∈ fs, 0 ≤ f.quantity ∧ 0 ≤ f.price)
    (h : List.Forall₂ (Written m) ls fs) : sumOf fs (rawQuote m) = sumOf ls (reportedValue m) ∧
      ∀ k, sumOf (fs.filter (fun f => f.maker = k)) (rawQuote m) = sumOf (ls.filter (fun l => l.maker = k)) (reportedValue m) := by
  induction h with
  | nil => exact ⟨rfl, fun _ => rfl⟩
  | @cons l f ls fs w _ ih =>
    obtain ⟨i1, i2⟩ := ih (fun x hx => hf x (by simp [hx]))
    have e := (raw_value hq (hf f (by simp)) w).1
    refine ⟨?_, fun k => ?_⟩
    · show (_ :: _).sum = (_ :: _).sum
      unfold sumOf at i1
      rw [List.sum_cons, List.sum_cons, e]
      omega
    · have em : l.maker = f.maker := by rw [w.res]
      have := i2 k
      by_cases hk : f.maker = k
      · have hk' : l.maker = k := by rw [em]; exact hk
        simp only [List.filter_cons, hk, hk', decide_true, if_true]
        unfold sumOf at *
        rw [List.map_cons, List.map_cons, List.sum_cons, List.sum_cons, e]
        omega
      · have hk' : l.maker ≠ k := by rw [em]; exact hk
        simp only [List.filter_cons, hk, hk', decide_false, Bool.false_eq_true, if_false]
        exact this

/-! ### steps -/

/-- As `Emits`, when accounts may be created and closed. -/
structure StepEmits (g : Ledger) (cr : List FillEvent) (g' : Ledger) (L : List Log) (dn : List FillEvent) : Prop where
  sigs : signatures L = cr.map (·.marketSeqNum)
  logs : List.Forall₂ (Written g.market) (fillLogs L) dn
  queue : (queuedFills g ++ cr).Perm (dn ++ queuedFills g')
  mvol : g'.market.makerVolume = g.market.makerVolume + sumOf dn (rawQuote g.market)
  maker : ∀ k a a', g.accts.get? k = some a → g'.accts.get? k = some a' →
    a'.position.makerVolume = a.position.makerVolume + sumOf (dn.filter (fun f => f.maker = k)) (rawQuote g.market)
  taker : ∀ k a a', g.accts.get? k = some a → g'.accts.get? k = some a' →
    a'.position.takerVolume = a.position.takerVolume + sumOf ((totalLogs L).filter (fun t => t.taker = k)) totalValue
  walk : g'.market.takerVolumeWoOo = g.market.takerVolumeWoOo +
    sumOf ((totalLogs L).filter (fun t => (g.accts.get? t.taker).isNone)) totalValue
  known : ∀ f ∈ dn, (g.accts.get? f.maker).isSome
  shown : ∀ k a a', g.accts.get? k = some a → g'.accts.get? k = some a' →
    (a'.position.makerVolume, a'.position.takerVolume) = volumesRead L k a

theorem Emits.step {g g' : Ledger} {cr dn : List FillEvent} {L : List Log} (h : Emits g cr g' L dn) : StepEmits g cr g' L dn :=
  ⟨h.sigs, h.logs, h.queue, h.mvol, h.maker, h.taker, h.walk, h.known, h.shown⟩

/-- Records that are no fill, signature, total or position. -/
def Beside (L : List Log) : Prop := fillLogs L = [] ∧ signatures L = [] ∧ totalLogs L = [] ∧ positionLogs L = []

theorem quiet_step {g g' : Ledger} {L : List Log} (hL : Beside L) (hq : queuedFills g' = queuedFills g)
    (hm : g'.market.makerVolume = g.market.makerVolume) (hw : g'.market.takerVolumeWoOo = g.market.takerVolumeWoOo)
    (ha : ∀ k a a', g.accts.get? k = some a → g'.accts.get? k = some a' → a'.position.makerVolume = a.position.makerVolume ∧
      a'.position.takerVolume = a.position.takerVolume) : StepEmits g [] g' L [] := by
  obtain ⟨h1, h2, h3, h4⟩ := hL
  refine ⟨h2, by rw [h1]; exact .nil, by rw [hq]; simp, by simp [sumOf, hm], ?_, ?_, by simp [sumOf, h3, hw], by simp, ?_⟩
  rotate_left 2
  · intro k a a' ha1 ha2
    rw [volumesRead_none (by rw [h4]; simp), (ha k a a' ha1 ha2).1, (ha k a a' ha1 ha2).2]
  · intro k a a' ha1 ha2; simp [sumOf, (ha k a a' ha1 ha2).1]
  · intro k a a' ha1 ha2; simp [sumOf, h3, (ha k a a' ha1 ha2).2]

theorem quiet_same {g g' : Ledger} {L : List Log} (hL : Beside L) (h : Quiet g g') : StepEmits g [] g' L [] := by
  obtain ⟨h1, h2, h3, h4⟩ := hL
  refine ⟨h2, by rw [h1]; exact .nil, h.queue, h.mvol, h.maker, ?_, ?_, h.known, ?_⟩
  rotate_left 2
  · intro k a a' ha1 ha2
    rw [volumesRead_none (by rw [h4]; simp)]
    exact h.shown k a a' ha1 ha2
  · rw [h3]; exact h.taker
  · rw [h3]; exact h.walk

theorem vols_same {as : Accts} {k : Pubkey} {a a' : OOA} (h1 : as.get? k = some a) (h2 : as.get? k = some a') :
    a'.position.makerVolume = a.position.makerVolume ∧ a'.position.takerVolume = a.position.takerVolume := by
  rw [h1] at h2; injection h2 with h2; subst h2; exact ⟨rfl, rfl⟩

theorem besideDeposit (signer k : Pubkey) (b q : Int) : Beside (depositLogs signer k b q) := by
  unfold depositLogs
  split <;> exact ⟨rfl, rfl, rfl, rfl⟩

theorem settle_logs {s s' : State} {c : SettleCtx} (h : settleCore s c = .ok s') :
    ∃ a r, s.g.accts.get? c.ooKey = some a ∧ Settled s.g.market a c.referrer.isSome r (s.g.market.settled a.position c.referrer.isSome)
        { a with position := { a.position with lockedMakerFees := a.position.lockedMakerFees - sweepOf s.g.market a.position } } ∧
      settleLogs s c = .ok [.settle c.ooKey a.position.baseFreeNative a.position.quoteFreeNative r c.referrer] := by
  unfold settleCore at h
  simp only [bind_ok, Accts.get_ok] at h
  obtain ⟨a, ha, _, h1, _, h2, _, h3, ⟨rebate, m', a1⟩, h4, lam, h5, t1, h6, t2, h7, t3, h8, h⟩ := h
  have hs := settleAccounting_inv h4
  have e1 := hs.market
  have e2 := hs.acct
  rw [e1, e2] at hs
  refine ⟨a, rebate, ha, hs, ?_⟩
  unfold settleLogs
  rw [(Accts.get_ok).mpr ha, ok_bind, h4]; rfl

/-- What an instruction writes that places nothing. -/
theorem step_emits_other {s s' : State} {op : Op} (hr : Reachable s) (h : step s op = .ok s') (hp : placer op = none) :
    ∃ L dn, logs s op = .ok L ∧ totalLogs L = [] ∧ StepEmits s.g [] s'.g L dn := by
  have hi := reachable_Inv hr
  have hx := reachable_Extra hr
  have none : Beside [] := ⟨rfl, rfl, rfl, rfl⟩
  have canc : ∀ {k : Pubkey} {ls : List (Side × Comp × LeafNode)}, Cancels s s' k ls → logs s op = .ok [] →
      ∃ L dn, logs s op = .ok L ∧ totalLogs L = [] ∧ StepEmits s.g [] s'.g L dn :=
    fun hc hl => ⟨[], [], hl, rfl, (quiet_cancels (rep_of hr) hc).step⟩
  have same : s'.g = s.g → logs s op = .ok [] → ∃ L dn, logs s op = .ok L ∧ totalLogs L = [] ∧ StepEmits s.g [] s'.g L dn := by
    intro hg hl
    obtain ⟨q, hq⟩ := rep_of hr
    rw [hg]
    exact ⟨[], [], hl, rfl, (Emits.refl hq).step⟩
  cases op with
  | placeOrder c a => cases hp
  | placeOrderPegged c a => cases hp
  | editOrder c client e a => cases hp
  | editOrderPegged c client e a => cases hp
  | placeOrders c cancel t bids asks limit => cases hp
  | placeTakeOrder c a => cases hp
  | consumeEvents admin limit rem =>
    obtain ⟨_, _, todo, g, h3, h4, rfl⟩ := consumeEvents_inv h
    obtain ⟨L, dn, m1, m2, m3⟩ := emits_consume (rep_of hr) h4
    refine ⟨L, dn, ?_, m2, m3.step⟩
    simp only [logs, consumeLogs, h3, ok_bind, m1]
  | consumeGivenEvents admin slots rem =>
    simp only [step, consumeGivenEvents, bind_ok, req_ok] at h
    obtain ⟨_, _, h⟩ := h
    obtain ⟨_, _, todo, g, h3, h4, rfl⟩ := consumeEvents_inv h
    obtain ⟨L, dn, m1, m2, m3⟩ := emits_consume (rep_of hr) h4
    refine ⟨L, dn, ?_, m2, m3.step⟩
    simp only [logs, consumeLogs, h3, ok_bind, m1]
  | cancelOrder signer k id =>
    obtain ⟨x, _, hc, _⟩ := cancelOrderIx_full hi h
    exact canc hc rfl
  | cancelByClientId signer k client =>
    obtain ⟨_, _, ls, hc⟩ := step_cancelByClient hr h
    exact canc hc rfl
  | cancelAll signer k side limit =>
    obtain ⟨_, _, ls, hc⟩ := step_cancelAll hr h
    exact canc hc rfl
  | pruneOrders admin k now limit =>
    obtain ⟨_, _, q, h⟩ := pruneOrders_inv h
    obtain ⟨ls, c1, _⟩ := cancelAllFor_full hi hx h
    exact canc c1 rfl
  | deposit signer k ub uq now b q =>
    obtain ⟨P⟩ := deposit_inv h
    refine ⟨_, [], rfl, (besideDeposit _ _ _ _).2.2.1, quiet_step (besideDeposit _ _ _ _) ?_ ?_ ?_ ?_⟩
    · rw [P.res]; rfl
    · rw [P.res]
    · rw [P.res]
    · rw [congrArg State.g P.res]
      intro j x x' hj hj'
      rcases set_vols P.acct hj hj' with ⟨_, rfl, rfl⟩ | ⟨_, rfl⟩ <;> exact ⟨rfl, rfl⟩
  | refill signer k ub uq now b q =>
    obtain ⟨a, ha, _, _, _, _, h⟩ := refill_inv h
    obtain ⟨P⟩ := deposit_inv h
    refine ⟨_, [], ?_, (besideDeposit signer k (b - min b a.position.baseFreeNative) (q - min q a.position.quoteFreeNative)).2.2.1,
      quiet_step (besideDeposit _ _ _ _) ?_ ?_ ?_ ?_⟩
    · simp only [logs, (Accts.get_ok).mpr ha, ok_bind]; rfl
    · rw [P.res]; rfl
    · rw [P.res]
    · rw [P.res]
    · rw [congrArg State.g P.res]
      intro j x x' hj hj'
      rcases set_vols P.acct hj hj' with ⟨_, rfl, rfl⟩ | ⟨_, rfl⟩ <;> exact ⟨rfl, rfl⟩
  | settleFunds c =>
    have h1 := (settleFunds_inv h).1
    obtain ⟨P⟩ := settleCore_inv h1
    obtain ⟨a, r, _, _, hl⟩ := settle_logs h1
    refine ⟨_, [], hl, rfl, quiet_step ⟨rfl, rfl, rfl, rfl⟩ ?_ ?_ ?_ ?_⟩
    · rw [congrArg State.g P.res]; rfl
    · rw [congrArg State.g P.res]; rfl
    · rw [congrArg State.g P.res]; rfl
    · rw [congrArg State.g P.res]
      intro j x x' hj hj'
      rcases set_vols P.acct hj hj' with ⟨_, rfl, rfl⟩ | ⟨_, rfl⟩ <;> exact ⟨rfl, rfl⟩
  | settleFundsExpired admin c now =>
    have h1 := (settleFundsExpired_inv h).1
    obtain ⟨P⟩ := settleCore_inv h1
    obtain ⟨a, r, _, _, hl⟩ := settle_logs h1
    refine ⟨_, [], hl, rfl, quiet_step ⟨rfl, rfl, rfl, rfl⟩ ?_ ?_ ?_ ?_⟩
    · rw [congrArg State.g P.res]; rfl
    · rw [congrArg State.g P.res]; rfl
    · rw [congrArg State.g P.res]; rfl
    · rw [congrArg State.g P.res]
      intro j x x' hj hj'
      rcases set_vols P.acct hj hj' with ⟨_, rfl, rfl⟩ | ⟨_, rfl⟩ <;> exact ⟨rfl, rfl⟩
  | sweepFees admin receiver =>
    obtain ⟨_, _, _, t, _, rfl⟩ := sweepFees_inv h
    exact ⟨_, [], rfl, rfl, quiet_step ⟨rfl, rfl, rfl, rfl⟩ rfl rfl rfl (fun j x x' => vols_same)⟩
  | setMarketExpired admin now =>
    obtain ⟨_, _, rfl⟩ := setMarketExpired_inv h
    exact ⟨_, [], rfl, rfl, quiet_step ⟨rfl, rfl, rfl, rfl⟩ rfl rfl rfl (fun j x x' => vols_same)⟩
  | closeMarket admin now =>
    have P := closeMarket_inv h
    exact same (by rw [P.res]) rfl
  | createOO k owner d =>
    obtain ⟨_, _, hn, rfl⟩ := createOO_inv h
    refine ⟨_, [], rfl, rfl, quiet_step ⟨rfl, rfl, rfl, rfl⟩ rfl rfl rfl (fun j x x' hj hj' => ?_)⟩
    simp only at hj'
    rw [Accts.get?_append, hj] at hj'
    injection hj' with hj'
    subst hj'
    exact ⟨rfl, rfl⟩
  | closeOO k owner =>
    obtain ⟨a, _, _, _, rfl⟩ := closeOO_inv h
    refine ⟨_, [], rfl, rfl, quiet_step ⟨rfl, rfl, rfl, rfl⟩ rfl rfl rfl (fun j x x' hj hj' => ?_)⟩
    obtain ⟨O, q, hw⟩ := hi.core.linv
    simp only at hj'
    rw [Accts.get?_del hw.ginv.nodup] at hj'
    split at hj'
    · cases hj'
    · exact vols_same hj hj'
  | setDelegate k owner d =>
    obtain ⟨a, ha, _, rfl⟩ := setDelegate_inv h
    refine ⟨_, [], rfl, rfl, quiet_step ⟨rfl, rfl, rfl, rfl⟩ rfl rfl rfl (fun j x x' hj hj' => ?_)⟩
    rcases set_vols ha hj hj' with ⟨_, rfl, rfl⟩ | ⟨_, rfl⟩ <;> exact ⟨rfl, rfl⟩
  | externalToken k t =>
    obtain ⟨_, _, _, rfl⟩ := externalToken_inv h
    exact same rfl rfl
  | externalLamports k x =>
    obtain ⟨_, _, _, rfl⟩ := externalLamports_inv h
    exact same rfl rfl

theorem Spec.CallsLogged.unique {book : Book} {g : Ledger} {cs : List (Env × OrderResult)} {ls ls' : List (List Log)}
    (h : CallsLogged book g cs ls) (h' : CallsLogged book g cs ls') : ls = ls' := by
  induction h generalizing ls' with
  | nil => cases h'; rfl
  | cons env r cs book book1 g g1 l ls h hl hs ih =>
    cases h' with
    | cons _ _ _ _ _ _ _ l2 ls2 h2 hl2 hs2 =>
      rw [h] at h2
      simp only [Except.ok.injEq, Prod.mk.injEq] at h2
      obtain ⟨_, rfl, rfl⟩ := h2
      rw [hl] at hl2
      injection hl2 with hl2
      subst hl2
      rw [ih hs2]

/-- What a placing instruction writes. -/
theorem Logged.emits {s s1 s' : State} {op : Op} {p : Placer} {cs : List (Env × OrderResult)} {g1 : Ledger} {ls : List (List Log)}
    (h : Logged s s1 s' op p cs g1 ls) : ∃ dn, Emits s.g (tradesOf cs) s'.g ls.flatten dn := by
  obtain ⟨ls', dn, k1, k2⟩ := emits_calls h.place.calls h.before.heap
  have e := k1.unique h.calls
  subst e
  have := (h.before.trans k2).trans h.after
  simp only [List.nil_append, List.append_nil] at this
  exact ⟨dn, this⟩

theorem step_emits {s s' : State} {op : Op} (hr : Reachable s) (h : step s op = .ok s') :
    ∃ L cr dn, logs s op = .ok L ∧ StepEmits s.g cr s'.g L dn ∧
      ((placer op = none ∧ cr = [] ∧ totalLogs L = []) ∨
        ∃ p s1 cs g1 ls, placer op = some p ∧ Logged s s1 s' op p cs g1 ls ∧ L = ls.flatten ∧ cr = tradesOf cs) := by
  cases hp : placer op with
  | none =>
    obtain ⟨L, dn, h1, h2, h3⟩ := step_emits_other hr h hp
    exact ⟨L, [], dn, h1, h3, .inl ⟨rfl, rfl, h2⟩⟩
  | some p =>
    obtain ⟨s1, cs, g1, ls, hl⟩ := placement_logs hr h hp
    obtain ⟨dn, he⟩ := hl.emits
    exact ⟨_, _, dn, hl.logs, he.step, .inr ⟨p, s1, cs, g1, ls, rfl, hl, rfl, rfl⟩⟩

/-! ### in the words of the statements -/

theorem step_tells {s s' : State} {op : Op} (hr : Reachable s) (h : step s op = .ok s') :
    ∃ L made told, logs s op = .ok L ∧ Tells s s' made told L ∧ VolumesTold s s' L ∧
      ((placer op = none ∧ made = [] ∧ totalLogs L = []) ∨
        ∃ p s1 cs g1 ls, placer op = some p ∧ Logged s s1 s' op p cs g1 ls ∧ L = ls.flatten ∧ made = tradesOf cs) := by
  obtain ⟨L, cr, dn, h1, h2, h3⟩ := step_emits hr h
  have hc := (reachable_Inv hr).core
  have hcr : ∀ f ∈ cr, 0 ≤ f.quantity ∧ 0 ≤ f.price := by
    rcases h3 with ⟨_, rfl, _⟩ | ⟨p, s1, cs, g1, ls, _, hl, _, rfl⟩
    · intro f hf; cases hf
    · intro f hf; exact created_nonneg hl.place.calls hf
  have hdn : ∀ f ∈ dn, 0 ≤ f.quantity ∧ 0 ≤ f.price := fun f hf => by
    have := h2.queue.mem_iff.mpr (List.mem_append_left _ hf)
    rcases List.mem_append.mp this with hq | hq
    · exact queued_nonneg hr hq
    · exact hcr f hq
  have hrep : ReportAll s.g.market (fillLogs L) dn := by
    have := h2.logs
    clear h2
    revert hdn
    generalize fillLogs L = ls at this
    induction this with
    | nil => intro _; exact .nil
    | @cons l f ls fs w _ ih =>
      intro hd
      exact .cons (w.reports hc.qls hc.fees.valid (hd f (by simp))) (ih (fun x hx => hd x (by simp [hx])))
  obtain ⟨e1, e2⟩ := sum_reported hc.qls hdn h2.logs
  refine ⟨L, cr, dn, h1, ⟨h2.sigs, hrep, h2.queue⟩, ⟨?_, h2.walk, ?_, h2.taker, h2.shown⟩, h3⟩
  · rw [h2.mvol, e1]; rfl
  · intro k a a' ha ha'
    rw [h2.maker k a a' ha ha', e2]; rfl

theorem step_rates {s s' : State} {op : Op} (hr : Reachable s) (h : step s op = .ok s') : SameRates s.g.market s'.g.market := by
  have := (step_cfg (reachable_Inv hr) h).1
  exact ⟨this.qls, this.maker, this.taker⟩

theorem SameRates.reports {m m' : Market} (h : SameRates m m') {l : FillLog} {f : FillEvent} (w : Reports m' l f) : Reports m l f := by
  obtain ⟨a1, a2, a3, a4, a5, a6, a7, a8, a9, a10, a11, a12, a13, a14, a15⟩ := w
  exact ⟨a1, a2, a3, a4, a5, a6, a7, a8, a9, a10, a11, a12, a13, by rw [← h.lots, ← h.maker]; exact a14, by rw [← h.lots, ← h.taker]; exact a15⟩

theorem SameRates.symm {m m' : Market} (h : SameRates m m') : SameRates m' m := ⟨h.lots.symm, h.maker.symm, h.taker.symm⟩

theorem reported_seqs {m : Market} {ls : List FillLog} {fs : List FillEvent} (h : ReportAll m ls fs) :
    ls.map (·.seqNum) = fs.map (·.marketSeqNum) := by
  induction h with
  | nil => rfl
  | cons w _ ih => rw [List.map_cons, List.map_cons, w.seqNum, ih]

theorem SameRates.reported {m m' : Market} (h : SameRates m m') : reportedValue m' = reportedValue m := by
  funext l; unfold reportedValue; rw [h.lots]

theorem Spec.Tells.trans {s s1 s2 : State} {m1 m2 t1 t2 : List FillEvent} {L1 L2 : List Log} (hr : SameRates s.g.market s1.g.market)
    (h1 : Tells s s1 m1 t1 L1) (h2 : Tells s1 s2 m2 t2 L2) : Tells s s2 (m1 ++ m2) (t1 ++ t2) (L1 ++ L2) := by
  refine ⟨?_, ?_, ?_⟩
  · rw [signatures_append, h1.signed, h2.signed, List.map_append]
  · rw [fillLogs_append]
    exact List.rel_append h1.reported (h2.reported.imp (fun _ _ => hr.reports))
  · rw [← List.append_assoc, List.append_assoc t1]
    refine (h1.queue.append_right m2).trans ?_
    rw [List.append_assoc]
    exact h2.queue.append_left t1

/-- The total of one call. -/
theorem call_total {env : Env} {book book' : Book} {g g' : Ledger} {r : OrderResult} (h : EngineCall env book g r book' g') {L : List Log}
    (hl : newOrderLogs env book g = .ok L) :
    totalLogs L = if r.fills = [] then [] else [totalFor g.market env r] := by
  obtain ⟨C⟩ := callRun h
  obtain ⟨dB, dQ, hc⟩ := h.state.core
  obtain ⟨O, q, hw⟩ := hc.linv
  obtain ⟨L', dn, h1, _, h3⟩ := emits_order ⟨q, hw.heap⟩ h.valid.taker C.R
  rw [hl] at h1
  injection h1 with h1
  subst h1
  rw [h3]
  have e1 := C.taken
  have e2 := C.sumBase
  by_cases hf : r.fills = []
  · rw [if_pos hf]
    have z1 : Spec.sumQuote r.fills = 0 := by rw [hf]; rfl
    have z2 : sumQty r.fills = 0 := by rw [hf]; rfl
    exact if_neg (by omega)
  · rw [if_neg hf]
    have hpos : sumQty r.fills > 0 := by
      have hall : ∀ f ∈ r.fills, 1 ≤ f.quantity := fun f hf => by
        obtain ⟨v, _, _, hi⟩ := C.fill_visit hf
        exact hi.quantity.1
      revert hall hf
      generalize r.fills = fs
      intro hf hall
      have key : ∀ xs : List FillEvent, (∀ f ∈ xs, 1 ≤ f.quantity) → (xs.length : Int) ≤ sumQty xs := by
        intro xs
        induction xs with
        | nil => intro _; exact Int.le_refl _
        | cons x xs ih =>
          intro hx
          have a1 := ih (fun f hf => hx f (by simp [hf]))
          have a2 := hx x (by simp)
          simp only [sumQty, List.map_cons, List.sum_cons, List.length_cons] at *
          omega
      have := key fs hall
      have hlen : fs.length ≠ 0 := fun h0 => hf (List.length_eq_zero_iff.mp h0)
      omega
    rw [if_pos (.inr (by omega)), C.takenBase, C.takenQuote]
    unfold totalOf totalFor
    cases hs : env.order.side <;> simp

theorem calls_total {book book' : Book} {g g' : Ledger} {cs : List (Env × OrderResult)} {ls : List (List Log)} (h : Calls book g cs book' g')
    (hl : CallsLogged book g cs ls) : totalLogs ls.flatten = totalsFor g.market cs := by
  induction h generalizing ls with
  | nil => cases hl; rfl
  | cons env r cs book book1 book' g g1 g' hc _ ih =>
    cases hl with
    | cons _ _ _ _ book2 _ g2 l ls h2 hl2 hs2 =>
      have hrun := hc.run
      rw [hrun] at h2
      simp only [Except.ok.injEq, Prod.mk.injEq] at h2
      obtain ⟨_, rfl, rfl⟩ := h2
      obtain ⟨C⟩ := callRun hc
      have hlots := C.lots
      have e : totalsFor g1.market cs = totalsFor g.market cs := by
        unfold totalsFor totalFor
        rw [hlots.base, hlots.quote]
      rw [List.flatten_cons, totalLogs_append, ih hs2, call_total hc hl2, e]
      unfold totalsFor
      by_cases hf : r.fills = [] <;> simp [hf]

/-- What the taker of one call gets and gives is what the total says. -/
theorem call_amounts {env : Env} {book book' : Book} {g g' : Ledger} {r : OrderResult} (h : EngineCall env book g r book' g') :
    sumFills r.fills (takerBase g.market) = totalBase (totalFor g.market env r) ∧
    sumFills r.fills (takerQuote g.market) - r.takerFees = totalQuote (totalFor g.market env r) := by
  obtain ⟨C⟩ := callRun h
  have hall : ∀ f ∈ r.fills, f.takerSide = env.order.side := fun f hf => by
    obtain ⟨v, _, _, hi⟩ := C.fill_visit hf
    exact hi.taker.1
  have key : ∀ xs : List FillEvent, (∀ f ∈ xs, f.takerSide = env.order.side) →
      sumFills xs (takerBase g.market) = (if env.order.side = .bid then 1 else -1) * (sumQty xs * g.market.baseLotSize) ∧
      sumFills xs (takerQuote g.market) = (if env.order.side = .bid then -1 else 1) * (Spec.sumQuote xs * g.market.quoteLotSize) := by
    intro xs
    induction xs with
    | nil => intro _; simp [sumFills, sumQty, Spec.sumQuote]
    | cons x xs ih =>
      intro hx
      obtain ⟨a1, a2⟩ := ih (fun f hf => hx f (by simp [hf]))
      have a3 := hx x (by simp)
      simp only [sumFills, sumQty, Spec.sumQuote, List.map_cons, List.sum_cons] at *
      rw [a1, a2]
      unfold takerBase takerQuote fillQuote
      rw [a3]
      by_cases hb : env.order.side = .bid
      · simp only [hb, if_true]; rw [Int.add_mul, Int.add_mul]; constructor <;> omega
      · simp only [hb, if_false]; rw [Int.add_mul, Int.add_mul]; constructor <;> omega
  obtain ⟨k1, k2⟩ := key r.fills hall
  rw [k1, k2]
  unfold totalBase totalQuote totalFor
  cases hs : env.order.side
  · simp only [if_true]; omega
  · simp only [reduceCtorEq, if_false]; omega

theorem calls_amounts {book book' : Book} {g g' : Ledger} {cs : List (Env × OrderResult)} (h : Calls book g cs book' g') :
    sumFills (tradesOf cs) (takerBase g.market) = ((totalsFor g.market cs).map totalBase).sum ∧
    sumFills (tradesOf cs) (takerQuote g.market) - takerFeesOf cs = ((totalsFor g.market cs).map totalQuote).sum := by
  induction h with
  | nil => exact ⟨rfl, rfl⟩
  | cons env r cs book book1 book' g g1 g' hc _ ih =>
    obtain ⟨C⟩ := callRun hc
    have hlots := C.lots
    have e : totalsFor g1.market cs = totalsFor g.market cs := by
      unfold totalsFor totalFor
      rw [hlots.base, hlots.quote]
    have e1 : takerBase g1.market = takerBase g.market := by funext f; unfold takerBase; rw [hlots.base]
    have e2 : takerQuote g1.market = takerQuote g.market := by funext f; unfold takerQuote fillQuote; rw [hlots.quote]
    rw [e, e1, e2] at ih
    obtain ⟨i1, i2⟩ := ih
    obtain ⟨c1, c2⟩ := call_amounts hc
    have et : tradesOf ((env, r) :: cs) = r.fills ++ tradesOf cs := by simp [tradesOf]
    have ef : takerFeesOf ((env, r) :: cs) = r.takerFees + takerFeesOf cs := by simp [takerFeesOf]
    have es : ∀ v, sumFills (r.fills ++ tradesOf cs) v = sumFills r.fills v + sumFills (tradesOf cs) v := fun v => by
      simp [sumFills, List.map_append, List.sum_append]
    rw [et, ef, es, es]
    by_cases hf : r.fills = []
    · have e0 : totalsFor g.market ((env, r) :: cs) = totalsFor g.market cs := by unfold totalsFor; simp [hf]
      have := C.noFills hf
      have z : ∀ v, sumFills r.fills v = 0 := fun v => by rw [hf]; rfl
      rw [e0, z, z]
      omega
    · have e0 : totalsFor g.market ((env, r) :: cs) = totalFor g.market env r :: totalsFor g.market cs := by unfold totalsFor; simp [hf]
      rw [e0, List.map_cons, List.map_cons, List.sum_cons, List.sum_cons]
      omega

/-- Fees rounded up one by one and all together. -/
theorem fee_sum {m : Market} {ls : List FillLog} {fs : List FillEvent} (h : ReportAll m ls fs) :
    othersQuote fs * m.quoteLotSize * m.takerFee ≤ (ls.map (·.takerFeeCeil)).sum * 1000000 ∧
      (ls.map (·.takerFeeCeil)).sum * 1000000 ≤ othersQuote fs * m.quoteLotSize * m.takerFee + fs.length * 999999 := by
  induction h with
  | nil => simp [othersQuote]
  | @cons l f ls fs w _ ih =>
    obtain ⟨i1, i2⟩ := ih
    have e : othersQuote (f :: fs) = (if f.maker = f.taker then 0 else f.quantity * f.price) + othersQuote fs := by simp [othersQuote]
    rw [e, List.map_cons, List.sum_cons, Int.add_mul, Int.add_mul, List.length_cons]
    have hl : l.takerFeeCeil * 1000000 ≥ (if f.maker = f.taker then 0 else f.quantity * f.price) * m.quoteLotSize * m.takerFee ∧
        l.takerFeeCeil * 1000000 ≤ (if f.maker = f.taker then 0 else f.quantity * f.price) * m.quoteLotSize * m.takerFee + 999999 := by
      by_cases hk : f.maker = f.taker
      · rw [if_pos hk, (w.self hk).2]; simp
      · rw [if_neg hk]
        obtain ⟨c1, c2⟩ := w.takerFee hk
        refine ⟨c1, ?_⟩
        refine Int.not_lt.mp (fun hc => ?_)
        have := c2 (l.takerFeeCeil - 1) (by omega)
        omega
    have e2 : ((l.takerFeeCeil : Int) + (ls.map (·.takerFeeCeil)).sum) * 1000000 =
      l.takerFeeCeil * 1000000 + (ls.map (·.takerFeeCeil)).sum * 1000000 := Int.add_mul _ _ _
    push_cast
    obtain ⟨l1, l2⟩ := hl
    generalize (if f.maker = f.taker then 0 else f.quantity * f.price) * m.quoteLotSize * m.takerFee = z at *
    generalize othersQuote fs * m.quoteLotSize * m.takerFee = y at *
    generalize (ls.map (·.takerFeeCeil)).sum = w at *
    constructor <;> omega

/-- Runs. -/
theorem Spec.LogRun.reachable {s s' : State} {ops : List Op} {L : List Log} (hr : Reachable s) (h : LogRun s ops s' L) : Reachable s' := by
  induction h with
  | nil => exact hr
  | snoc op _ h2 _ ih => exact .step _ _ _ ih h2

theorem run_rates {s s' : State} {ops : List Op} {L : List Log} (hr : Reachable s) (h : LogRun s ops s' L) :
    SameRates s.g.market s'.g.market := by
  induction h with
  | nil => exact .refl _
  | snoc op h1 h2 _ ih => exact ih.trans (step_rates (h1.reachable hr) h2)

theorem run_tells {s s' : State} {ops : List Op} {L : List Log} (hr : Reachable s) (h : LogRun s ops s' L) :
    ∃ made told, Tells s s' made told L ∧
      s'.g.market.makerVolume = s.g.market.makerVolume + ((fillLogs L).map (reportedValue s.g.market)).sum := by
  induction h with
  | nil => exact ⟨[], [], ⟨rfl, .nil, by simp⟩, by simp [fillLogs]⟩
  | snoc op h1 h2 h3 ih =>
    obtain ⟨m1, t1, i1, i2⟩ := ih
    obtain ⟨L', m2, t2, j1, j2, j3, _⟩ := step_tells (h1.reachable hr) h2
    rw [h3] at j1
    injection j1 with j1
    subst j1
    have hrt := run_rates hr h1
    refine ⟨_, _, i1.trans hrt j2, ?_⟩
    rw [j3.market, i2, fillLogs_append, List.map_append, List.sum_append, hrt.reported]
    omega

theorem run_account {s s' : State} {ops : List Op} {L : List Log} (hr : Reachable s) (h : LogRun s ops s' L) {k : Pubkey} {a : OOA}
    (ha : s.g.accts.get? k = some a) (hc : ∀ op ∈ ops, ∀ o, op ≠ .closeOO k o) :
    ∃ a', s'.g.accts.get? k = some a' ∧
      a'.position.makerVolume = a.position.makerVolume + (((fillLogs L).filter (fun l => l.maker = k)).map (reportedValue s.g.market)).sum ∧
      a'.position.takerVolume = a.position.takerVolume + (((totalLogs L).filter (fun t => t.taker = k)).map totalValue).sum := by
  induction h with
  | nil => exact ⟨a, ha, by simp [fillLogs], by simp [totalLogs]⟩
  | snoc op h1 h2 h3 ih =>
    obtain ⟨a1, b1, b2, b3⟩ := ih (fun op hop => hc op (by simp [hop]))
    have hr1 := h1.reachable hr
    obtain ⟨L', m2, t2, j1, _, j3, _⟩ := step_tells hr1 h2
    rw [h3] at j1
    injection j1 with j1
    subst j1
    have hrt := run_rates hr h1
    rcases (step_accts (reachable_Inv hr1) h2).old k a1 b1 with ⟨a2, c1, _⟩ | ⟨_, c1, _⟩
    · refine ⟨a2, c1, ?_, ?_⟩
      · rw [j3.makers k a1 a2 b1 c1, b2, fillLogs_append, List.filter_append, List.map_append, List.sum_append, hrt.reported]
        omega
      · rw [j3.takers k a1 a2 b1 c1, b3, totalLogs_append, List.filter_append, List.map_append, List.sum_append]
        omega
    · exact absurd c1 (hc op (by simp) _)

theorem run_positions {s s' : State} {ops : List Op} {L : List Log} (hr : Reachable s) (h : LogRun s ops s' L) {k : Pubkey} {a : OOA}
    (ha : s.g.accts.get? k = some a) (hc : ∀ op ∈ ops, ∀ o, op ≠ .closeOO k o) :
    ∃ a', s'.g.accts.get? k = some a' ∧ (a'.position.makerVolume, a'.position.takerVolume) = volumesRead L k a := by
  induction h with
  | nil => exact ⟨a, ha, rfl⟩
  | snoc op h1 h2 h3 ih =>
    obtain ⟨a1, b1, b2⟩ := ih (fun op hop => hc op (by simp [hop]))
    have hr1 := h1.reachable hr
    obtain ⟨L', m2, t2, j1, _, j3, _⟩ := step_tells hr1 h2
    rw [h3] at j1
    injection j1 with j1
    subst j1
    rcases (step_accts (reachable_Inv hr1) h2).old k a1 b1 with ⟨a2, c1, _⟩ | ⟨_, c1, _⟩
    · exact ⟨a2, c1, by rw [volumesRead_append _ _ k a a1 b2]; exact j3.positions k a1 a2 b1 c1⟩
    · exact absurd c1 (hc op (by simp) _)

/-! ### positions of makers -/

/-- The last record shows the position. -/
def ShownAs (L : List Log) (k : Pubkey) (a a' : OOA) : Prop :=
  (∃ l, lastPosition L k = some l ∧ Shows l a'.position) ∨ (lastPosition L k = none ∧ a' = a)

theorem lastPosition_append (A B : List Log) (k : Pubkey) : lastPosition (A ++ B) k = (lastPosition B k).or (lastPosition A k) := by
  unfold lastPosition positionLogs
  rw [List.filterMap_append, List.filter_append, List.getLast?_append]

theorem ShownAs.trans {A B : List Log} {k : Pubkey} {a b c : OOA} (h1 : ShownAs A k a b) (h2 : ShownAs B k b c) : ShownAs (A ++ B) k a c := by
  unfold ShownAs
  rw [lastPosition_append]
  rcases h2 with ⟨l, h2, h3⟩ | ⟨h2, rfl⟩
  · exact .inl ⟨l, by rw [h2]; rfl, h3⟩
  · rw [h2, Option.none_or]
    exact h1

theorem event_position {g g1 : Ledger} {e : Event} {L : List Log} {k : Pubkey} {a : OOA} (hl : applyEventLogs g e = .ok L)
    (h : applyEvent g e = .ok g1) (hk : ∀ o, e = .out o → o.owner ≠ k) (ha : g.accts.get? k = some a) :
    ∃ a', g1.accts.get? k = some a' ∧ ShownAs L k a a' := by
  cases e with
  | fill f =>
    simp only [applyEvent, bind_ok, pure_ok, Accts.get_ok] at h
    obtain ⟨b, hb, ⟨b', m'⟩, hx, rfl⟩ := h
    simp only [applyEventLogs, (Accts.get_ok).mpr hb, ok_bind] at hl
    obtain ⟨l, h1, _⟩ := makerLogs_run hx
    rw [hl] at h1
    injection h1 with h1
    subst h1
    by_cases hj : k = f.maker
    · subst hj
      refine ⟨b', Accts.get?_set_self _ hb, .inl ⟨⟨f.maker, b'.position.bidsBaseLots, b'.position.bidsQuoteLots, b'.position.asksBaseLots,
        b'.position.baseFreeNative, b'.position.quoteFreeNative, b'.position.lockedMakerFees, b'.position.referrerRebatesAvailable,
        b'.position.makerVolume, b'.position.takerVolume⟩, ?_, ⟨rfl, rfl, rfl, rfl, rfl, rfl, rfl, rfl, rfl⟩⟩⟩
      simp [lastPosition, positionLogs, positionLog]
    · refine ⟨a, by simp only; rw [Accts.get?_set_ne _ hj]; exact ha, .inr ⟨?_, rfl⟩⟩
      simp [lastPosition, positionLogs, positionLog, Ne.symm hj]
  | out o =>
    simp only [applyEvent, bind_ok, pure_ok, Accts.get_ok] at h
    obtain ⟨b, hb, b', hx, rfl⟩ := h
    injection hl with hl
    subst hl
    exact ⟨a, by simp only; rw [Accts.get?_set_ne _ (Ne.symm (hk o rfl))]; exact ha, .inr ⟨rfl, rfl⟩⟩

theorem consume_position {rem : List Pubkey} {todo : List Nat} {g g' : Ledger} {L : List Log} {k : Pubkey} {a : OOA}
    (hh : ∃ q, HeapRep g.heap q) (h : consumeLoop rem todo g = .ok g') (hl : consumeLoopLogs rem todo g = .ok L)
    (hk : ∀ o, .out o ∈ g.heap.events → o.owner ≠ k) (ha : g.accts.get? k = some a) :
    ∃ a', g'.accts.get? k = some a' ∧ ShownAs L k a a' := by
  induction todo generalizing g L a with
  | nil => cases h; injection hl with hl; subst hl; exact ⟨a, ha, .inr ⟨rfl, rfl⟩⟩
  | cons slot rest ih =>
    simp only [consumeLoop, bind_ok, unwrapR_ok] at h
    obtain ⟨e, he, h⟩ := h
    unfold consumeLoopLogs at hl
    rw [(unwrapR_ok).mpr he, ok_bind] at hl
    split at h
    · rename_i ht
      rw [if_pos ht] at hl
      simp only [bind_ok] at h
      obtain ⟨g1, hx, ⟨x, h'⟩, hd, h⟩ := h
      obtain ⟨L1, d1, k1, _, k3⟩ := emits_event hh he hx hd
      rw [k1, ok_bind, hx, ok_bind, hd, ok_bind] at hl
      simp only [bind_ok, pure_ok] at hl
      obtain ⟨L2, hl2, rfl⟩ := hl
      obtain ⟨q, hq⟩ := hh
      have hmem : e ∈ g.heap.events := by
        rw [hq.events]
        exact List.mem_map.mpr ⟨_, (atSlot_some hq).mp he, rfl⟩
      obtain ⟨a1, c1, c2⟩ := event_position k1 hx (fun o ho => hk o (ho ▸ hmem)) ha
      have hg1 : g1.heap = g.heap := by
        cases e <;> simp only [applyEvent, bind_ok, pure_ok] at hx
        · obtain ⟨_, _, ⟨_, _⟩, _, rfl⟩ := hx; rfl
        · obtain ⟨_, _, _, _, rfl⟩ := hx; rfl
      rw [hg1] at hd
      obtain ⟨_, A, B, e1, e2⟩ := events_delete hq he hd
      obtain ⟨a2, c3, c4⟩ := ih k3.heap h hl2 (fun o ho => hk o (by
        have : Event.out o ∈ h'.events := ho
        rw [e2] at this
        rw [e1]
        simp only [List.mem_append, List.mem_cons] at this ⊢
        rcases this with h | h
        · exact .inl h
        · exact .inr (.inr h))) c1
      exact ⟨a2, c3, c2.trans c4⟩
    · rename_i ht
      rw [if_neg ht] at hl
      exact ih hh h hl hk ha

end OB
