import Verif.Spec.Expired
import Verif.Proofs.Payable
import Verif.Proofs.Placing
import Verif.Props.C26_Settle
import Verif.Props.C40_Live
/-!
C23 — An expired market accepts no new risk and never reopens; cancelling, consuming and settling remain available.
-/
namespace OB
open Spec

theorem Spec.Cancels.winds {s s' : State} {k : Pubkey} {ls : List (Side × Comp × LeafNode)} (h : Cancels s s' k ls) : WindsDown s s' :=
  ⟨fun x hx => h.book.mem_iff.mpr (List.mem_append_right _ hx), by rw [h.heap], by rw [h.market]; omega, by rw [h.market]; omega⟩

theorem Spec.WindsDown.refl (s : State) : WindsDown s s := ⟨fun _ h => h, List.Sublist.refl _, Int.le_refl _, Int.le_refl _⟩

theorem Spec.WindsDown.trans {s s1 s2 : State} (h1 : WindsDown s s1) (h2 : WindsDown s1 s2) : WindsDown s s2 :=
  ⟨fun x hx => h1.orders x (h2.orders x hx), h2.events.trans h1.events, Int.le_trans h2.base h1.base, Int.le_trans h2.quote h1.quote⟩

/-- On an expired market every instruction only winds down.  A deposit is rejected.  An instruction that is meant to place orders is
rejected or changes nothing (`place_order` with an order that has expired) or, if it is an edit, just cancels. -/
theorem C23_expired (s s' : State) (op : Op) (hr : Reachable s) (h : step s op = .ok s')
    (hx : ∀ now, clock op = some now → s.g.market.isExpired now = true) :
    WindsDown s s' ∧
    (∀ signer k ub uq now b q, op ≠ .deposit signer k ub uq now b q ∧ op ≠ .refill signer k ub uq now b q) ∧
    (∀ p, placer op = some p → s' = s ∨ ∃ client, step s (.cancelByClientId p.signer p.owner client) = .ok s') := by
  have hi := reachable_Inv hr
  have hnd : ∀ signer k ub uq now b q, op ≠ .deposit signer k ub uq now b q ∧ op ≠ .refill signer k ub uq now b q := by
    intro signer k ub uq now b q
    constructor
    all_goals
      rintro rfl
      cases step_run h with
      | idle _ _ h => cases h
      | place _ _ _ _ _ h => cases h
      | edit _ _ _ _ _ _ _ h => cases h
      | consume _ _ _ _ _ h => rcases h with ⟨h, _⟩ | ⟨h, _⟩ <;> cases h
      | cancel _ _ _ _ _ _ _ _ h => rcases h with ⟨h, _⟩ | ⟨h, _⟩ <;> cases h
      | deposit _ _ _ _ _ _ _ _ _ _ h P =>
        rcases h with h | h <;> cases h
        have := hx now rfl
        rw [P.live] at this; cases this
  by_cases hp : placer op = none
  · refine ⟨?_, hnd, fun p e => by rw [hp] at e; cases e⟩
    have N := step_other hr h hp
    have hb : ∀ x ∈ s'.book.resting, x ∈ s.book.resting := by
      rcases N.book with e | ⟨k, ls, hc, _⟩
      · rw [e]; exact fun _ h => h
      · exact hc.winds.orders
    have frame : LFrame s.g s'.g → WindsDown s s' := fun f => ⟨hb, N.events, by rw [f.base]; omega, by rw [f.quote]; omega⟩
    have same : s'.g.market = s.g.market → WindsDown s s' := fun e => ⟨hb, N.events, by rw [e]; omega, by rw [e]; omega⟩
    have settled : ∀ c a, Settles s s' c a → WindsDown s s' := by
      intro c a S
      obtain ⟨k1, k2, _, k4, k5⟩ := hi.core.linv.acctOk S.before
      have h0 : 0 ≤ rebateOf s.g.market a := by
        have := (settleAccounting_ok hr S.before false (fun h => by cases h)).2.2.2
        rw [sweepOf_eq] at this
        unfold inU64 at k4
        unfold rebateOf; omega
      unfold inU64 at k1 k2
      refine ⟨hb, N.events, ?_, ?_⟩ <;> rw [S.market] <;> simp only
      · omega
      · split <;> omega
    cases step_run h with
    | idle _ c hop _ h => exact same (by rw [h])
    | place _ c o l r hop P => cases hop <;> cases hp
    | edit _ c client e o l r hop P => cases hop <;> cases hp
    | multi c cancel t bids asks l now bs as rs hn hb ha P => cases hp
    | take c a o r ho P => cases hp
    | consume op admin limit slots rem hop h => exact frame (consumeEvents_Inv hi h).2
    | cancelOne signer k id h => exact frame (cancelOrderIx_frame hi h)
    | cancel op signer k limit so co a q hop auth h => exact frame (cancelAllFor_frame hi h).2.1
    | prune admin k now limit q auth exp hc => exact frame (cancelAllFor_frame hi hc).2.1
    | deposit op signer k ub uq now b q b0 q0 hop P =>
      rcases hop with e | e
      · exact absurd e (hnd _ _ _ _ _ _ _).1
      · exact absurd e (hnd _ _ _ _ _ _ _).2
    | settle c h P => exact settled c P.a (P.spec hr)
    | settleExpired admin c now h P => exact settled c P.a (P.spec hr)
    | sweep admin receiver h =>
      obtain ⟨_, ha, _, t, _, h⟩ := sweepFees_inv h
      have := hi.core.avail
      unfold inU64 at this
      refine ⟨hb, N.events, ?_, ?_⟩ <;> rw [h] <;> simp only <;> omega
    | setExpired admin now auth live res => refine ⟨hb, N.events, ?_, ?_⟩ <;> rw [res] <;> simp only <;> omega
    | close admin now P => exact same (by rw [P.res])
    | createOO k owner d h _ hn res => exact same (by rw [res])
    | closeOO k owner a ha hown hp res => exact same (by rw [res])
    | delegate k owner d a ha hown res => exact same (by rw [res])
    | token k t _ _ res => exact same (by rw [res])
    | lamports k x _ _ res => exact same (by rw [res])
  · have key : ∀ p, placer op = some p → s' = s ∨ ∃ client, step s (.cancelByClientId p.signer p.owner client) = .ok s' := by
      intro p hpl
      cases step_run h with
      | idle _ c hop _ h => exact .inl h
      | place _ c o l r hop P =>
        have := hx c.now (by cases hop <;> rfl)
        rw [P.live] at this; cases this
      | edit _ c client e o l r hop P =>
        obtain ⟨q, s1, h1, _, h2⟩ := P.run
        have hs1 : step s (.cancelByClientId c.signer c.ooKey client) = .ok s1 := by
          simp only [step, bind_ok, pure_ok]
          exact ⟨(q, s1), h1, rfl⟩
        rcases h2 with ⟨_, _, r1, _, h2⟩ | ⟨_, _, rfl⟩
        · obtain ⟨Q⟩ := placeOrder_inv h2
          have := hx c.now (by cases hop <;> rfl)
          obtain ⟨_, h3⟩ := cancelByClientId_inv h1
          have f := (cancelAllFor_frame hi h3).2.1
          have e : s1.g.market.isExpired c.now = s.g.market.isExpired c.now := by
            unfold Market.isExpired; rw [f.expiry]
          rw [← e, Q.live] at this; cases this
        · right
          refine ⟨client, ?_⟩
          cases hop <;> cases hpl <;> exact hs1
      | multi c cancel t bids asks l now bs as rs hn hb ha P =>
        have := hx c.now rfl
        rw [P.live] at this; cases this
      | take c a o r ho P =>
        have := hx c.now rfl
        rw [P.live] at this; cases this
      | consume op admin limit slots rem hop h => rcases hop with ⟨h, _⟩ | ⟨h, _⟩ <;> (subst h; cases hpl)
      | cancel op signer k limit so co a q hop auth h => rcases hop with ⟨h, _⟩ | ⟨h, _⟩ <;> (subst h; cases hpl)
      | deposit op signer k ub uq now b q b0 q0 hop P => rcases hop with h | h <;> (subst h; cases hpl)
      | _ => cases hpl
    refine ⟨?_, hnd, key⟩
    cases hpl : placer op with
    | none => exact absurd hpl hp
    | some p =>
      rcases key p hpl with rfl | ⟨client, hcl⟩
      · exact .refl _
      · exact (step_other hr hcl rfl).book.elim (fun e => by
          have N := step_other hr hcl rfl
          cases step_run hcl with
          | idle _ _ h => cases h
          | place _ _ _ _ _ h => cases h
          | edit _ _ _ _ _ _ _ h => cases h
          | consume _ _ _ _ _ h => rcases h with ⟨h, _⟩ | ⟨h, _⟩ <;> cases h
          | cancel _ _ _ _ _ _ _ _ _ _ h =>
            have f := (cancelAllFor_frame hi h).2.1
            exact ⟨by rw [e]; exact fun _ h => h, N.events, by rw [f.base]; omega, by rw [f.quote]; omega⟩
          | deposit _ _ _ _ _ _ _ _ _ _ h => rcases h with h | h <;> cases h)
          (fun ⟨_, _, hc, _⟩ => hc.winds)

/-- An expired market stays expired, whatever happens later. -/
theorem C23_stays_expired (s s' : State) (now : Int) (hr : Reachable s) (hx : s.g.market.isExpired now = true) (h : Later now s s') :
    Reachable s' ∧ ∀ t, now ≤ t → s'.g.market.isExpired t = true := by
  have later : ∀ m : Market, m.isExpired now = true → ∀ t, now ≤ t → m.isExpired t = true := by
    intro m h t ht
    unfold Market.isExpired at h ⊢
    simp only [decide_eq_true_eq] at h ⊢
    omega
  induction h with
  | refl => exact ⟨hr, later _ hx⟩
  | step op _ hc h ih =>
    obtain ⟨r1, x1⟩ := ih
    refine ⟨.step _ _ op r1 h, ?_⟩
    rcases (step_cfg (reachable_Inv r1) h).2 with e | ⟨admin, t, rfl, _⟩
    · intro t ht
      have := x1 t ht
      unfold Market.isExpired at this ⊢
      rw [e]; exact this
    · have hn := (setMarketExpired_inv h).2.1
      rw [x1 t (hc t rfl)] at hn; cases hn

/-- Whatever sequence of instructions runs on an expired market, it only winds down. -/
theorem C23_expired_forever (s s' : State) (now : Int) (hr : Reachable s) (hx : s.g.market.isExpired now = true) (h : Later now s s') :
    WindsDown s s' := by
  induction h with
  | refl => exact .refl s
  | step op h1 hc h ih =>
    obtain ⟨r1, x1⟩ := C23_stays_expired s _ now hr hx h1
    exact ih.trans (C23_expired _ _ op r1 h (fun t ht => x1 t (hc t ht))).1

/-- A market is expired by its admin at once and for all time (time is not negative). -/
theorem C23_expired_by_admin (s s' : State) (admin : Pubkey) (now : Int) (h : step s (.setMarketExpired admin now) = .ok s') (t : Int)
    (ht : 0 ≤ t) : s'.g.market.isExpired t = true := by
  obtain ⟨_, _, res⟩ := setMarketExpired_inv h
  rw [res]
  unfold Market.isExpired
  simp only [decide_eq_true_eq]
  omega

/-- A market is expired by time when its expiry lies in the past; 0 stands for no expiry. -/
theorem C23_expired_by_time (s : State) (t : Int) :
    s.g.market.isExpired t = true ↔ s.g.market.timeExpiry ≠ 0 ∧ s.g.market.timeExpiry < t := by
  unfold Market.isExpired
  simp only [decide_eq_true_eq]

/-- Settling never gets stuck: on every market that is not closed, expired or not, whatever the account has is paid out. -/
theorem C23_settle_available (s : State) (hr : Reachable s) (ho : s.closed = false) (c : SettleCtx) (a : OOA) (hc : CanSettle s c a) :
    ∃ s', step s (.settleFunds c) = .ok s' ∧ Settles s s' c a := by
  obtain ⟨s', h⟩ := settleCore_ok hr hc.acct hc.exist hc.mintB hc.mintQ hc.mintR ⟨hc.amounts.1, hc.roomB⟩ ⟨hc.amounts.2.1, hc.roomQ⟩
    (fun r hr => ⟨hc.amounts.2.2 r hr, hc.roomR r hr⟩)
    (fun hn => by have := hc.statistics hn; unfold rebateOf at this; rw [sweepOf_eq]; omega)
    (by
      by_cases hp : 0 < a.position.penaltyHeapCount
      · exact .inr (hc.penalty hp)
      · exact .inl (by omega))
  have h1 : step s (.settleFunds c) = .ok s' :=
    settleFunds_ok ho hc.acct hc.notVaults.1 hc.notVaults.2 hc.signer hc.owned h
  refine ⟨s', h1, ?_⟩
  obtain ⟨b, hb, _⟩ := C26_settle hr h1
  have e : b = a := by have := hb.before; rw [hc.acct] at this; injection this with this; exact this.symm
  rw [← e]; exact hb

namespace ExpiredCase
open Scenario

/-- Resting orders and queued fills when the market expires. -/
def opsX : List Op := ops1 ++ [.setMarketExpired 2 1000]

/-! On an expired market, an edit only cancels; orders are cancelled and fills are delivered. -/
example : ∃ (s s' : State), Reachable s ∧ step s (.editOrder { ctx 0 .bid [] with now := 1001 } 2 4 (limitOrder .bid 980 6 2)) = .ok s' ∧
    decide (s.g.market.isExpired 1001 = true ∧ s'.book.resting.length + 1 = s.book.resting.length) = true :=
  step_spec (a := args) (ops := opsX)
    (p := fun s s' => decide (s.g.market.isExpired 1001 = true ∧ s'.book.resting.length + 1 = s.book.resting.length)) (by decide +kernel)

example : ∃ (s s' : State), Reachable s ∧ step s (.cancelAll 31 41 none 10) = .ok s' ∧
    decide (s.g.market.isExpired 1001 = true ∧ s'.book.resting.length < s.book.resting.length) = true :=
  step_spec (a := args) (ops := opsX)
    (p := fun s s' => decide (s.g.market.isExpired 1001 = true ∧ s'.book.resting.length < s.book.resting.length)) (by decide +kernel)

/-- A run after expiry. -/
theorem run_later {now : Int} {s s' : State} {ops : List Op} (h : run s ops = .ok s')
    (hc : ∀ op ∈ ops, ∀ t, clock op = some t → now ≤ t) : Later now s s' := by
  have key : ∀ (s0 s : State), Later now s0 s → run s ops = .ok s' → Later now s0 s' := by
    clear h
    induction ops with
    | nil => intro s0 s l h; injection h with h; rw [← h]; exact l
    | cons op ops ih =>
      intro s0 s l h
      unfold run at h
      cases h1 : step s op with
      | error e => rw [h1] at h; cases h
      | ok s1 =>
        rw [h1] at h
        exact ih (fun o ho => hc o (List.mem_cons_of_mem _ ho)) s0 s1 (l.step op (hc op List.mem_cons_self) h1) h
  exact key s s .refl h

theorem clocks : ∀ op ∈ [Op.cancelAll 31 41 none 10, .consumeEvents 0 8 [41, 42], .pruneOrders 2 42 1005 3], ∀ t, clock op = some t →
    1001 ≤ t := by
  intro op hop t ht
  simp only [List.mem_cons, List.not_mem_nil, or_false] at hop
  rcases hop with rfl | rfl | rfl <;> cases ht
  decide

theorem winds_runs : okAnd (exec args opsX) (fun s => decide (s.g.market.isExpired 1001 = true) &&
    okAnd (run s [.cancelAll 31 41 none 10, .consumeEvents 0 8 [41, 42], .pruneOrders 2 42 1005 3]) (fun s' =>
      decide (s.book.resting.length = 4 ∧ s'.book.resting.length = 0 ∧ s.g.heap.events.length = 2 ∧ s'.g.heap.events.length = 0))) = true := by
  decide +kernel

example : ∃ (s s' : State), Reachable s ∧ s.g.market.isExpired 1001 = true ∧ Later 1001 s s' ∧ s'.book.resting.length < s.book.resting.length ∧
    s'.g.heap.events.length < s.g.heap.events.length := by
  obtain ⟨s, h1, h2⟩ := okAnd_spec winds_runs
  rw [Bool.and_eq_true, decide_eq_true_eq] at h2
  obtain ⟨s', h3, h4⟩ := okAnd_spec h2.2
  rw [decide_eq_true_eq] at h4
  exact ⟨s, s', exec_reachable h1, h2.1, run_later h3 clocks, by omega, by omega⟩

/-- Everything is there for trader 33 to settle. -/
def ctxS : SettleCtx := { signer := 33, penaltyPayer := 33, ooKey := 43, userBase := 53, userQuote := 63, referrer := some 61 }

def canSettleB (s : State) (c : SettleCtx) : Bool :=
  match s.g.accts.get? c.ooKey with
  | some a => decide (c.signer = a.owner ∧ a.delegate = 0 ∧
      c.signer ≠ s.g.market.marketAuthority ∧ c.penaltyPayer ≠ s.g.market.marketAuthority ∧
      s.g.market.baseMint ≠ 0 ∧ s.g.market.quoteMint ≠ 0 ∧ (s.tokens c.userBase).mint = s.g.market.baseMint ∧
      (s.tokens c.userQuote).mint = s.g.market.quoteMint ∧ c.referrer = some 61 ∧ (s.tokens 61).mint = s.g.market.quoteMint ∧
      0 ≤ Spec.tokens s c.userBase ∧ 0 ≤ Spec.tokens s c.userQuote ∧ 0 ≤ Spec.tokens s 61 ∧
      Spec.tokens s c.userBase + a.position.baseFreeNative ≤ u64Max ∧
      Spec.tokens s c.userQuote + a.position.quoteFreeNative + rebateOf s.g.market a ≤ u64Max ∧
      Spec.tokens s 61 + rebateOf s.g.market a ≤ u64Max ∧ s.g.market.feesToReferrers + rebateOf s.g.market a ≤ u128Max ∧
      a.position.penaltyHeapCount * 500 ≤ s.lamports c.penaltyPayer ∧
      0 ≤ s.lamports s.marketKey ∧ s.lamports s.marketKey + a.position.penaltyHeapCount * 500 ≤ u64Max ∧
      0 < a.position.penaltyHeapCount ∧ 0 < a.position.baseFreeNative ∧ 0 < rebateOf s.g.market a)
  | none => false

theorem settle_runs : okAnd (exec args opsX) (fun s => decide (s.closed = false) && canSettleB s ctxS) = true := by decide +kernel

example : ∃ (s : State) (a : OOA), Reachable s ∧ s.closed = false ∧ CanSettle s ctxS a ∧ 0 < a.position.penaltyHeapCount ∧
    0 < a.position.baseFreeNative ∧ 0 < rebateOf s.g.market a := by
  obtain ⟨s, h1, h2⟩ := exec_spec settle_runs
  rw [Bool.and_eq_true, decide_eq_true_eq] at h2
  obtain ⟨h2, h3⟩ := h2
  unfold canSettleB at h3
  split at h3
  · rename_i a ha
    rw [decide_eq_true_eq] at h3
    obtain ⟨k1, k2, k3, k4, k5, k6, k7, k8, k9, k10, k11, k12, k13, k14, k15, k16, k17, k18, k19, k20, k21, k22, k23⟩ := h3
    refine ⟨s, a, h1, h2, ⟨ha, .inl k1, ?_, ⟨k3, k4⟩, ⟨k5, k6⟩, k7, k8, ?_, ⟨k11, k12, ?_⟩, k14, k15, ?_, fun _ => k17,
      fun _ => ⟨k18, k19, k20⟩⟩, k21, k22, k23⟩
    · rintro (h | h)
      · exact absurd k1 h
      · exact absurd k2 h.1
    all_goals
      intro r hr
      rw [k9] at hr
      injection hr with hr
      rw [← hr]; assumption
  · cases h3

end ExpiredCase

end OB
