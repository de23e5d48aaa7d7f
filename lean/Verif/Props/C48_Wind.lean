import Verif.Proofs.Wind
/-!
C48  An expired market can always be wound down and closed, and everybody gets what is due.
-/
namespace OB
open Spec

/-- From every state of an expired market that is not closed yet: when the queued events are delivered, the admins prune the orders of
every account, settle every account, sweep the fees and close the market.  None of these instructions fails.  Every account gets
exactly what was due to it in the beginning, which in base is all the deposits; the fee receiver gets the rest of the quote.  The
accounts hold nothing and owe no penalties in the end, so that their owners can close them. -/
theorem C48_wind_down (s : State) (hr : Reachable s) (ho : s.closed = false) (w : Winding) (hc : CanWind s w) :
    allDueBase s = s.g.market.baseDepositTotal ∧ allDueQuote s ≤ s.g.market.quoteDepositTotal ∧
    ∃ s', Runs s (windOps s w) s' ∧ s'.closed = true ∧ (∀ k, (s'.g.accts.get? k).isSome = (s.g.accts.get? k).isSome) ∧
      (∀ x ∈ s'.g.accts, HoldsNothing x.2 ∧ x.2.position.penaltyHeapCount = 0) ∧
      (∀ t, tokens s' t = tokens s t +
        (s.g.accts.map (fun x => moved t s.g.market.marketBaseVault (w.base x.1) (dueBase s x.1 x.2) +
          moved t s.g.market.marketQuoteVault (w.quote x.1) (dueQuote s x.1 x.2))).sum +
        moved t s.g.market.marketQuoteVault w.receiver (s.g.market.quoteDepositTotal - allDueQuote s)) ∧
      (∀ t, s'.lamports t = s.lamports t + moved t w.payer s.marketKey (penalties s)) := by
  have hi := reachable_Inv hr
  -- deliver
  obtain ⟨s1, r1, e1, d1⟩ := consume_all hr hc.counters
  have hr1 := r1.reachable hr
  have m1 := d1.market
  have nd1 := nodup_keys hr1
  -- prune
  obtain ⟨s2, r2, P⟩ := prune_all (ks := s1.g.accts.map (·.1)) (now := w.now) hr1 (by rw [d1.closed]; exact ho) (by rw [m1]; exact hc.admin)
    (by rw [m1]; exact hc.expired) nd1 (by
      intro k hk
      rw [d1.keys] at hk
      obtain ⟨x, hx, rfl⟩ := List.mem_map.mp hk
      obtain ⟨a', ha', cr⟩ := d1.accts x.1 x.2 (acct_get (nodup_keys hr) hx)
      refine ⟨a', ha', ?_⟩
      have hq : ∀ e ∈ s.g.heap.events.filter (fun e => eventAccount e = x.1), 0 ≤ eventQuantity e := fun e he =>
        event_qty hi (List.mem_filter.mp he).1
      have t1 := total_nonneg (f := fun e => if eventSide e = .bid then eventQuantity e else 0) (fun e he => by
        have := hq e he
        split <;> omega)
      have t2 := total_nonneg (f := fun e => if eventSide e = .ask then eventQuantity e else 0) (fun e he => by
        have := hq e he
        split <;> omega)
      have hl := hc.lots x hx
      rw [cr.bids, cr.asks]; omega)
  have hr2 := r2.reachable hr1
  have hi2 := reachable_Inv hr2
  have nd2 := nodup_keys hr2
  have hb2 : s2.book.resting = [] := by
    refine List.eq_nil_iff_forall_not_mem.mpr (fun x hx => ?_)
    obtain ⟨f1, f2⟩ := P.orders x hx
    obtain ⟨a, oo, hs⟩ := rest_slot (reachable_Inv hr1) f1
    exact f2 (Accts.isSome_get?.mp (by rw [hs.acct]; rfl))
  have he2 : s2.g.heap.events = [] := by rw [P.heap]; exact e1
  have hO2 : ∀ k, ordersOf s2 k = [] := fun k => by unfold ordersOf; rw [hb2]; rfl
  have hE2 : ∀ k, eventsOf s2 k = [] := fun k => by unfold eventsOf; rw [he2]; rfl
  -- what is due is free
  have keys2 : s2.g.accts.map (·.1) = s.g.accts.map (·.1) := P.keys.trans d1.keys
  have link : ∀ k a, s.g.accts.get? k = some a → ∃ b, s2.g.accts.get? k = some b ∧ b.owner = a.owner ∧
      b.position.penaltyHeapCount = a.position.penaltyHeapCount ∧ b.position.baseFreeNative = dueBase s k a ∧
      b.position.quoteFreeNative = dueQuote s k a := by
    intro k a ha
    obtain ⟨a1, ha1, cr⟩ := d1.accts k a ha
    obtain ⟨a2, ha2, o2, p2⟩ := P.accts k a1 ha1
    obtain ⟨b, hb, _, q1, q2⟩ := ((d1.due e1 k).trans (P.due k)) a ha
    rw [ha2] at hb; injection hb with hb; subst hb
    obtain ⟨w1, w2⟩ := due_idle (a := a2) (hO2 k) (hE2 k)
    exact ⟨a2, ha2, o2.trans cr.owner, p2.trans cr.penalty, by rw [← w1, q1], by rw [← w2, q2]⟩
  have back : ∀ y ∈ s2.g.accts, ∃ x ∈ s.g.accts, x.1 = y.1 ∧ y.2.owner = x.2.owner := by
    intro y hy
    have : y.1 ∈ s.g.accts.map (·.1) := by rw [← keys2]; exact List.mem_map.mpr ⟨y, hy, rfl⟩
    obtain ⟨x, hx, e⟩ := List.mem_map.mp this
    obtain ⟨b, hb, ob, _⟩ := link x.1 x.2 (acct_get (nodup_keys hr) hx)
    have hy' := acct_get nd2 hy
    have e : x.1 = y.1 := e
    rw [← e, hb] at hy'; injection hy' with hy'
    exact ⟨x, hx, e, by rw [← hy']; exact ob⟩
  have sumP : asum (fun a => a.position.penaltyHeapCount * 500) s2.g.accts = penalties s := by
    unfold asum penalties
    rw [map_accts (f := fun x => x.2.position.penaltyHeapCount * 500) keys2 (nodup_keys hr) (fun k a ha => by
      obtain ⟨b, hb, _, p, _⟩ := link k a ha
      exact ⟨b, hb, by simp only [p]⟩)]
  have sumB : asum (fun a => a.position.baseFreeNative) s2.g.accts = allDueBase s := by
    unfold asum allDueBase
    rw [map_accts (f := fun x => dueBase s x.1 x.2) keys2 (nodup_keys hr) (fun k a ha => by
      obtain ⟨b, hb, _, _, p, _⟩ := link k a ha
      exact ⟨b, hb, p⟩)]
  have sumQ : asum (fun a => a.position.quoteFreeNative) s2.g.accts = allDueQuote s := by
    unfold asum allDueQuote
    rw [map_accts (f := fun x => dueQuote s x.1 x.2) keys2 (nodup_keys hr) (fun k a ha => by
      obtain ⟨b, hb, _, _, _, p⟩ := link k a ha
      exact ⟨b, hb, p⟩)]
  have m2 : s2.g.market = s1.g.market := P.market
  rw [m1] at m2
  have t2 : s2.tokens = s.tokens := P.tokens.trans d1.tokens
  have l2 : s2.lamports = s.lamports := P.lamports.trans d1.lamports
  have mk2 : s2.marketKey = s.marketKey := by rw [runs_marketKey hr1 r2, runs_marketKey hr r1]
  have T2 : ∀ t, tokens s2 t = tokens s t := fun t => by unfold tokens; rw [t2]
  -- settle
  have room : WRoom s2 w s2.g.accts := by
    refine ⟨fun y hy => ?_, fun y hy => ?_, fun y hy => ?_, fun y hy => ?_, fun y hy => ?_, ?_, fun y hy => ?_⟩
    · obtain ⟨x, hx, e, o⟩ := back y hy
      rw [m2, o]; exact (reachable_accts hr x.1 x.2 (acct_get (nodup_keys hr) hx)).2
    · obtain ⟨x, hx, e, o⟩ := back y hy
      rw [t2, o, ← e]; exact hc.owned x hx
    · obtain ⟨x, hx, e, o⟩ := back y hy
      rw [t2, m2, ← e]; exact hc.mints x hx
    · obtain ⟨x, hx, e, o⟩ := back y hy
      rw [T2, T2, ← e]; exact hc.amounts x hx
    · obtain ⟨x, hx, e, o⟩ := back y hy
      rw [T2, T2, m2, ← e]; exact hc.room x hx
    · rw [sumP, l2, mk2]; exact hc.penalty
    · exact (reachable_accts hr2 y.1 y.2 (acct_get nd2 hy)).1
  obtain ⟨s3, r3, A⟩ := settle_all hr2 (by rw [P.closed, d1.closed]; exact ho) (by rw [m2]; exact hc.admin) (by rw [m2]; exact hc.expired)
    (by rw [m2]; exact hc.payer) (by rw [m2]; exact hc.exist) nd2 (fun x hx => acct_get nd2 hx) room
  have hr3 := r3.reachable hr2
  have nd3 := nodup_keys hr3
  have M3 := A.market
  rw [sumB, sumQ] at M3
  have hold : ∀ x ∈ s3.g.accts, HoldsNothing x.2 ∧ x.2.position.penaltyHeapCount = 0 := by
    intro x hx
    have hx3 := acct_get nd3 hx
    by_cases hk : x.1 ∈ s2.g.accts.map (·.1)
    · obtain ⟨y, hy, e⟩ := List.mem_map.mp hk
      have e : y.1 = x.1 := e
      have := A.done y hy
      rw [e, hx3] at this; injection this with this
      rw [this]
      exact ⟨(idle_settled hi2 (reachable_Extra hr2) (acct_get nd2 hy) (hO2 _) (hE2 _)).1, rfl⟩
    · have := A.others x.1 hk
      rw [hx3] at this
      exact absurd (Accts.isSome_get?.mp (by rw [← this]; rfl)) hk
  -- sweep and close
  have qd3 : s3.g.market.quoteDepositTotal = s.g.market.quoteDepositTotal - allDueQuote s := by rw [M3, m2]
  have bd3 : s3.g.market.baseDepositTotal = s.g.market.baseDepositTotal - allDueBase s := by rw [M3, m2]
  have recv3 : tokens s3 w.receiver + s3.g.market.quoteDepositTotal ≤ u64Max ∧ 0 ≤ tokens s3 w.receiver := by
    obtain ⟨v1, v2, v3, v4⟩ := hc.receiver
    have hmint : s.g.market.baseMint ≠ s.g.market.quoteMint := reachable_mints hr
    obtain ⟨p1, p2⟩ := payouts_le (m := s2.g.market) (w := w) (xs := s2.g.accts) (t := w.receiver)
      (fun e => by
        have := hi.vb.mint
        rw [m2] at e
        rw [show s.g.market.marketBaseVault = w.receiver from e.symm, v1] at this
        exact hmint this.symm)
      (by rw [m2]; exact v2)
      (fun y hy e => by
        obtain ⟨x, hx, e1, _⟩ := back y hy
        have := (hc.mints x hx).1
        rw [e1, ← e, v1] at this
        exact hmint this.symm)
      (fun y hy => (hi2.core.linv.acctOk (acct_get nd2 hy)).2.1.1)
    rw [sumQ] at p2
    rw [A.tokens, T2, qd3]; omega
  obtain ⟨zb, s4, r4, c4, T4, a4, l4⟩ := sweep_close (now := w.now) (recv := w.receiver) hr3 (by rw [A.closed, P.closed, d1.closed]; exact ho)
    (by rw [M3, m2]; exact hc.admin) (by rw [M3, m2]; exact hc.expired) (by rw [M3, m2]; exact hc.exist.2) (by rw [A.book]; exact hb2)
    (by rw [A.heap]; exact he2) (fun x hx => (hold x hx).1) (by rw [(A.owners _).2, M3, m2, t2]; exact hc.receiver.1) recv3.2 recv3.1
  have q3 := (reachable_Inv hr3).vq.total
  unfold inU64 at q3
  refine ⟨by omega, by omega, s4, ?_, c4, ?_, ?_, ?_, ?_⟩
  · unfold windOps
    have f1 : s1.g.market.closeMarketAdmin = s.g.market.closeMarketAdmin := by rw [m1]
    have f2 : s2.g.market.closeMarketAdmin = s.g.market.closeMarketAdmin := by rw [m2]
    have f3 : s3.g.market.closeMarketAdmin = s.g.market.closeMarketAdmin := by rw [M3, m2]
    have f4 : s3.g.market.collectFeeAdmin = s.g.market.collectFeeAdmin := by rw [M3, m2]
    rw [f1, d1.keys, List.map_map] at r2
    have e3 : s2.g.accts.map (fun x => settleOp s.g.market.closeMarketAdmin w x.1) =
        s.g.accts.map (fun x => settleOp s.g.market.closeMarketAdmin w x.1) := by
      have := congrArg (List.map (settleOp s.g.market.closeMarketAdmin w)) keys2
      rw [List.map_map, List.map_map] at this
      exact this
    rw [f2, e3] at r3
    rw [f3, f4] at r4
    exact ((r1.append r2).append r3).append r4
  · intro k
    have e : (s2.g.accts.get? k).isSome = (s.g.accts.get? k).isSome := by
      rw [Bool.eq_iff_iff, Accts.isSome_get?, Accts.isSome_get?, keys2]
    rw [a4, ← e]
    by_cases hk : k ∈ s2.g.accts.map (·.1)
    · have h2 := Accts.isSome_get?.mpr hk
      obtain ⟨y, hy, rfl⟩ := List.mem_map.mp hk
      rw [A.done y hy, h2]; rfl
    · rw [A.others k hk]
  · rw [a4]; exact hold
  · intro t
    rw [T4, A.tokens, T2, qd3]
    unfold payouts
    rw [map_accts (f := fun x => moved t s.g.market.marketBaseVault (w.base x.1) (dueBase s x.1 x.2) +
      moved t s.g.market.marketQuoteVault (w.quote x.1) (dueQuote s x.1 x.2)) keys2 (nodup_keys hr) (fun k a ha => by
        obtain ⟨b, hb, _, _, p, q⟩ := link k a ha
        exact ⟨b, hb, by simp only [p, q, m2]⟩), M3, m2]
  · intro t
    rw [l4, A.lamports, l2, mk2, sumP]

/-! Three accounts with resting orders and two queued fills, on a market that the admin has declared expired. -/
namespace WindCase
open Scenario

def winding : Winding := { payer := 31, base := fun k => k + 10, quote := fun k => k + 20, receiver := 61, now := 1001 }

def canWindB (s : State) (w : Winding) : Bool := decide (
  s.g.market.closeMarketAdmin ≠ 0 ∧ s.g.market.isExpired w.now = true ∧ w.payer ≠ s.g.market.marketAuthority ∧
  s.g.market.baseMint ≠ 0 ∧ s.g.market.quoteMint ≠ 0 ∧
  (∀ x ∈ s.g.accts, (s.tokens (w.base x.1)).owner = x.2.owner ∧ (s.tokens (w.quote x.1)).owner = x.2.owner) ∧
  (∀ x ∈ s.g.accts, (s.tokens (w.base x.1)).mint = s.g.market.baseMint ∧ (s.tokens (w.quote x.1)).mint = s.g.market.quoteMint) ∧
  (∀ x ∈ s.g.accts, 0 ≤ Spec.tokens s (w.base x.1) ∧ 0 ≤ Spec.tokens s (w.quote x.1)) ∧
  (∀ x ∈ s.g.accts, Spec.tokens s (w.base x.1) + s.g.market.baseDepositTotal ≤ u64Max ∧
    Spec.tokens s (w.quote x.1) + s.g.market.quoteDepositTotal ≤ u64Max) ∧
  ((s.tokens w.receiver).mint = s.g.market.quoteMint ∧ w.receiver ≠ s.g.market.marketQuoteVault ∧ 0 ≤ Spec.tokens s w.receiver ∧
    Spec.tokens s w.receiver + s.g.market.quoteDepositTotal ≤ u64Max) ∧
  (penalties s ≤ s.lamports w.payer ∧ 0 ≤ s.lamports s.marketKey ∧ s.lamports s.marketKey + penalties s ≤ u64Max) ∧
  (∀ x ∈ s.g.accts, x.2.position.bidsBaseLots + x.2.position.asksBaseLots < 2 ^ 63) ∧
  s.g.market.makerVolume < 2 ^ 126 ∧ s.g.market.feesAccrued < 2 ^ 126 ∧ (∀ x ∈ s.g.accts, x.2.position.makerVolume < 2 ^ 126))

theorem canWindB_spec {s : State} {w : Winding} (h : canWindB s w = true) : CanWind s w := by
  obtain ⟨h1, h2, h3, h4, h5, h6, h7, h8, h9, h10, h11, h12, h13, h14, h15⟩ := of_decide_eq_true h
  exact ⟨h1, h2, h3, ⟨h4, h5⟩, h6, h7, h8, h9, h10, h11, h12, ⟨h13, h14, fun k a ha => h15 (k, a) (acct_mem ha)⟩⟩

example : ∃ s : State, Reachable s ∧ s.closed = false ∧ CanWind s winding ∧
    decide (s.book.resting.length = 4 ∧ s.g.heap.events.length = 2 ∧ s.g.accts.length = 3 ∧ 0 < penalties s) = true := by
  obtain ⟨s, h1, h2⟩ := exec_spec (a := args) (ops := ops1 ++ [.setMarketExpired 2 1000]) (p := fun s =>
    (decide (s.closed = false) && canWindB s winding) &&
    decide (s.book.resting.length = 4 ∧ s.g.heap.events.length = 2 ∧ s.g.accts.length = 3 ∧ 0 < penalties s)) (by decide +kernel)
  rw [Bool.and_eq_true, Bool.and_eq_true, decide_eq_true_eq] at h2
  exact ⟨s, h1, h2.1.1, canWindB_spec h2.1.2, h2.2⟩

end WindCase

end OB
