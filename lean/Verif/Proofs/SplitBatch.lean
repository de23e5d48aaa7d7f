import Verif.Proofs.SplitIx
import Verif.Proofs.Again
/-! The end of the batch (C87). -/
namespace OB
open Spec

theorem MultiRun.same {s s' : State} {c : MultiCtx} {cancel : Bool} {orders : List Order} {limit : Nat} {rs : List OrderResult}
    (P : MultiRun s c cancel orders limit rs s') :
    P.s1.tokens = s.tokens ∧ P.s1.lamports = s.lamports ∧ P.s1.marketKey = s.marketKey ∧ P.s1.closed = s.closed ∧
      P.s1.g.market = s.g.market ∧ P.s1.g.heap = s.g.heap := by
  rcases P.cancelled with ⟨_, h⟩ | ⟨_, q, hc⟩
  · rw [h]; exact ⟨rfl, rfl, rfl, rfl, rfl, rfl⟩
  · unfold cancelAllFor at hc
    simp only [bind_ok, pure_ok] at hc
    obtain ⟨a, _, ⟨_, b, a'⟩, _, hc⟩ := hc
    injection hc with _ hc
    rw [← hc]
    exact ⟨rfl, rfl, rfl, rfl, rfl, rfl⟩

theorem batch_at {s s' : State} {c : MultiCtx} {cancel : Bool} {orders : List Order} {limit : Nat} {rs : List OrderResult} (hr : Reachable s)
    (P : MultiRun s c cancel orders limit rs s') (hB : (s.tokens c.userBase).owner = c.signer) (hQ : (s.tokens c.userQuote).owner = c.signer)
    (hne : c.userBase ≠ c.userQuote) (hf : SupplyFits s [c.userBase, c.userQuote, s.g.market.marketBaseVault, s.g.market.marketQuoteVault]) :
    BatchAt P.s1 c P.nowTs := by
  have hi := reachable_Inv hr
  obtain ⟨hi1, hf1⟩ := P.start hi
  obtain ⟨e1, e2, e3, e4, e5, e6⟩ := P.same
  obtain ⟨a, a1, a2, a3, a4, a5⟩ := authPlace_ok P.auth
  obtain ⟨a', ha', o1, o2, _⟩ := hf1.accts _ _ a1
  have mq := P.mintQ
  have mb := P.mintB
  unfold mintIs at mq mb
  rw [req_ok] at mq mb
  have hvb := hi.vb.owner
  have hvq := hi.vq.owner
  refine ⟨hi1, by rw [e4]; exact a2, by rw [e5]; exact a3, ⟨a', ha', by rw [isOwnerOrDelegate_congr o1 o2]; exact a4⟩, by rw [e5]; exact a5,
    by rw [e1, e5]; exact P.mintQ, by rw [e1, e5]; exact P.mintB, by rw [e5]; exact P.live, P.now, ?_, by rw [e1]; exact hB, by rw [e1]; exact hQ,
    hne, ?_, ?_, ?_, ?_⟩
  · have := P.oracle
    unfold oracleOk at this ⊢
    rw [e5]; exact this
  · unfold tokens; rw [e1]; exact hf.1 _ (by simp)
  · unfold tokens; rw [e1]; exact hf.1 _ (by simp)
  · unfold tokens; rw [e1, e5]
    exact hf.2 _ (by simp) _ (by simp) (fun e => a3 (by rw [← hB, e, hvb])) mb.1
  · unfold tokens; rw [e1, e5]
    exact hf.2 _ (by simp) _ (by simp) (fun e => a3 (by rw [← hQ, e, hvq])) mq.1

theorem entries_length (bids asks : List MultiArgs) : (entries bids asks).length = bids.length + asks.length := by
  simp [entries]

theorem entries_id {bids asks : List MultiArgs} {e : Side × Nat × MultiArgs} (h : e ∈ entries bids asks) : e.2.1 < bids.length + asks.length := by
  unfold entries at h
  rw [List.mem_append, List.mem_map, List.mem_map] at h
  rcases h with ⟨x, hx, rfl⟩ | ⟨x, hx, rfl⟩
  · have := List.snd_lt_of_mem_zipIdx hx; simp only; omega
  · have := List.snd_lt_of_mem_zipIdx hx; simp only; omega

theorem batch_one_by_one {s s' : State} (hr : Reachable s) {c : MultiCtx} {cancel : Bool} {t : PlaceOrderType} {bids asks : List MultiArgs}
    {limit : Nat} (h : step s (.placeOrders c cancel t bids asks limit) = .ok s') (hB : (s.tokens c.userBase).owner = c.signer)
    (hQ : (s.tokens c.userQuote).owner = c.signer) (hne : c.userBase ≠ c.userQuote)
    (hf : SupplyFits s [c.userBase, c.userQuote, s.g.market.marketBaseVault, s.g.market.marketQuoteVault])
    (hpen : owes s c.ooKey + (bids.length + asks.length) ≤ u64Max) :
    ∃ s1 s'' x y p, ((cancel = false ∧ s1 = s) ∨ (cancel = true ∧ step s (.cancelAll c.signer c.ooKey none 255) = .ok s1)) ∧
      OneByOne c t limit s1 (entries bids asks) s'' ∧ PaidFromWallet c s' s'' x y p ∧ 0 ≤ x ∧ 0 ≤ y ∧
      owes s' c.ooKey - owes s c.ooKey = min 1 (owes s'' c.ooKey - owes s c.ooKey) ∧ (∃ a, s'.g.accts.get? c.ooKey = some a) ∧
      c.userBase ≠ s'.g.market.marketBaseVault ∧ c.userBase ≠ s'.g.market.marketQuoteVault ∧
      c.userQuote ≠ s'.g.market.marketBaseVault ∧ c.userQuote ≠ s'.g.market.marketQuoteVault := by
  have h' : (do return (← placeOrdersIx s c cancel t bids asks limit).2) = .ok s' := h
  unfold placeOrdersIx at h'
  simp only [bind_ok, pure_ok, req_ok] at h'
  obtain ⟨⟨rs, s2⟩, ⟨_, hl, nowTs, hnow, bs, hbs, as, has, hP⟩, rfl⟩ := h'
  obtain ⟨P⟩ := cancelAllAndPlace_inv hP
  have hi := reachable_Inv hr
  have hr1 := P.reach hr
  obtain ⟨hi1, hf1⟩ := P.start hi
  obtain ⟨e1, e2, e3, e4, e5, e6⟩ := P.same
  have B := batch_at hr P hB hQ hne hf
  have hnw : nowTs = P.nowTs := by have := P.now; rw [hnow] at this; injection this
  subst hnw
  have hbuilt : Built t P.nowTs (entries bids asks) (bs ++ as) := (multiOrders_built hbs).append (multiOrders_built has)
  have A0 := Alike.start hr1 B (fun a ha => by
    obtain ⟨k1, k2, _⟩ := hi1.core.linv.acctOk ha; exact ⟨k1.1, k2.1⟩)
  obtain ⟨a0, ha0, _⟩ := authPlace_ok P.auth
  obtain ⟨a1, ha1, _, _, _, _, hpp⟩ := hf1.accts _ _ ha0
  have ow : owes P.s1 c.ooKey = owes s c.ooKey := by rw [owes_some ha0, owes_some ha1, hpp]
  have hp0 := (reachable_accts hr _ _ ha0).1
  rw [← owes_some ha0] at hp0
  have hloop := P.loop
  rw [← e1] at hloop
  obtain ⟨σ, d, n, hone, A, hn⟩ := Alike.loop B hr1 hl hbuilt A0 (fun e he => by
    have := entries_id he; unfold u64Max at hpen; unfold two64; omega) (by rw [ow, entries_length]; push_cast; omega) hloop
  obtain ⟨a, ha, _, hpa, u1, u2, hin, hnd⟩ := A.acct B hr1
  -- the batch pays
  have hb1 := P.lockB
  rw [show P.g1 = P.g1.gap c.ooKey .zero from (Ledger.gap_zero _ _).symm] at hb1
  obtain ⟨dB, eB⟩ := lockAsk_gap_inv _ hnd ha hb1
  have hb2 := P.lockQ
  rw [eB] at hb2
  obtain ⟨dQ, eQ⟩ := lockBid_gap_inv _ hnd ha hb2
  have hb3 := P.pen
  rw [eQ] at hb3
  have eP := addPenalty_gap_inv _ hnd ha hb3
  have hz : Gap.zero.base = 0 := rfl
  have hz2 : (Gap.zero.moreBase (min P.b (a.position.baseFreeNative - Gap.zero.base)) P.depB).quote = 0 := rfl
  obtain ⟨d0, g0, hb0, hq0, hdb, hdq, hdp⟩ : ∃ d0 : Gap, P.g4 = P.g1.gap c.ooKey d0 ∧ d0.base = min P.b a.position.baseFreeNative ∧
      d0.quote = min P.q a.position.quoteFreeNative ∧ d0.depBase = P.depB ∧ d0.depQuote = P.depQ ∧
      d0.pen = if P.g1.heap.len > s.g.heap.len then 1 else 0 := by
    refine ⟨_, eP, ?_, ?_, ?_, ?_, ?_⟩
    · show 0 + min P.b (a.position.baseFreeNative - 0) = _; rw [Int.sub_zero, Int.zero_add]
    · show 0 + min P.q (a.position.quoteFreeNative - 0) = _; rw [Int.sub_zero, Int.zero_add]
    · show 0 + P.depB = _; rw [Int.zero_add]
    · show 0 + P.depQ = _; rw [Int.zero_add]
    · show 0 + _ = _; rw [Int.zero_add]
  rw [hz, Int.sub_zero] at dB
  rw [hz2, Int.sub_zero] at dQ
  have sb := A.base
  have sq := A.quote
  have i1 := hin.base
  have i2 := hin.quote
  obtain ⟨db0, _⟩ := A.depB
  obtain ⟨dq0, _⟩ := A.depQ
  obtain ⟨p0, _⟩ := A.pen
  obtain ⟨hh1, hh2⟩ := A.heap
  rw [e6] at hh1 hh2
  have r1 := P.res
  have gσ : σ.g = P.g1.gap c.ooKey d := (congrArg State.g A.res :)
  have gs : s2.g = P.g1.gap c.ooKey d0 := by rw [congrArg State.g r1]; exact g0
  have ts : s2.tokens = P.t2 := (congrArg State.tokens r1 :)
  have k1 := fun k => tokenTransfer_spec P.tr1 (by have := dQ; omega) k
  have k2 := fun k => tokenTransfer_spec P.tr2 (by have := dB; omega) k
  have as' : s2.g.accts.get? c.ooKey = some (a.gap d0) := by rw [gs]; exact gap_acct d0 ha
  have aσ : σ.g.accts.get? c.ooKey = some (a.gap d) := by rw [gσ]; exact gap_acct d ha
  have xb : d.depBase - d0.depBase = d0.base - d.base := by omega
  have xq : d.depQuote - d0.depQuote = d0.quote - d.quote := by omega
  have hmk : s2.g.market.marketBaseVault = s.g.market.marketBaseVault ∧ s2.g.market.marketQuoteVault = s.g.market.marketQuoteVault := by
    rw [gs, show (P.g1.gap c.ooKey d0).market = P.g1.market.gap d0 from rfl, A.frame.cfg, e5]; exact ⟨rfl, rfl⟩
  refine ⟨P.s1, σ, d.depBase - d0.depBase, d.depQuote - d0.depQuote, d.pen - d0.pen, P.start_step, hone,
    ⟨?_, ?_, ?_, ?_, ?_, ?_, ?_, ?_, ?_, ?_⟩, by omega, by omega, ?_, ⟨_, as'⟩, ?_⟩
  · rw [congrArg State.book r1]; exact (congrArg State.book A.res :)
  · rw [gs, gσ]; rfl
  · rw [gs, gσ]
    simp only [Market.gap, Ledger.gap]
    rw [show P.g1.market.baseDepositTotal + d0.depBase + (d.depBase - d0.depBase) = P.g1.market.baseDepositTotal + d.depBase by omega,
      show P.g1.market.quoteDepositTotal + d0.depQuote + (d.depQuote - d0.depQuote) = P.g1.market.quoteDepositTotal + d.depQuote by omega]
  · intro k hk
    rw [gs, gσ]
    show (P.g1.accts.gap _ d).get? k = (P.g1.accts.gap _ d0).get? k
    rw [Accts.gap_get?, Accts.gap_get?]
    simp only [if_neg hk]
  · intro x hx
    rw [as'] at hx
    injection hx with hx
    subst hx
    rw [aσ]
    simp only [OOA.gap]
    rw [show a.position.baseFreeNative - d0.base + (d.depBase - d0.depBase) = a.position.baseFreeNative - d.base by omega,
      show a.position.quoteFreeNative - d0.quote + (d.depQuote - d0.depQuote) = a.position.quoteFreeNative - d.quote by omega,
      show a.position.penaltyHeapCount + d0.pen + (d.pen - d0.pen) = a.position.penaltyHeapCount + d.pen by omega]
  · rw [(congrArg State.lamports A.res :), congrArg State.lamports r1]; exact e2
  · rw [(congrArg State.marketKey A.res :), congrArg State.marketKey r1]; exact e3
  · rw [(congrArg State.closed A.res :), congrArg State.closed r1]; exact e4
  · intro k
    rw [(A.kind k).1, (A.kind k).2, ts, (k2 k).1, (k2 k).2.1, (k1 k).1, (k1 k).2.1, e1]
    exact ⟨rfl, rfl⟩
  · intro k
    rw [A.tok k, hmk.1, hmk.2, e5]
    have t0 : tokens (rs, s2).2 k = tokens s k + moved k c.userBase s.g.market.marketBaseVault d0.depBase +
        moved k c.userQuote s.g.market.marketQuoteVault d0.depQuote := by
      unfold tokens
      rw [ts, (k2 k).2.2, (k1 k).2.2, hdb, hdq]
      unfold moved
      omega
    have m1 := Alike.moved_add k c.userBase s.g.market.marketBaseVault d0.depBase (d.depBase - d0.depBase)
    have m2 := Alike.moved_add k c.userQuote s.g.market.marketQuoteVault d0.depQuote (d.depQuote - d0.depQuote)
    rw [show d0.depBase + (d.depBase - d0.depBase) = d.depBase by omega] at m1
    rw [show d0.depQuote + (d.depQuote - d0.depQuote) = d.depQuote by omega] at m2
    have t1 : tokens P.s1 k = tokens s k := by unfold tokens; rw [e1]
    omega
  · have q1 : owes s2 c.ooKey = owes s c.ooKey + d0.pen := by rw [owes_some as', ← ow, ← hpa]; rfl
    have q2 : owes σ c.ooKey = owes s c.ooKey + d.pen := by rw [owes_some aσ, ← ow, ← hpa]; rfl
    rw [show ((rs, s2).2 : State) = s2 from rfl, q1, q2]
    split at hdp <;> omega
  · have := B.ne
    rw [e5] at this
    show c.userBase ≠ s2.g.market.marketBaseVault ∧ c.userBase ≠ s2.g.market.marketQuoteVault ∧ _ ≠ s2.g.market.marketBaseVault ∧
      _ ≠ s2.g.market.marketQuoteVault
    rw [hmk.1, hmk.2]; exact this

end OB
