import Mathlib.Algebra.BigOperators.Group.Finset.Basic
import Mathlib.Algebra.BigOperators.Ring.Finset
import Verif.Spec.Penalty
import Verif.Proofs.StepAcct
import Verif.Proofs.Crank
import Verif.Proofs.Facts
/-! Penalties: who runs them up, who pays them. -/
namespace OB
open Spec

theorem heap_len {h : EventHeap} {q : List (Nat × Event)} (hr : HeapRep h q) : h.len = h.events.length := by
  rw [hr.events, List.length_map]
  obtain ⟨fr, hf⟩ := hr
  exact hf.count

theorem Inv.heap_len {s : State} (hi : Inv s) : s.g.heap.len = s.g.heap.events.length := by
  obtain ⟨O, q, hw⟩ := hi.core.linv
  exact OB.heap_len hw.heap

theorem owes_congr {s s' : State} (h : s'.g.accts = s.g.accts) (k : Pubkey) : owes s' k = owes s k := by
  unfold owes; rw [h]

theorem owes_some {s : State} {k : Pubkey} {a : OOA} (h : s.g.accts.get? k = some a) : owes s k = a.position.penaltyHeapCount := by
  unfold owes; rw [h]

theorem owes_none {s : State} {k : Pubkey} (h : s.g.accts.get? k = none) : owes s k = 0 := by
  unfold owes; rw [h]

theorem LFrame.owes {s s' : State} (h : LFrame s.g s'.g) (k : Pubkey) : owes s' k = owes s k := by
  cases ha : s.g.accts.get? k with
  | none => rw [owes_none ha, owes_none (h.get?_none ha)]
  | some a =>
    obtain ⟨a', ha', _, _, _, _, e⟩ := h.accts k a ha
    rw [owes_some ha, owes_some ha', e]

/-- What an instruction does to penalties and lamports. -/
inductive PenStep (s : State) (op : Op) (s' : State) : Prop
  | order (k : Pubkey) (hop : orderAccount op = some k) (self : owes s' k = owes s k + if Grows s s' then 1 else 0)
      (other : ∀ j, j ≠ k → owes s' j = owes s j) (lam : s'.lamports = s.lamports)
  | take (c : TakeCtx) (a : PlaceOrderArgs) (hop : op = .placeTakeOrder c a) (same : ∀ j, owes s' j = owes s j)
      (lam : ∀ t, s'.lamports t = s.lamports t + moved t c.penaltyPayer s.marketKey (if Grows s s' then 500 else 0))
  | settle (c : SettleCtx) (hop : op = .settleFunds c ∨ ∃ admin now, op = .settleFundsExpired admin c now)
      (self : owes s' c.ooKey = 0) (other : ∀ j, j ≠ c.ooKey → owes s' j = owes s j) (queue : s'.g.heap = s.g.heap)
      (lam : ∀ t, s'.lamports t = s.lamports t + moved t c.penaltyPayer s.marketKey (owes s c.ooKey * 500))
  | other (h1 : orderAccount op = none) (h2 : lamportPayer op = none) (same : ∀ j, owes s' j = owes s j)
      (lam : s'.lamports = s.lamports ∨ ∃ k x, op = .externalLamports k x ∧ s'.lamports = fun i => if i = k then x else s.lamports i)
      (queue : s'.g.heap.events.length ≤ s.g.heap.events.length)

theorem systemTransfer_exact {l l' : Lamports} {x : Int} {src dst : Pubkey} (h0 : 0 ≤ x) (h : systemTransfer l x src dst = .ok l') (t : Pubkey) :
    l' t = l t + moved t src dst x := by
  unfold systemTransfer at h
  unfold moved
  split at h
  · simp only [bind_ok, req_ok] at h
    obtain ⟨_, h1, h⟩ := h
    split at h
    · cases h
      rename_i e; subst e
      omega
    · rename_i hne
      simp only [bind_ok, ckU64_ok, pure_ok] at h
      obtain ⟨_, ⟨_, rfl⟩, rfl⟩ := h
      simp only
      split
      · rename_i e; subst e
        rw [if_neg (fun e => hne e.symm)]; omega
      · split
        · rename_i e; subst e; omega
        · omega
  · cases h
    have : x = 0 := by omega
    subst this; simp

theorem Asks.orderAccount {s : State} {op : Op} {c : PlaceCtx} {o : Order} {l : Nat} (h : Asks s op c o l) :
    orderAccount op = some c.ooKey := by
  cases h <;> rfl

theorem AsksEdit.orderAccount {s : State} {op : Op} {c : PlaceCtx} {n : Nat} {e : Int} {o : Order} {l : Nat}
    (h : AsksEdit s op c n e o l) : orderAccount op = some c.ooKey := by
  cases h <;> rfl

/-- Balances are taken from an account, with no change of its penalties. -/
structure Draws (g : Ledger) (k : Pubkey) (g' : Ledger) : Prop where
  heap : g'.heap = g.heap
  other : ∀ j, j ≠ k → g'.accts.get? j = g.accts.get? j
  self : ∀ a, g.accts.get? k = some a → ∃ a', g'.accts.get? k = some a' ∧ a'.position.penaltyHeapCount = a.position.penaltyHeapCount
  gone : g.accts.get? k = none → g'.accts.get? k = none

theorem Draws.trans {g1 g2 g3 : Ledger} {k : Pubkey} (h1 : Draws g1 k g2) (h2 : Draws g2 k g3) : Draws g1 k g3 := by
  refine ⟨h2.heap.trans h1.heap, fun j hj => (h2.other j hj).trans (h1.other j hj), fun a ha => ?_, fun h => h2.gone (h1.gone h)⟩
  obtain ⟨b, hb, e1⟩ := h1.self a ha
  obtain ⟨c, hc, e2⟩ := h2.self b hb
  exact ⟨c, hc, e2.trans e1⟩

theorem lockBid_draws {g g' : Ledger} {k : Pubkey} {amt dep : Int} (h : lockBid g k amt = .ok (g', dep)) : Draws g k g' := by
  obtain ⟨a, hl⟩ := lockBid_inv h
  rw [hl.res]
  refine ⟨rfl, fun j hj => Accts.get?_set_ne _ hj, ?_, fun h => by rw [hl.acct] at h; cases h⟩
  intro b hb
  rw [hl.acct] at hb; injection hb with hb; subst hb
  exact ⟨_, Accts.get?_set_self _ hl.acct, rfl⟩

theorem lockAsk_draws {g g' : Ledger} {k : Pubkey} {amt dep : Int} (h : lockAsk g k amt = .ok (g', dep)) : Draws g k g' := by
  obtain ⟨a, hl⟩ := lockAsk_inv h
  rw [hl.res]
  refine ⟨rfl, fun j hj => Accts.get?_set_ne _ hj, ?_, fun h => by rw [hl.acct] at h; cases h⟩
  intro b hb
  rw [hl.acct] at hb; injection hb with hb; subst hb
  exact ⟨_, Accts.get?_set_self _ hl.acct, rfl⟩

/-- The end of every placing instruction: the funds are taken, then the penalty is added. -/
theorem penStep_order {s s' : State} {op : Op} {k : Pubkey} {g1 g2 : Ledger} (hi : Inv s) (hi' : Inv s') (hop : orderAccount op = some k)
    {a : OOA} (ha : s.g.accts.get? k = some a) (h1 : LFrame s.g g1) (h2 : Draws g1 k g2) (h3 : addPenalty g2 k s.g.heap.len = .ok s'.g)
    (hl : s'.lamports = s.lamports) : PenStep s op s' := by
  obtain ⟨b, hb, _, _, _, _, e1⟩ := h1.accts k a ha
  obtain ⟨c, hc, e2⟩ := h2.self b hb
  have hgrow : g2.heap.len > s.g.heap.len ↔ Grows s s' := by
    unfold Grows
    rw [← hi.heap_len, ← hi'.heap_len]
    rcases addPenalty_inv h3 with e | ⟨_, _, _, _, e⟩ <;> rw [e]
  have hother : ∀ j, j ≠ k → g2.accts.get? j = g1.accts.get? j := h2.other
  have mid : ∀ (t : State), t.g = g1 → ∀ j, owes t j = owes s j := fun t ht j => by
    subst ht; exact h1.owes j
  have fin : ∀ j, j ≠ k → s'.g.accts.get? j = g1.accts.get? j := by
    intro j hj
    rcases addPenalty_inv h3 with e | ⟨_, _, _, _, e⟩
    · rw [e, hother j hj]
    · rw [e]; exact (Accts.get?_set_ne _ hj).trans (hother j hj)
  refine .order k hop ?_ ?_ hl
  · unfold addPenalty at h3
    by_cases hg : g2.heap.len > s.g.heap.len
    · rw [if_pos hg] at h3
      simp only [bind_ok, pure_ok, ckU64_ok, Accts.get_ok] at h3
      obtain ⟨c', hc', _, ⟨_, rfl⟩, h3⟩ := h3
      rw [hc] at hc'; injection hc' with hc'; subst hc'
      rw [if_pos (hgrow.mp hg), owes_some ha, owes_some (s := s') (by rw [← h3]; exact Accts.get?_set_self _ hc)]
      show c.position.penaltyHeapCount + 1 = _
      omega
    · rw [if_neg hg] at h3
      injection h3 with h3
      rw [if_neg (fun h => hg (hgrow.mpr h)), owes_some ha, owes_some (s := s') (by rw [← h3]; exact hc)]
      omega
  · intro j hj
    rw [← mid { s with g := g1 } rfl j]
    unfold owes; rw [fin j hj]

theorem PlaceRun.draws {s s' : State} {c : PlaceCtx} {order : Order} {limit : Nat} {r : OrderResult}
    (P : PlaceRun s c order limit r s') : Draws P.g1 c.ooKey P.g2 := by
  have hl := P.lock
  cases hs : order.side with
  | bid => rw [hs] at hl; exact lockBid_draws hl
  | ask => rw [hs] at hl; exact lockAsk_draws hl

theorem penStep_same {s s' : State} {op : Op} (h1 : orderAccount op = none) (h2 : lamportPayer op = none) (ha : s'.g.accts = s.g.accts)
    (hl : s'.lamports = s.lamports) (hq : s'.g.heap = s.g.heap) : PenStep s op s' :=
  .other h1 h2 (owes_congr ha) (.inl hl) (by rw [hq])

theorem SettleRun.pen {s s' : State} {c : SettleCtx} (P : SettleRun s c s') (hp : 0 ≤ P.a.position.penaltyHeapCount) {op : Op}
    (hop : op = .settleFunds c ∨ ∃ admin now, op = .settleFundsExpired admin c now) : PenStep s op s' := by
  have hg : s'.g.accts = s.g.accts.set c.ooKey (P.a.settled s.g.market) := by rw [congrArg State.g P.res]
  refine .settle c hop ?_ ?_ (by rw [congrArg State.g P.res]) ?_
  · rw [owes_some (s := s') (by rw [hg]; exact Accts.get?_set_self _ P.acct)]; rfl
  · intro j hj
    unfold owes; rw [hg, Accts.get?_set_ne _ hj]
  · intro t
    rw [owes_some P.acct]
    have hl : s'.lamports = P.lamports := by rw [congrArg State.lamports P.res]
    rw [hl]
    have h := P.penalty
    split at h
    · simp only [bind_ok, ckU64_ok] at h
      obtain ⟨_, ⟨hx, rfl⟩, h⟩ := h
      exact systemTransfer_exact hx.1 h t
    · injection h with h
      have : P.a.position.penaltyHeapCount = 0 := by omega
      rw [← h, this]; unfold moved; simp

theorem penStep {s s' : State} {op : Op} (hr : Reachable s) (h : step s op = .ok s') : PenStep s op s' := by
  have hi := reachable_Inv hr
  have hi' := step_Inv hi h
  cases step_run h with
  | idle op c hop auth same =>
    subst same
    have : orderAccount op = some c.ooKey := by cases op <;> cases hop <;> rfl
    exact .order _ this (by rw [if_neg (fun h : Grows s' s' => absurd h (Nat.lt_irrefl _))]; omega) (fun _ _ => rfl) rfl
  | place op c o l r hop P =>
    exact penStep_order hi hi' hop.orderAccount P.hacct (P.fx hi hop.typed).frame1 P.draws (by rw [congrArg State.g P.res]; exact P.pen)
      (by rw [congrArg State.lamports P.res])
  | edit op c client e o l r hop P =>
    obtain ⟨q, s1, h1, _, h2⟩ := P.run
    obtain ⟨_, h3⟩ := cancelByClientId_inv h1
    obtain ⟨_, _, _, _, _, _, _, _, _, hi1⟩ := cancelAllFor_res hi h3
    obtain ⟨_, f1, m1, hh, _⟩ := cancelAllFor_frame hi h3
    obtain ⟨a, _, _, _, ha, hs1, _⟩ := cancelAllFor_res hi h3
    rcases h2 with ⟨e1, e2, r1, _, h4⟩ | ⟨_, _, rfl⟩
    · obtain ⟨P⟩ := placeOrder_inv h4
      have ho : OrderTyped { o with maxBaseLots := o.maxBaseLots - (e - q) } :=
        ⟨by have := hop.typed.base1; show o.maxBaseLots - (e - q) ≤ _; omega, hop.typed.quote1, hop.typed.price, hop.typed.peg⟩
      refine penStep_order hi hi' hop.orderAccount ha (f1.trans (P.fx hi1 ho).frame1) P.draws ?_ ?_
      · rw [congrArg State.g P.res, ← hh]; exact P.pen
      · rw [congrArg State.lamports P.res]
        show s1.lamports = s.lamports
        have := congrArg State.lamports hs1
        exact this
    · refine .order _ hop.orderAccount ?_ (fun j _ => f1.owes j) (by rw [hs1])
      rw [if_neg (fun h : Grows _ _ => by unfold Grows at h; rw [hh] at h; exact absurd h (Nat.lt_irrefl _)), f1.owes]; omega
  | multi c cancel t bids asks l now bs as rs hn hb ha P =>
    obtain ⟨hi1, f1⟩ := P.start hi
    have f2 := (multiLoop_res hi1.core (multiTyped hb ha) (Int.le_refl _) (Int.le_refl _) P.loop).2.1
    obtain ⟨a, hacct, _⟩ := authPlace_ok P.auth
    exact penStep_order hi hi' rfl hacct (f1.trans f2) ((lockAsk_draws P.lockB).trans (lockBid_draws P.lockQ))
      (by rw [congrArg State.g P.res]; exact P.pen) (by rw [congrArg State.lamports P.res])
  | take c a o r ho P =>
    have hfx := P.fx hi (takeOrder_typed ho)
    have hg : s'.g = P.g2 := by rw [congrArg State.g P.res]
    have hacc : s'.g.accts = P.g1.accts := by rw [hg, congrArg Ledger.accts hfx.amts.res]
    have hgrow : P.g2.heap.len > s.g.heap.len ↔ Grows s s' := by
      unfold Grows
      rw [← hi.heap_len, ← hi'.heap_len, hg]
    refine .take c a rfl ?_ ?_
    · intro j
      have := hfx.frame1.owes (s := s) (s' := { s with g := P.g1 }) j
      rw [← this]; unfold owes; rw [hacc]
    · intro t
      have hl : s'.lamports = P.lamports := by rw [congrArg State.lamports P.res]
      rw [hl]
      have h := P.penalty
      by_cases hc : P.g2.heap.len > s.g.heap.len
      · rw [if_pos hc] at h
        rw [if_pos (hgrow.mp hc)]
        exact systemTransfer_exact (by decide) h t
      · rw [if_neg hc] at h
        injection h with h
        rw [if_neg (fun h => hc (hgrow.mpr h)), ← h]; unfold moved; simp
  | consume op admin limit slots rem hop hh =>
    have hcr : IsCrank op := by rcases hop with ⟨rfl, _⟩ | ⟨rfl, _⟩ <;> trivial
    obtain ⟨es, _, h2, d⟩ := crank_step hi hcr h
    have h1 : orderAccount op = none ∧ lamportPayer op = none := by rcases hop with ⟨rfl, _⟩ | ⟨rfl, _⟩ <;> exact ⟨rfl, rfl⟩
    exact .other h1.1 h1.2 (consumeEvents_Inv hi hh).2.owes (.inl d.lamports) h2.length_le
  | cancelOne signer k id hh =>
    obtain ⟨a, oo, leaf, a', book', _, _, _, e, _⟩ := cancelOrderIx_res hi hh
    exact .other rfl rfl (cancelOrderIx_frame hi hh).owes (.inl (by rw [e])) (by rw [e])
  | cancel op signer k limit so co a q hop auth hh =>
    obtain ⟨_, f, _, e, _⟩ := cancelAllFor_frame hi hh
    obtain ⟨_, _, _, _, _, e2, _⟩ := cancelAllFor_res hi hh
    have h1 : orderAccount op = none ∧ lamportPayer op = none := by rcases hop with ⟨rfl, _⟩ | ⟨rfl, _⟩ <;> exact ⟨rfl, rfl⟩
    exact .other h1.1 h1.2 f.owes (.inl (by rw [e2])) (by rw [e])
  | prune admin k now limit q auth exp hc =>
    obtain ⟨_, f, _, e, _⟩ := cancelAllFor_frame hi hc
    obtain ⟨_, _, _, _, _, e2, _⟩ := cancelAllFor_res hi hc
    exact .other rfl rfl f.owes (.inl (by rw [e2])) (by rw [e])
  | deposit op signer k ub uq now b q b0 q0 hop P =>
    have h1 : orderAccount op = none ∧ lamportPayer op = none := by rcases hop with rfl | rfl <;> exact ⟨rfl, rfl⟩
    have hs := P.res
    refine .other h1.1 h1.2 ?_ (.inl (by rw [hs])) (by rw [hs])
    intro j
    by_cases hj : j = k
    · subst hj
      rw [owes_some P.acct, owes_some (s := s') (by rw [hs]; exact Accts.get?_set_self _ P.acct)]
    · unfold owes; rw [hs]; simp only; rw [Accts.get?_set_ne _ hj]
  | settle c h P => exact P.pen (reachable_accts hr _ _ P.acct).1 (.inl rfl)
  | settleExpired admin c now h P =>
    exact P.pen (reachable_accts hr _ _ P.acct).1 (.inr ⟨_, _, rfl⟩)
  | sweep admin receiver h =>
    obtain ⟨_, _, _, t, _, h⟩ := sweepFees_inv h
    exact penStep_same rfl rfl (by rw [h]) (by rw [h]) (by rw [h])
  | setExpired admin now auth live res => exact penStep_same rfl rfl (by rw [res]) (by rw [res]) (by rw [res])
  | close admin now P => exact penStep_same rfl rfl (by rw [P.res]) (by rw [P.res]) (by rw [P.res])
  | createOO k owner d _ _ hn res =>
    refine .other rfl rfl ?_ (.inl (by rw [res])) (by rw [res])
    intro j
    unfold owes
    rw [res]; simp only [Accts.get?_append, Accts.get?_cons, Accts.get?_nil]
    cases s.g.accts.get? j with
    | some a => rfl
    | none =>
      by_cases hj : k = j
      · rw [if_pos hj]; rfl
      · rw [if_neg hj]; rfl
  | closeOO k owner a ha hown hp res =>
    obtain ⟨O, qs, hw⟩ := hi.core.linv
    refine .other rfl rfl ?_ (.inl (by rw [res])) (by rw [res])
    intro j
    by_cases hj : j = k
    · subst hj
      rw [owes_some ha, hp.pen, owes_none]
      rw [res]; simp only [Accts.get?_del hw.ginv.nodup, if_true]
    · unfold owes; rw [res]; simp only [Accts.get?_del hw.ginv.nodup, if_neg hj]
  | delegate k owner d a ha hown res =>
    refine .other rfl rfl ?_ (.inl (by rw [res])) (by rw [res])
    intro j
    by_cases hj : j = k
    · subst hj
      rw [owes_some ha, owes_some (s := s') (by rw [res]; exact Accts.get?_set_self _ ha)]
    · unfold owes; rw [res]; simp only; rw [Accts.get?_set_ne _ hj]
  | token k t _ _ res => exact penStep_same rfl rfl (by rw [res]) (by rw [res]) (by rw [res])
  | lamports k x _ _ res =>
    exact .other rfl rfl (owes_congr (by rw [res])) (.inr ⟨k, x, rfl, by rw [res]⟩) (by rw [res])

/-! ### sums -/

theorem penalties_eq {s : State} (hn : (s.g.accts.map (·.1)).Nodup) :
    penalties s = ∑ k ∈ (s.g.accts.map (·.1)).toFinset, owes s k * 500 := by
  rw [List.sum_toFinset _ hn, List.map_map]
  unfold penalties
  congr 1
  apply List.map_congr_left
  intro x hx
  have : s.g.accts.get? x.1 = some x.2 := acct_get hn hx
  simp only [Function.comp]
  rw [owes_some this]

/-- Only the penalties of account `k` change. -/
theorem penalties_change {s s' : State} (hi : Inv s) (hi' : Inv s') (k : Pubkey) (h : ∀ j, j ≠ k → owes s' j = owes s j) :
    penalties s' = penalties s + (owes s' k - owes s k) * 500 := by
  obtain ⟨_, _, hw⟩ := hi.core.linv
  obtain ⟨_, _, hw'⟩ := hi'.core.linv
  rw [penalties_eq hw.ginv.nodup, penalties_eq hw'.ginv.nodup]
  have z : ∀ (t : State) (U : Finset Pubkey), (t.g.accts.map (·.1)).toFinset ⊆ U →
      ∑ j ∈ (t.g.accts.map (·.1)).toFinset, owes t j * 500 = ∑ j ∈ U, owes t j * 500 := by
    intro t U hU
    refine Finset.sum_subset hU (fun j _ hj => ?_)
    have : t.g.accts.get? j = none := by
      cases e : t.g.accts.get? j with
      | none => rfl
      | some a =>
        exact absurd (List.mem_toFinset.mpr ((Accts.isSome_get? (as := t.g.accts) (k := j)).mp (by rw [e]; rfl))) hj
    rw [owes_none this, Int.zero_mul]
  let U := insert k ((s.g.accts.map (·.1)).toFinset ∪ (s'.g.accts.map (·.1)).toFinset)
  rw [z s U (fun j hj => by simp only [U, Finset.mem_insert, Finset.mem_union]; exact .inr (.inl hj)),
    z s' U (fun j hj => by simp only [U, Finset.mem_insert, Finset.mem_union]; exact .inr (.inr hj))]
  have hk : k ∈ U := Finset.mem_insert_self _ _
  rw [← Finset.add_sum_erase U _ hk, ← Finset.add_sum_erase U _ hk]
  have : ∑ x ∈ U.erase k, owes s' x * 500 = ∑ x ∈ U.erase k, owes s x * 500 :=
    Finset.sum_congr rfl (fun x hx => by rw [h x (Finset.ne_of_mem_erase hx)])
  rw [this]
  omega

theorem moved_self {k src : Pubkey} {x : Int} (h : src ≠ k) : moved k src k x = x := by
  unfold moved; rw [if_pos rfl, if_neg (fun e => h e.symm)]; omega

theorem penalties_step {s s' : State} {op : Op} (hr : Reachable s) (h : step s op = .ok s') (hg : NoGifts s.marketKey op) :
    s'.lamports s.marketKey + penalties s' = s.lamports s.marketKey + penalties s + if Grows s s' then 500 else 0 := by
  have hi := reachable_Inv hr
  have hi' := step_Inv hi h
  cases penStep hr h with
  | order k hop self other lam =>
    rw [lam, penalties_change hi hi' k other, self]
    split <;> omega
  | take c a hop same lam =>
    rw [lam, penalties_change hi hi' 0 (fun j _ => same j), same, moved_self (fun e => hg.1 (by rw [hop, ← e]; rfl))]
    omega
  | settle c hop self other queue lam =>
    have hne : c.penaltyPayer ≠ s.marketKey := fun e => hg.1 (by rcases hop with rfl | ⟨_, _, rfl⟩ <;> (rw [← e]; rfl))
    rw [lam, penalties_change hi hi' c.ooKey other, self, moved_self hne,
      if_neg (fun h : Grows s s' => by unfold Grows at h; rw [queue] at h; exact absurd h (Nat.lt_irrefl _))]
    omega
  | other h1 h2 same lam queue =>
    rw [penalties_change hi hi' 0 (fun j _ => same j), same, if_neg (fun h : Grows s s' => absurd h (Nat.not_lt.mpr queue))]
    rcases lam with e | ⟨k, x, e1, e2⟩
    · rw [e]; omega
    · have : s.marketKey ≠ k := fun e => hg.2 x (by rw [e1, e])
      rw [e2]; simp only; rw [if_neg this]; omega

end OB
