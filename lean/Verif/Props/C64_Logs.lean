import Verif.Proofs.LogsRun
import Verif.Props.C26_Settle
import Verif.Props.C31_Take
import Verif.Props.C58_Wealth
/-!
C64  The transaction log tells the truth.

`logs s op` (Model/Logs) is what instruction `op` writes to the transaction log when executed in state `s`.  Indexers and market makers
rebuild trades, volumes and balances from it.
-/
namespace OB
open Spec

/-- Every instruction that succeeds writes its records: the arithmetic for them, which could make it fail, never does. -/
theorem C64_emitted {s s' : State} {op : Op} (hr : Reachable s) (h : step s op = .ok s') : ∃ L, logs s op = .ok L := by
  obtain ⟨L, _, _, h1, _⟩ := step_tells hr h
  exact ⟨L, h1⟩

/-- The records of an instruction that places orders.  It makes calls `cs` of the matching engine.  There is one signature for each fill
of these calls; each record of a fill reports a fill that went to its maker, in this instruction or from the queue, and no fill is
reported that still waits in the queue or left out that does not (`Tells`); and there is one total for each call that traded, which says
exactly what all the fills of the call cost and bring. -/
theorem C64_placing {s s' : State} {op : Op} {p : Placer} {L : List Log} (hr : Reachable s) (h : step s op = .ok s')
    (hp : placer op = some p) (hl : logs s op = .ok L) :
    ∃ s1 cs g1 told, Placement s s1 s' p cs g1 ∧ Tells s s' (tradesOf cs) told L ∧ totalLogs L = totalsFor s.g.market cs := by
  obtain ⟨L', made, told, h1, h2, _, h4⟩ := step_tells hr h
  rw [hl] at h1
  injection h1 with h1
  subst h1
  rcases h4 with ⟨hn, _⟩ | ⟨p', s1, cs, g1, ls, hp', hL, rfl, rfl⟩
  · rw [hp] at hn; cases hn
  · rw [hp] at hp'
    injection hp' with hp'
    subst hp'
    refine ⟨s1, cs, g1, told, hL.place, h2, ?_⟩
    rw [calls_total hL.place.calls hL.calls]

    unfold totalsFor totalFor
    rw [hL.place.market1 hr]

/-- The records of an instruction that places no orders: no signatures and no totals; a record for each fill that it takes out of the
queue. -/
theorem C64_other {s s' : State} {op : Op} {L : List Log} (hr : Reachable s) (h : step s op = .ok s') (hp : placer op = none)
    (hl : logs s op = .ok L) : totalLogs L = [] ∧ ∃ told, Tells s s' [] told L := by
  obtain ⟨L', made, told, h1, h2, _, h4⟩ := step_tells hr h
  rw [hl] at h1
  injection h1 with h1
  subst h1
  rcases h4 with ⟨_, rfl, ht⟩ | ⟨p', s1, cs, g1, ls, hp', _⟩
  · exact ⟨ht, told, h2⟩
  · rw [hp] at hp'; cases hp'

/-- The traded volumes that the market and the accounts keep are the sums of what the records say. -/
theorem C64_volumes {s s' : State} {op : Op} {L : List Log} (hr : Reachable s) (h : step s op = .ok s') (hl : logs s op = .ok L) :
    VolumesTold s s' L := by
  obtain ⟨L', made, told, h1, _, h3, _⟩ := step_tells hr h
  rw [hl] at h1
  injection h1 with h1
  subst h1
  exact h3

/-- From the creation of a market on, over any history: the fills that were ever made, as signed, are those reported in the records
together with those still in the queue.  Nothing is reported twice, nothing is lost. -/
theorem C64_history {a : CreateArgs} {now : Int} {tk : Tokens} {lam : Lamports} {s0 s : State} {ops : List Op} {L : List Log}
    (h0 : createMarket a now tk lam = .ok s0) (h : LogRun s0 ops s L) :
    (∃ made told : List FillEvent, signatures L = made.map (·.marketSeqNum) ∧ ReportAll s.g.market (fillLogs L) told ∧
      made.Perm (told ++ queuedFills s.g)) ∧
    (signatures L).Perm ((fillLogs L).map (·.seqNum) ++ (queuedFills s.g).map (·.marketSeqNum)) ∧
    s.g.market.makerVolume = ((fillLogs L).map (reportedValue s.g.market)).sum := by
  have hr : Reachable s0 := .init a now tk lam s0 h0
  obtain ⟨made, told, h1, h2⟩ := run_tells hr h
  have hrt := run_rates hr h
  have hq : queuedFills s0.g = [] := by
    obtain ⟨_, rfl⟩ := createMarket_inv h0
    rfl
  have hv : s0.g.market.makerVolume = 0 := by
    obtain ⟨_, rfl⟩ := createMarket_inv h0
    rfl
  have hperm := h1.queue
  rw [hq, List.nil_append] at hperm
  have hrep : ReportAll s.g.market (fillLogs L) told := h1.reported.imp (fun _ _ => hrt.symm.reports)
  have hseq := reported_seqs hrep
  refine ⟨⟨made, told, h1.signed, hrep, hperm⟩, ?_, ?_⟩
  · rw [h1.signed, hseq, ← List.map_append]
    exact hperm.map _
  · rw [h2, hv, Int.zero_add, hrt.reported]

/-- The volumes of an account over any history in which it is not closed. -/
theorem C64_account_history {s s' : State} {ops : List Op} {L : List Log} (hr : Reachable s) (h : LogRun s ops s' L) {k : Pubkey} {a : OOA}
    (ha : s.g.accts.get? k = some a) (hc : ∀ op ∈ ops, ∀ o, op ≠ .closeOO k o) :
    ∃ a', s'.g.accts.get? k = some a' ∧
      a'.position.makerVolume = a.position.makerVolume + (((fillLogs L).filter (fun l => l.maker = k)).map (reportedValue s.g.market)).sum ∧
      a'.position.takerVolume = a.position.takerVolume + (((totalLogs L).filter (fun t => t.taker = k)).map totalValue).sum :=
  run_account hr h ha hc

/-- The volumes of an account are those of the last record of its position, over any history in which it is not closed. -/
theorem C64_positions {s s' : State} {ops : List Op} {L : List Log} (hr : Reachable s) (h : LogRun s ops s' L) {k : Pubkey} {a : OOA}
    (ha : s.g.accts.get? k = some a) (hc : ∀ op ∈ ops, ∀ o, op ≠ .closeOO k o) :
    ∃ a', s'.g.accts.get? k = some a' ∧ (a'.position.makerVolume, a'.position.takerVolume) = volumesRead L k a :=
  run_positions hr h ha hc

/-- When events are consumed, and none of them is the removal of an order of `k`: the last record of the position of `k` shows it
completely, and without a record the account is unchanged. -/
theorem C64_maker_position {s s' : State} {op : Op} {admin : Pubkey} {limit : Nat} {slots : List Nat} {rem : List Pubkey} {L : List Log}
    (hr : Reachable s) (h : step s op = .ok s') (hl : logs s op = .ok L)
    (hop : op = .consumeEvents admin limit rem ∨ op = .consumeGivenEvents admin slots rem) {k : Pubkey} {a : OOA}
    (hk : ∀ o, .out o ∈ s.g.heap.events → o.owner ≠ k) (ha : s.g.accts.get? k = some a) :
    ∃ a', s'.g.accts.get? k = some a' ∧
      ((∃ l, lastPosition L k = some l ∧ Shows l a'.position) ∨ (lastPosition L k = none ∧ a' = a)) := by
  obtain ⟨O, q, hw⟩ := (reachable_Inv hr).core.linv
  have main : ∀ n sl, consumeEvents s admin n sl rem = .ok s' → consumeLogs s n sl rem = .ok L → ∃ a', s'.g.accts.get? k = some a' ∧
      ((∃ l, lastPosition L k = some l ∧ Shows l a'.position) ∨ (lastPosition L k = none ∧ a' = a)) := by
    intro n sl h1 h2
    obtain ⟨_, _, todo, g, h3, h4, rfl⟩ := consumeEvents_inv h1
    unfold consumeLogs at h2
    rw [h3, ok_bind] at h2
    exact consume_position ⟨q, hw.heap⟩ h4 h2 hk ha
  rcases hop with rfl | rfl
  · exact main _ _ h hl
  · simp only [step, consumeGivenEvents, bind_ok, req_ok] at h
    obtain ⟨_, _, h⟩ := h
    exact main _ _ h hl

/-- An order placed with an account: what is due to the account afterwards is what the totals say, in addition to what it made as maker
of its own orders and what it paid in. -/
theorem C64_trader {s s' : State} {op : Op} {p : Placer} {L : List Log} (hr : Reachable s) (h : step s op = .ok s')
    (hp : placer op = some p) (ho : p.hasOO = true) (hl : logs s op = .ok L) {a : OOA} (ha : s.g.accts.get? p.owner = some a) :
    ∃ s1 cs g1 a' loss, Placement s s1 s' p cs g1 ∧ s'.g.accts.get? p.owner = some a' ∧
      0 ≤ loss ∧ loss ≤ sumMaker (tradesOf cs) p.owner (makerSlack s.g.market) ∧
      dueBase s' p.owner a' = dueBase s p.owner a + sumMaker (tradesOf cs) p.owner (makerBase s.g.market) +
        ((totalLogs L).map totalBase).sum + (tokens s' s.g.market.marketBaseVault - tokens s s.g.market.marketBaseVault) ∧
      dueQuote s' p.owner a' = dueQuote s p.owner a + sumMaker (tradesOf cs) p.owner (makerQuote s.g.market) - loss +
        ((totalLogs L).map totalQuote).sum + (tokens s' s.g.market.marketQuoteVault - tokens s s.g.market.marketQuoteVault) := by
  obtain ⟨s1, cs, g1, told, P, _, ht⟩ := C64_placing hr h hp hl
  obtain ⟨a', loss, d1, d2, d3, d4, d5⟩ := P.due hr (step_cfg (reachable_Inv hr) h).1.lots p.owner a ha
  obtain ⟨c1, c2⟩ := calls_amounts P.calls
  rw [P.market1 hr] at c1 c2
  rw [if_pos ⟨rfl, ho⟩] at d4 d5
  refine ⟨s1, cs, g1, a', loss, P, d1, d2, d3, ?_, ?_⟩
  · rw [d4, ht]; omega
  · rw [d5, ht]; omega

/-- A take order, placed without an account.  The total says that the taker fee was charged.  It was charged only as far as it is paid
on to makers as rebates: the tokens moved differ from the record by the rest of the fee, to the advantage of the taker. -/
theorem C64_take_partial {s s' : State} {c : TakeCtx} {a : PlaceOrderArgs} {L : List Log} (hr : Reachable s)
    (h : step s (.placeTakeOrder c a) = .ok s') (hl : logs s (.placeTakeOrder c a) = .ok L) :
    ∃ (env : Env) (r : OrderResult) (g1 : Ledger) (t : TotalLog) (rest : Int), TakesAs c a env ∧ EngineCall env s.book s.g r s'.book g1 ∧
      totalLogs L = (if r.fills = [] then [] else [t]) ∧ (r.fills = [] → t.paid = 0 ∧ t.received = 0 ∧ rest = 0) ∧
      t.side = a.side ∧ t.taker = c.signer ∧
      IsCeilFee (sumQuote r.fills * s.g.market.quoteLotSize) s.g.market.takerFee t.fees ∧
      rest = t.fees - (r.fills.map (fillRebate s.g.market)).sum ∧ 0 ≤ rest ∧
      (a.side = .bid → ∀ k, tokens s' k = tokens s k + moved k c.userQuote s.g.market.marketQuoteVault (t.paid - rest) +
        moved k s.g.market.marketBaseVault c.userBase t.received) ∧
      (a.side = .ask → ∀ k, tokens s' k = tokens s k + moved k c.userBase s.g.market.marketBaseVault t.paid +
        moved k s.g.market.marketQuoteVault c.userQuote (t.received + rest)) := by
  cases step_run h with
  | take _ _ o r ho P =>
    have hcall := P.call hr (takeOrder_typed ho)
    have has := takesAs ho P
    obtain ⟨C⟩ := callRun hcall
    obtain ⟨b1, b2, b3, b4, b5⟩ := P.balances hr (takeOrder_typed ho)
    have F := P.fx (reachable_Inv hr) (takeOrder_typed ho)
    have hd := F.amts.depEq
    have hw := F.amts.wdEq
    obtain ⟨f1, f2, f3⟩ := C.fee_split
    have hx := C.feeExact
    rw [C.noSelf rfl, Int.sub_zero] at hx
    have ht := call_total hcall (L := L) (by
      simp only [logs, takeOrderLogs, ho, ok_bind, P.now] at hl
      exact hl)
    have e1 := C.takenQuote
    have e2 := C.takenBase
    refine ⟨_, r, P.g1, _, _, has, hcall, ht, ?_, has.side, rfl, hx, rfl, ?_, ?_, ?_⟩
    · intro hf
      obtain ⟨n1, n2, n3, _⟩ := C.noFills hf
      unfold totalFor
      rw [← e1, ← e2, n1, n2, n3, hf]
      cases hos : o.side <;> simp [hos]
    · unfold totalFor; simp only; omega
    · intro hs k
      have hos : o.side = .bid := by rw [← hs]; exact has.side
      have := b5 k
      simp only [hos, pick_bid] at hd hw this
      unfold totalFor
      simp only [hos, if_true]
      rw [← e1, ← e2]
      have hp : r.totalQuoteTakenNative + r.takerFees - (r.takerFees - (r.fills.map (fillRebate s.g.market)).sum) = P.dep := by omega
      rw [hp, ← hw]
      unfold moved
      omega
    · intro hs k
      have hos : o.side = .ask := by rw [← hs]; exact has.side
      have := b5 k
      simp only [hos, pick_ask] at hd hw this
      unfold totalFor
      simp only [hos, reduceCtorEq, if_false]
      rw [← e1, ← e2]
      have hp : r.totalQuoteTakenNative - r.takerFees + (r.takerFees - (r.fills.map (fillRebate s.g.market)).sum) = P.wd := by omega
      rw [hp, ← hd]
      unfold moved
      omega
  | idle _ _ h => cases h
  | place _ _ _ _ _ h => cases h
  | edit _ _ _ _ _ _ _ h => cases h
  | consume _ _ _ _ _ h => rcases h with ⟨h, _⟩ | ⟨h, _⟩ <;> cases h
  | cancel _ _ _ _ _ _ _ _ h => rcases h with ⟨h, _⟩ | ⟨h, _⟩ <;> cases h
  | deposit _ _ _ _ _ _ _ _ _ _ h => rcases h with h | h <;> cases h

/-- The taker fees in the records of the fills of one order cover the fee charged, and exceed it by less than one unit per fill. -/
theorem C64_fee_sum {env : Env} {book book' : Book} {g g' : Ledger} {r : OrderResult} {ls : List FillLog}
    (h : EngineCall env book g r book' g') (hl : ReportAll g.market ls r.fills) :
    r.takerFees ≤ (ls.map (·.takerFeeCeil)).sum ∧ (r.fills ≠ [] → (ls.map (·.takerFeeCeil)).sum < r.takerFees + r.fills.length) := by
  obtain ⟨C⟩ := callRun h
  have hx := C.feeExact
  obtain ⟨h1, h2⟩ := fee_sum hl
  rw [CallRun.othersQuote_eq] at h1 h2
  refine ⟨hx.2 _ h1, fun hf => ?_⟩
  have hlen : r.fills.length ≠ 0 := fun h0 => hf (List.length_eq_zero_iff.mp h0)
  have := hx.1
  omega

/-- Deposits: the record says which tokens arrived in the vaults and were credited to the account.  Without a record none did. -/
theorem C64_deposit {s s' : State} {op : Op} {signer k ub uq : Pubkey} {now b q : Int} (h : step s op = .ok s')
    (hop : op = .deposit signer k ub uq now b q ∨ op = .refill signer k ub uq now b q) :
    ∃ (b' q' : Int) (a a' : OOA), logs s op = .ok (if b' = 0 ∧ q' = 0 then [] else [.deposit k signer b' q']) ∧
      (∀ j, tokens s' j = tokens s j + moved j ub s.g.market.marketBaseVault b' + moved j uq s.g.market.marketQuoteVault q') ∧
      s.g.accts.get? k = some a ∧ s'.g.accts.get? k = some a' ∧
      a'.position.baseFreeNative = a.position.baseFreeNative + b' ∧ a'.position.quoteFreeNative = a.position.quoteFreeNative + q' ∧
      0 ≤ b' ∧ 0 ≤ q' := by
  have main : ∀ b' q', DepositRun s signer k ub uq now b' q' s' → logs s op = .ok (depositLogs signer k b' q') →
      ∃ (b' q' : Int) (a a' : OOA), logs s op = .ok (if b' = 0 ∧ q' = 0 then [] else [.deposit k signer b' q']) ∧
      (∀ j, tokens s' j = tokens s j + moved j ub s.g.market.marketBaseVault b' + moved j uq s.g.market.marketQuoteVault q') ∧
      s.g.accts.get? k = some a ∧ s'.g.accts.get? k = some a' ∧
      a'.position.baseFreeNative = a.position.baseFreeNative + b' ∧ a'.position.quoteFreeNative = a.position.quoteFreeNative + q' ∧
      0 ≤ b' ∧ 0 ≤ q' := by
    intro b' q' P hL
    have h1 := P.b0
    have h2 := P.q0
    refine ⟨b', q', P.a, { P.a with position := { P.a.position with
      baseFreeNative := P.a.position.baseFreeNative + b', quoteFreeNative := P.a.position.quoteFreeNative + q' } },
      ?_, ?_, P.acct, ?_, rfl, rfl, h1, h2⟩
    · rw [hL]
      unfold depositLogs
      by_cases hz : b' = 0 ∧ q' = 0
      · rw [if_pos hz, if_neg (by omega)]
      · rw [if_neg hz, if_pos (by omega)]
    · intro j
      have t1 := (tokenTransfer_spec P.tr1 h1 j).2.2
      have t2 := (tokenTransfer_spec P.tr2 h2 j).2.2
      have e : tokens s' j = (P.t2 j).amount := by unfold tokens; rw [congrArg State.tokens P.res]
      rw [e, t2, t1]
      unfold tokens moved
      omega
    · rw [congrArg State.g P.res]
      exact Accts.get?_set_self _ P.acct
  rcases hop with rfl | rfl
  · obtain ⟨P⟩ := deposit_inv h
    exact main _ _ P rfl
  · obtain ⟨a, ha, _, _, _, _, h⟩ := refill_inv h
    obtain ⟨P⟩ := deposit_inv h
    refine main _ _ P ?_
    simp only [logs, (Accts.get_ok).mpr ha, ok_bind]; rfl

/-- Settlements: the record says which tokens were paid to the owner and to the referrer; without a referrer the rebate goes to the fees
of the market. -/
theorem C64_settle {s s' : State} {op : Op} {admin : Pubkey} {c : SettleCtx} {now : Int} (hr : Reachable s) (h : step s op = .ok s')
    (hop : op = .settleFunds c ∨ op = .settleFundsExpired admin c now) :
    ∃ b q r : Int, logs s op = .ok [.settle c.ooKey b q r c.referrer] ∧
      (∀ k, tokens s' k = tokens s k + moved k s.g.market.marketBaseVault c.userBase b + moved k s.g.market.marketQuoteVault c.userQuote q +
        movedIf k s.g.market.marketQuoteVault c.referrer r) ∧
      s'.g.market.feesAvailable = s.g.market.feesAvailable + (if c.referrer = none then r else 0) ∧
      s'.g.market.feesToReferrers = s.g.market.feesToReferrers + (if c.referrer = none then 0 else r) := by
  have main : ∀ a, Settles s s' c a → settleCore s c = .ok s' → logs s op = settleLogs s c →
      ∃ b q r : Int, logs s op = .ok [.settle c.ooKey b q r c.referrer] ∧
      (∀ k, tokens s' k = tokens s k + moved k s.g.market.marketBaseVault c.userBase b + moved k s.g.market.marketQuoteVault c.userQuote q +
        movedIf k s.g.market.marketQuoteVault c.referrer r) ∧
      s'.g.market.feesAvailable = s.g.market.feesAvailable + (if c.referrer = none then r else 0) ∧
      s'.g.market.feesToReferrers = s.g.market.feesToReferrers + (if c.referrer = none then 0 else r) := by
    intro a hS hc hL
    obtain ⟨a', r, ha, hs, h1⟩ := settle_logs hc
    have e : a' = a := by have := hS.before; rw [ha] at this; injection this
    subst e
    have hreb : r = rebateOf s.g.market a' := hs.rebateEq
    refine ⟨_, _, r, hL.trans h1, ?_, ?_, ?_⟩
    · rw [hreb]; exact hS.tokens
    · rw [hS.market, hreb]
    · rw [hS.market, hreb]
  rcases hop with rfl | rfl
  · obtain ⟨a, hS, _⟩ := C26_settle hr h
    exact main a hS (settleFunds_inv h).1 rfl
  · obtain ⟨a, hS, _⟩ := C26_settle_expired hr h
    exact main a hS (settleFundsExpired_inv h).1 rfl

/-- Collecting fees: the record says which tokens were paid to whom. -/
theorem C64_sweep {s s' : State} {admin receiver : Pubkey} {L : List Log} (hr : Reachable s) (h : step s (.sweepFees admin receiver) = .ok s')
    (hl : logs s (.sweepFees admin receiver) = .ok L) :
    ∃ x : Int, L = [.sweep x receiver] ∧ ∀ k, tokens s' k = tokens s k + moved k s.g.market.marketQuoteVault receiver x := by
  injection hl with hl
  exact ⟨_, hl.symm, (C29_sweep hr h).1⟩

/-- Delegating: the record names the delegate of the account. -/
theorem C64_delegate {s s' : State} {k owner d : Pubkey} {L : List Log} (h : step s (.setDelegate k owner d) = .ok s')
    (hl : logs s (.setDelegate k owner d) = .ok L) :
    ∃ x a, L = [.delegate k x] ∧ s'.g.accts.get? k = some a ∧ a.delegate = x := by
  injection hl with hl
  obtain ⟨a, ha, _, rfl⟩ := setDelegate_inv h
  exact ⟨_, _, hl.symm, Accts.get?_set_self _ ha, rfl⟩

/-! ### concrete cases -/

namespace Scenario

/-- Run `ops` and collect what they write. -/
def runLogs : State → List Op → R (State × List Log)
  | s, [] => .ok (s, [])
  | s, op :: ops => do
    let s1 ← step s op
    let l ← logs s op
    let (s2, ls) ← runLogs s1 ops
    return (s2, l ++ ls)

theorem logRun_cons {s s1 s' : State} {op : Op} {ops : List Op} {l L : List Log} (h1 : step s op = .ok s1) (h2 : logs s op = .ok l)
    (h : LogRun s1 ops s' L) : LogRun s (op :: ops) s' (l ++ L) := by
  induction h with
  | nil => simpa using LogRun.snoc op (LogRun.nil (s := s)) h1 h2
  | snoc op' _ h3 h4 ih =>
    have := LogRun.snoc op' ih h3 h4
    simpa [List.append_assoc] using this

theorem runLogs_run {s s' : State} {ops : List Op} {L : List Log} (h : runLogs s ops = .ok (s', L)) : LogRun s ops s' L := by
  induction ops generalizing s L with
  | nil =>
    simp only [runLogs, Except.ok.injEq, Prod.mk.injEq] at h
    obtain ⟨rfl, rfl⟩ := h
    exact .nil
  | cons op ops ih =>
    simp only [runLogs, bind_ok, pure_ok, Prod.exists, Prod.mk.injEq] at h
    obtain ⟨s1, h1, l, h2, s2, ls, h3, rfl, rfl⟩ := h
    exact logRun_cons h1 h2 (ih h3)

/-- The taker buys 2 lots at 1007 from 42, 5 at 1010 from 41 and 1 at 1020 from 42; only the fill with 41 is delivered at once. -/
def takeBid : Op := .placeTakeOrder (takeCtx 2) { limitOrder .bid 1030 8 9 with orderType := .immediateOrCancel }

end Scenario

/-- The tokens that a take order moves are not those of the record: it says that 80873 quote were paid, 80840 were. -/
theorem C64_take_false : ∃ (s s' : State) (L : List Log) (t : TotalLog), Reachable s ∧ step s Scenario.takeBid = .ok s' ∧
    logs s Scenario.takeBid = .ok L ∧ totalLogs L = [t] ∧ t.paid = 80873 ∧ t.received = 800 ∧ t.fees = 33 ∧
    tokens s 63 - tokens s' 63 = 80840 ∧ tokens s' 53 - tokens s 53 = 800 := by
  obtain ⟨s, s', hr, h1, h2⟩ := Scenario.step_spec (a := Scenario.args) (ops := Scenario.ops0) (op := Scenario.takeBid)
    (p := fun s s' => Scenario.okAnd (logs s Scenario.takeBid) (fun L => match totalLogs L with
      | [t] => decide (t.paid = 80873 ∧ t.received = 800 ∧ t.fees = 33 ∧ tokens s 63 - tokens s' 63 = 80840 ∧ tokens s' 53 - tokens s 53 = 800)
      | _ => false)) (by decide +kernel)
  obtain ⟨L, h3, h4⟩ := Scenario.okAnd_spec h2
  cases ht : totalLogs L with
  | nil => rw [ht] at h4; cases h4
  | cons t ts =>
    rw [ht] at h4
    cases ts with
    | cons _ _ => cases h4
    | nil =>
      simp only [decide_eq_true_eq] at h4
      exact ⟨s, s', L, t, hr, h1, h3, ht, h4⟩

/-- The fees in the records of the fills of an order are not the fee charged: 9, 21 and 5 for a fee of 33. -/
theorem C64_fee_sum_false : ∃ (s0 s1 s : State) (L1 L2 : List Log) (t : TotalLog), Reachable s0 ∧ LogRun s0 [Scenario.takeBid] s1 L1 ∧
    LogRun s1 [.consumeEvents 0 8 [42]] s L2 ∧ totalLogs L1 = [t] ∧ t.fees = 33 ∧
    (fillLogs (L1 ++ L2)).map (·.takerFeeCeil) = [21, 9, 5] ∧ queuedFills s.g = [] := by
  obtain ⟨s0, hr, h1⟩ := Scenario.exec_spec (a := Scenario.args) (ops := Scenario.ops0)
    (p := fun s => Scenario.okAnd (Scenario.runLogs s [Scenario.takeBid]) (fun x => Scenario.okAnd (Scenario.runLogs x.1 [.consumeEvents 0 8 [42]])
      (fun y => match totalLogs x.2 with
        | [t] => decide (t.fees = 33 ∧ (fillLogs (x.2 ++ y.2)).map (·.takerFeeCeil) = [21, 9, 5] ∧ queuedFills y.1.g = [])
        | _ => false))) (by decide +kernel)
  obtain ⟨⟨s1, L1⟩, h2, h3⟩ := Scenario.okAnd_spec h1
  obtain ⟨⟨s2, L2⟩, h4, h5⟩ := Scenario.okAnd_spec h3
  simp only at h5 h4
  cases ht : totalLogs L1 with
  | nil => rw [ht] at h5; cases h5
  | cons t ts =>
    rw [ht] at h5
    cases ts with
    | cons _ _ => cases h5
    | nil =>
      simp only [decide_eq_true_eq] at h5
      exact ⟨s0, s1, s2, L1, L2, t, hr, Scenario.runLogs_run h2, Scenario.runLogs_run h4, ht, h5⟩

/-- The record of the position of a trader is written before the rest of the order is posted, so it does not show the position in which
the instruction leaves the account: no lots in bids according to the record, 5 in fact. -/
theorem C64_position_false : ∃ (s s' : State) (L : List Log) (l : PositionLog) (a : OOA), Reachable s ∧
    step s (Scenario.place 2 .bid 1010 12 6) = .ok s' ∧ logs s (Scenario.place 2 .bid 1010 12 6) = .ok L ∧ lastPosition L 43 = some l ∧
    s'.g.accts.get? 43 = some a ∧ l.bidsBaseLots = 0 ∧ a.position.bidsBaseLots = 5 ∧ ¬ Shows l a.position := by
  obtain ⟨s, s', hr, h1, h2⟩ := Scenario.step_spec (a := Scenario.args) (ops := Scenario.ops0) (op := Scenario.place 2 .bid 1010 12 6)
    (p := fun s s' => Scenario.okAnd (logs s (Scenario.place 2 .bid 1010 12 6)) (fun L => match lastPosition L 43, s'.g.accts.get? 43 with
      | some l, some a => decide (l.bidsBaseLots = 0 ∧ a.position.bidsBaseLots = 5)
      | _, _ => false)) (by decide +kernel)
  obtain ⟨L, h3, h4⟩ := Scenario.okAnd_spec h2
  cases hl : lastPosition L 43 with
  | none => rw [hl] at h4; cases h4
  | some l =>
    cases ha : s'.g.accts.get? 43 with
    | none => rw [hl, ha] at h4; cases h4
    | some a =>
      rw [hl, ha] at h4
      simp only [decide_eq_true_eq] at h4
      refine ⟨s, s', L, l, a, hr, h1, h3, hl, ha, h4.1, h4.2, fun h => ?_⟩
      have := h.bidsBase
      omega

/-! Consuming the two fills of `ops1`: both makers have a record, and there is no removal in the queue. -/
open Scenario in
example : ∃ s s', Reachable s ∧ step s (.consumeEvents 0 8 [41, 42]) = .ok s' ∧
    okAnd (logs s (.consumeEvents 0 8 [41, 42])) (fun L => (lastPosition L 41).isSome && (lastPosition L 42).isSome && (lastPosition L 43).isNone &&
      s.g.heap.events.all (fun e => match e with | .out _ => false | .fill _ => true)) = true :=
  step_spec (a := args) (ops := ops1) (p := fun s _ => okAnd (logs s (.consumeEvents 0 8 [41, 42])) (fun L => (lastPosition L 41).isSome &&
    (lastPosition L 42).isSome && (lastPosition L 43).isNone && s.g.heap.events.all (fun e => match e with | .out _ => false | .fill _ => true)))
    (by decide +kernel)

/-! A history with records: the last order of `ops1` makes two fills, which are signed and stay in the queue until they are consumed. -/
open Scenario in
example : ∃ s0 s L, start args = .ok s0 ∧ LogRun s0 (ops1 ++ [.consumeEvents 0 1 [41, 42]]) s L ∧
    (signatures L).length = 2 ∧ (fillLogs L).length = 1 ∧ (queuedFills s.g).length = 1 ∧ (totalLogs L).length = 1 := by
  have : okAnd (start args) (fun s0 => okAnd (runLogs s0 (ops1 ++ [.consumeEvents 0 1 [41, 42]])) (fun x =>
    decide ((signatures x.2).length = 2 ∧ (fillLogs x.2).length = 1 ∧ (queuedFills x.1.g).length = 1 ∧ (totalLogs x.2).length = 1))) = true := by
    decide +kernel
  obtain ⟨s0, h1, h2⟩ := okAnd_spec this
  obtain ⟨⟨s, L⟩, h3, h4⟩ := okAnd_spec h2
  exact ⟨s0, s, L, h1, runLogs_run h3, of_decide_eq_true h4⟩

/-! A deposit and a settlement with their records. -/
open Scenario in
example : ∃ (s s' : State), Reachable s ∧ step s (.refill 31 41 51 61 1000 5100 500000) = .ok s' ∧
    (match logs s (.refill 31 41 51 61 1000 5100 500000) with
      | .ok [.deposit k w b q] => decide (k = 41 ∧ w = 31 ∧ 0 < b ∧ 0 < q ∧ tokens s 51 - tokens s' 51 = b ∧ tokens s 61 - tokens s' 61 = q)
      | _ => false) = true :=
  step_spec (a := args) (ops := ops1) (p := fun s s' => match logs s (.refill 31 41 51 61 1000 5100 500000) with
      | .ok [.deposit k w b q] => decide (k = 41 ∧ w = 31 ∧ 0 < b ∧ 0 < q ∧ tokens s 51 - tokens s' 51 = b ∧ tokens s 61 - tokens s' 61 = q)
      | _ => false) (by decide +kernel)

end OB
