import Verif.Proofs.Extra
/-! How one instruction can change the fee counters of the market. -/
namespace OB

inductive MktStep (s s' : State) (op : Op) : Prop
  | trade (avail : s'.g.market.feesAvailable = s.g.market.feesAvailable) (refs : s'.g.market.feesToReferrers = s.g.market.feesToReferrers)
      (earned : s'.g.market.referrerRebatesAccrued - s.g.market.referrerRebatesAccrued ≤ s'.g.market.feesAccrued - s.g.market.feesAccrued)
      (up : s.g.market.feesAccrued ≤ s'.g.market.feesAccrued)
  | settled (c : SettleCtx) (a : OOA) (hop : op = .settleFunds c ∨ ∃ admin now, op = .settleFundsExpired admin c now)
      (acct : s.g.accts.get? c.ooKey = some a) (res : s'.g.market = s.g.market.settled a.position c.referrer.isSome)
  | swept (receiver : Pubkey) (hop : op = .sweepFees s.g.market.collectFeeAdmin receiver) (res : s'.g.market = { s.g.market with
        feesAvailable := 0, quoteDepositTotal := s.g.market.quoteDepositTotal - s.g.market.feesAvailable })

theorem MktStep.same {s s' : State} {op : Op} (h : s'.g.market = s.g.market) : MktStep s s' op :=
  .trade (by rw [h]) (by rw [h]) (by rw [h]; omega) (by rw [h]; omega)

theorem MktStep.frame {s s' : State} {op : Op} (h : LFrame s.g s'.g) : MktStep s s' op :=
  .trade h.avail h.toRefs h.earned h.feesUp.1

theorem MktStep.pay {s s' : State} {op : Op} {g1 : Ledger} {k : Pubkey} (h1 : LFrame s.g g1) (h2 : PayFrame g1 k s'.g) :
    MktStep s s' op := by
  obtain ⟨b, q, e⟩ := h2.market
  have a1 := h1.avail
  have a2 := h1.toRefs
  have a3 := h1.earned
  have a4 := h1.feesUp.1
  refine .trade ?_ ?_ ?_ ?_ <;> rw [e] <;> simp only <;> assumption

theorem step_mkt {s s' : State} {op : Op} (hi : Inv s) (h : step s op = .ok s') : MktStep s s' op := by
  cases step_run h with
  | idle _ _ _ _ h => exact .same (by rw [h])
  | place op c o l r hop P => exact .pay (P.fx hi hop.typed).frame1 P.pay
  | edit op c client e o l r hop P =>
    rcases P.split hi hop.typed with h | ⟨g1, h1, h2⟩
    · exact .frame h
    · exact .pay h1 h2
  | multi c cancel t bids asks l now bs as rs hn hb ha P =>
    obtain ⟨hi1, f1⟩ := P.start hi
    have f2 := (multiLoop_res hi1.core (multiTyped hb ha) (Int.le_refl _) (Int.le_refl _) P.loop).2.1
    exact .pay (f1.trans f2) P.pay
  | take c a o r ho P =>
    have hfx := P.fx hi (takeOrder_typed ho)
    have f := hfx.frame1
    have hm : s'.g.market = P.g2.market := by rw [congrArg State.g P.res]
    have a1 := f.avail
    have a2 := f.toRefs
    have a3 := f.earned
    have a4 := f.feesUp.1
    refine .trade ?_ ?_ ?_ ?_ <;> rw [hm, congrArg Ledger.market hfx.amts.res] <;> simp only <;> assumption
  | consume op admin limit slots rem hop h => exact .frame (consumeEvents_Inv hi h).2
  | cancelOne signer k id h => exact .frame (cancelOrderIx_frame hi h)
  | cancel op signer k limit so co a q hop auth h => exact .frame (cancelAllFor_frame hi h).2.1
  | prune admin k now limit q auth exp hc => exact .frame (cancelAllFor_frame hi hc).2.1
  | deposit op signer k ub uq now b q b0 q0 hop P =>
    have hm := congrArg (fun s => s.g.market) P.res
    simp only at hm
    refine .trade ?_ ?_ ?_ ?_ <;> rw [hm] <;> simp only <;> omega
  | settle c h P => exact .settled c P.a (.inl rfl) P.acct (by rw [congrArg State.g P.res])
  | settleExpired admin c now h P => exact .settled c P.a (.inr ⟨_, _, rfl⟩) P.acct (by rw [congrArg State.g P.res])
  | sweep admin receiver h =>
    obtain ⟨_, ha, _, t, _, h⟩ := sweepFees_inv h
    exact .swept receiver (by rw [ha]) (by rw [h])
  | setExpired admin now auth live res => refine .trade ?_ ?_ ?_ ?_ <;> rw [res] <;> simp only <;> omega
  | close admin now P => exact .same (by rw [P.res])
  | createOO k owner d h _ hn res => exact .same (by rw [res])
  | closeOO k owner a ha hown hp res => exact .same (by rw [res])
  | delegate k owner d a ha hown res => exact .same (by rw [res])
  | token k t _ _ res => exact .same (by rw [res])
  | lamports k x _ _ res => exact .same (by rw [res])

end OB
