import Verif.Spec.Statement
import Verif.Props.C58_Wealth
/-!
C103  The statement of an account adds up over any stretch of time: what is due to it at the end is what was due at the beginning, plus what
was paid in, minus what was paid out, plus what its trades brought, minus the fees, up to the known rounding loss.
-/
namespace OB
open Spec

variable {s s' : State} {k : Pubkey}

theorem Spec.Unclosed.reachable (hr : Reachable s) (h : Unclosed k s s') : Reachable s' := by
  induction h with
  | now => exact hr
  | step s1 s2 op _ h _ ih => exact .step _ _ _ ih h

theorem unclosed_cfg (hr : Reachable s) (h : Unclosed k s s') : SameCfg s.g.market s'.g.market := by
  induction h with
  | now => exact SameCfg.refl _
  | step s1 s2 op hs h _ ih => exact ih.trans (step_cfg (reachable_Inv (hs.reachable hr)) h).1

theorem values_same {m m' : Market} (h : SameCfg m m') :
    makerBase m' = makerBase m ∧ makerQuote m' = makerQuote m ∧ makerSlack m' = makerSlack m ∧ takerBase m' = takerBase m ∧
      takerQuote m' = takerQuote m := by
  refine ⟨?_, ?_, ?_, ?_, ?_⟩ <;> funext f <;>
    simp only [makerBase, makerQuote, makerSlack, takerBase, takerQuote, fillQuote, fillRebate, fillMakerFee, h.bls, h.qls, h.maker]

/-- Any account that exists, at any later time before it is closed. -/
theorem C103_statement {a : OOA} (hr : Reachable s) (ha : s.g.accts.get? k = some a) (hs : Unclosed k s s') :
    ∃ t, Statement k s s' t ∧ ∃ a' loss, s'.g.accts.get? k = some a' ∧ 0 ≤ loss ∧ loss ≤ sumFills t.made (makerSlack s.g.market) ∧
      dueBase s' k a' = dueBase s k a + t.base s.g.market ∧ dueQuote s' k a' = dueQuote s k a + t.quote s.g.market - loss := by
  induction hs with
  | now => exact ⟨{}, .now, a, 0, ha, Int.le_refl 0, Int.le_refl 0, by simp [Sheet.base, sumFills], by simp [Sheet.quote, sumFills]⟩
  | step s1 s2 op hs h hc ih =>
    obtain ⟨t, ht, a1, l1, ha1, h0, h1, hb, hq⟩ := ih
    have hr1 := hs.reachable hr
    obtain ⟨e1, e2, e3, e4, e5⟩ := values_same (unclosed_cfg hr hs)
    cases hp : placer op with
    | some p =>
      obtain ⟨sx, cs, g1, P, _, _, hd⟩ := C58_trades hr1 h hp
      obtain ⟨a2, l2, b1, b2, b3, b4, b5⟩ := hd k a1 ha1
      rw [e1] at b4
      rw [e2] at b5
      rw [e3] at b3
      by_cases hk : k = p.owner ∧ p.hasOO = true
      · rw [if_pos hk] at b4 b5
        rw [e4] at b4
        rw [e5] at b5
        refine ⟨_, .own s1 s2 op t ht h p hp hk.2 hk.1.symm sx cs g1 P, a2, l1 + l2, b1, by omega, ?_, ?_, ?_⟩
        · simp only [sumFills_append]
          have : sumFills ((tradesOf cs).filter (fun f => f.maker = k)) (makerSlack s.g.market) = sumMaker (tradesOf cs) k (makerSlack s.g.market) := rfl
          omega
        · simp only [Sheet.base, sumFills_append, baseArrived] at hb ⊢
          have : sumFills ((tradesOf cs).filter (fun f => f.maker = k)) (makerBase s.g.market) = sumMaker (tradesOf cs) k (makerBase s.g.market) := rfl
          omega
        · simp only [Sheet.quote, sumFills_append, quoteArrived] at hq ⊢
          have : sumFills ((tradesOf cs).filter (fun f => f.maker = k)) (makerQuote s.g.market) = sumMaker (tradesOf cs) k (makerQuote s.g.market) := rfl
          omega
      · rw [if_neg hk] at b4 b5
        have hk' : p.hasOO = false ∨ p.owner ≠ k := by
          cases hh : p.hasOO with
          | false => exact .inl rfl
          | true => exact .inr (fun e => hk ⟨e.symm, hh⟩)
        refine ⟨_, .others s1 s2 op t ht h p hp hk' sx cs g1 P, a2, l1 + l2, b1, by omega, ?_, ?_, ?_⟩
        · simp only [sumFills_append]
          have : sumFills ((tradesOf cs).filter (fun f => f.maker = k)) (makerSlack s.g.market) = sumMaker (tradesOf cs) k (makerSlack s.g.market) := rfl
          omega
        · simp only [Sheet.base, sumFills_append] at hb ⊢
          have : sumFills ((tradesOf cs).filter (fun f => f.maker = k)) (makerBase s.g.market) = sumMaker (tradesOf cs) k (makerBase s.g.market) := rfl
          omega
        · simp only [Sheet.quote, sumFills_append] at hq ⊢
          have : sumFills ((tradesOf cs).filter (fun f => f.maker = k)) (makerQuote s.g.market) = sumMaker (tradesOf cs) k (makerQuote s.g.market) := rfl
          omega
    | none =>
      by_cases hf : fundsAccount op = some k
      · have dep : ∀ signer ub uq now b q, (op = .deposit signer k ub uq now b q ∨ op = .refill signer k ub uq now b q) →
            ∃ t, Statement k s s2 t ∧ ∃ a' loss, s2.g.accts.get? k = some a' ∧ 0 ≤ loss ∧ loss ≤ sumFills t.made (makerSlack s.g.market) ∧
              dueBase s2 k a' = dueBase s k a + t.base s.g.market ∧ dueQuote s2 k a' = dueQuote s k a + t.quote s.g.market - loss := by
          intro signer ub uq now b q hop
          obtain ⟨a2, c1, _, c2, c3⟩ := C58_deposit hr1 h hop a1 ha1
          refine ⟨_, .deposit s1 s2 op t ht h signer ub uq now b q hop, a2, l1, c1, h0, h1, ?_, ?_⟩
          · simp only [Sheet.base, baseArrived] at hb ⊢; omega
          · simp only [Sheet.quote, quoteArrived] at hq ⊢; omega
        have set : ∀ admin c now, (op = .settleFunds c ∨ op = .settleFundsExpired admin c now) → c.ooKey = k →
            ∃ t, Statement k s s2 t ∧ ∃ a' loss, s2.g.accts.get? k = some a' ∧ 0 ≤ loss ∧ loss ≤ sumFills t.made (makerSlack s.g.market) ∧
              dueBase s2 k a' = dueBase s k a + t.base s.g.market ∧ dueQuote s2 k a' = dueQuote s k a + t.quote s.g.market - loss := by
          intro admin c now hop hk
          obtain ⟨x, hS, hm⟩ := C58_settle hr1 h hop
          rw [hk] at hm
          obtain ⟨a2, c1, _, c2, c3⟩ := hm a1 ha1
          refine ⟨_, .settle s1 s2 op t ht h admin c now hop hk x hS, a2, l1, c1, h0, h1, ?_, ?_⟩
          · simp only [Sheet.base] at hb ⊢; omega
          · simp only [Sheet.quote] at hq ⊢; omega
        cases op <;> simp only [fundsAccount, reduceCtorEq, Option.some.injEq] at hf
        case deposit => subst hf; exact dep _ _ _ _ _ _ (.inl rfl)
        case refill => subst hf; exact dep _ _ _ _ _ _ (.inr rfl)
        case settleFunds c => exact set 0 c 0 (.inl rfl) hf
        case settleFundsExpired admin c now => exact set admin c now (.inr rfl) hf
        case closeOO j owner => exact absurd (by rw [hf]) (hc owner)
      · obtain ⟨a2, c1, _, c2, c3⟩ := C58_kept hr1 h hp hf a1 ha1
        exact ⟨t, .other s1 s2 op t ht h hp hf, a2, l1, c1, h0, h1, by omega, by omega⟩

/-- The whole life of an account, from its creation to its closing: everything that was paid in was paid out again, but for what the trades
brought or cost, the fees and the rounding loss. -/
theorem C103_closed {s0 s1 : State} {owner d owner' : Pubkey} (hr : Reachable s0) (h0 : step s0 (.createOO k owner d) = .ok s)
    (hs : Unclosed k s s') (h1 : step s' (.closeOO k owner') = .ok s1) :
    ∃ t, Statement k s s' t ∧ ∃ loss, 0 ≤ loss ∧ loss ≤ sumFills t.made (makerSlack s.g.market) ∧
      t.outBase = t.inBase + sumFills t.made (makerBase s.g.market) + sumFills t.took (takerBase s.g.market) ∧
      t.outQuote = t.inQuote + sumFills t.made (makerQuote s.g.market) + sumFills t.took (takerQuote s.g.market) - t.fees - loss := by
  have hr1 : Reachable s := .step _ _ _ hr h0
  obtain ⟨_, _, h2, h3⟩ := createOO_inv h0
  have ha : s.g.accts.get? k = some (OOA.fresh owner d) := by
    rw [h3]
    show Accts.get? (s0.g.accts ++ _) k = _
    rw [Accts.get?_append, h2]
    simp [Accts.get?]
  obtain ⟨_, _, d1, d2⟩ := EmptyPos.due (reachable_Inv hr1) ha (isEmpty_iff.mp rfl)
  obtain ⟨t, ht, a', loss, b1, b2, b3, b4, b5⟩ := C103_statement hr1 ha hs
  obtain ⟨a2, c1, _, _, c2, c3⟩ := C58_close (hs.reachable hr1) h1
  rw [b1] at c1
  cases c1
  refine ⟨t, ht, loss, b2, b3, ?_, ?_⟩
  · simp only [Sheet.base] at b4; omega
  · simp only [Sheet.quote] at b5; omega

/-- Without a maker fee nothing at all is lost. -/
theorem C103_exact {a : OOA} (hr : Reachable s) (ha : s.g.accts.get? k = some a) (hs : Unclosed k s s') (hm : s.g.market.makerFee ≤ 0) :
    ∃ t, Statement k s s' t ∧ ∃ a', s'.g.accts.get? k = some a' ∧
      dueBase s' k a' = dueBase s k a + t.base s.g.market ∧ dueQuote s' k a' = dueQuote s k a + t.quote s.g.market := by
  obtain ⟨t, ht, a', loss, b1, b2, b3, b4, b5⟩ := C103_statement hr ha hs
  have : sumFills t.made (makerSlack s.g.market) = 0 := by
    unfold sumFills
    have e : makerSlack s.g.market = fun _ => 0 := by
      funext f; unfold makerSlack; rw [if_neg (by omega)]
    rw [e]
    generalize t.made = fs
    induction fs with
    | nil => rfl
    | cons f fs ih => simp
  exact ⟨t, ht, a', b1, b4, by omega⟩

theorem sum_ceil {cs : List (Env × OrderResult)} {m : Market}
    (h : ∀ x ∈ cs, IsCeilFee (othersQuote x.2.fills * m.quoteLotSize) m.takerFee x.2.takerFees) :
    othersQuote (tradesOf cs) * m.quoteLotSize * m.takerFee ≤ takerFeesOf cs * 1000000 ∧
      takerFeesOf cs * 1000000 ≤ othersQuote (tradesOf cs) * m.quoteLotSize * m.takerFee + cs.length * 999999 := by
  induction cs with
  | nil => simp [tradesOf, othersQuote, takerFeesOf]
  | cons x cs ih =>
    obtain ⟨i1, i2⟩ := ih (fun y hy => h y (List.mem_cons_of_mem _ hy))
    obtain ⟨j1, j2⟩ := h x List.mem_cons_self
    have j3 : x.2.takerFees * 1000000 ≤ othersQuote x.2.fills * m.quoteLotSize * m.takerFee + 999999 := by
      have := j2 (x.2.takerFees - 1)
      omega
    have e1 : othersQuote (tradesOf (x :: cs)) = othersQuote x.2.fills + othersQuote (tradesOf cs) := by
      simp only [tradesOf, List.flatMap_cons, othersQuote, List.map_append, List.sum_append]
    have e2 : takerFeesOf (x :: cs) = x.2.takerFees + takerFeesOf cs := rfl
    rw [e1, e2]
    simp only [Int.add_mul, List.length_cons]
    omega

/-- The fees of the statement are the taker fee on what the account took from others, rounded up for every order it sent. -/
theorem C103_fees {t : Sheet} (hr : Reachable s) (ht : Statement k s s' t) :
    othersQuote t.took * s.g.market.quoteLotSize * s.g.market.takerFee ≤ t.fees * 1000000 ∧
      t.fees * 1000000 ≤ othersQuote t.took * s.g.market.quoteLotSize * s.g.market.takerFee + t.sent * 999999 := by
  have key : Reachable s' ∧ SameCfg s.g.market s'.g.market ∧
      othersQuote t.took * s.g.market.quoteLotSize * s.g.market.takerFee ≤ t.fees * 1000000 ∧
      t.fees * 1000000 ≤ othersQuote t.took * s.g.market.quoteLotSize * s.g.market.takerFee + t.sent * 999999 := by
    induction ht with
    | now => exact ⟨hr, SameCfg.refl _, by simp [othersQuote], by simp [othersQuote]⟩
    | other s1 s2 op t _ h _ _ ih =>
      exact ⟨.step _ _ _ ih.1 h, ih.2.1.trans (step_cfg (reachable_Inv ih.1) h).1, ih.2.2⟩
    | deposit s1 s2 op t _ h _ _ _ _ _ _ _ ih =>
      exact ⟨.step _ _ _ ih.1 h, ih.2.1.trans (step_cfg (reachable_Inv ih.1) h).1, ih.2.2⟩
    | settle s1 s2 op t _ h _ _ _ _ _ _ _ ih =>
      exact ⟨.step _ _ _ ih.1 h, ih.2.1.trans (step_cfg (reachable_Inv ih.1) h).1, ih.2.2⟩
    | others s1 s2 op t _ h _ _ _ _ _ _ _ ih =>
      exact ⟨.step _ _ _ ih.1 h, ih.2.1.trans (step_cfg (reachable_Inv ih.1) h).1, ih.2.2⟩
    | own s1 s2 op t _ h p hp hk ho sx cs g1 P ih =>
      obtain ⟨hr1, hc, i1, i2⟩ := ih
      refine ⟨.step _ _ _ hr1 h, hc.trans (step_cfg (reachable_Inv hr1) h).1, ?_⟩
      have := sum_ceil (cs := cs) (m := s1.g.market) fun x hx => by
        obtain ⟨_, _, _, gx, _, _, _, hpre, hcall, _⟩ := calls_split P.calls x hx
        have := (C27_no_fee_on_self_trades_partial hcall).1
        rw [hpre.lots.quote, hpre.taker, P.market1 hr1] at this
        exact this
      rw [hc.qls, hc.taker] at this
      have e : othersQuote (t.took ++ tradesOf cs) = othersQuote t.took + othersQuote (tradesOf cs) := by
        simp only [othersQuote, List.map_append, List.sum_append]
      simp only [e, Int.add_mul, Int.natCast_add]
      omega
  exact key.2.2

/-! A case. -/
namespace StatementCase
open Scenario

theorem run_unclosed {s1 : State} {ops : List Op} (hs : Unclosed k s s1) (hc : ∀ op ∈ ops, ∀ owner, op ≠ .closeOO k owner)
    (h : run s1 ops = .ok s') : Unclosed k s s' := by
  induction ops generalizing s1 with
  | nil => injection h with h; rwa [← h]
  | cons op ops ih =>
    unfold run at h
    cases h1 : step s1 op with
    | error e => rw [h1] at h; cases h
    | ok s2 =>
      rw [h1] at h
      exact ih (.step _ _ _ hs h1 (hc op List.mem_cons_self)) (fun x hx => hc x (List.mem_cons_of_mem _ hx)) h

/-- An ask of 5 lots at 1020; two are bought by another trader, two more of a bid at 1000 are sold to the account; the rest is cancelled
and everything is paid out. -/
def life : List Op :=
  [place 1 .ask 1020 5 1, place 1 .bid 1000 3 2, place 2 .bid 1020 2 9, place 2 .ask 1000 2 9, .consumeEvents 0 8 [42], .cancelAll 32 42 none 8,
   .settleFunds (settleTo 32 32 42 52 62)]

/-- The trades were at a profit of 400 quote, of which 4 + 4 are maker fees. -/
example : ∃ s0 s s' s1 : State, Reachable s0 ∧ step s0 (.createOO 42 32 0) = .ok s ∧ Unclosed 42 s s' ∧ step s' (.closeOO 42 32) = .ok s1 ∧
    tokens s' 52 = tokens s 52 ∧ tokens s' 62 = tokens s 62 + 392 := by
  obtain ⟨s0, h1, h2⟩ := exec_spec (a := args) (ops := [.createOO 43 33 0]) (p := fun s0 =>
    okAnd (step s0 (.createOO 42 32 0)) (fun s => okAnd (run s life) (fun s' => okAnd (step s' (.closeOO 42 32)) (fun _ =>
      decide (tokens s' 52 = tokens s 52 ∧ tokens s' 62 = tokens s 62 + 392))))) (by decide +kernel)
  obtain ⟨s, h3, h4⟩ := okAnd_spec h2
  obtain ⟨s', h5, h6⟩ := okAnd_spec h4
  obtain ⟨s1, h7, h8⟩ := okAnd_spec h6
  refine ⟨s0, s, s', s1, h1, h3, run_unclosed .now ?_ h5, h7, of_decide_eq_true h8⟩
  intro op hop owner
  simp only [life, List.mem_cons, List.not_mem_nil, or_false] at hop
  rcases hop with rfl | rfl | rfl | rfl | rfl | rfl | rfl <;> simp [place]

end StatementCase
end OB
